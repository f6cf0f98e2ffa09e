import Verif.Spec.Join
import Verif.Props.TreeOrder
import Verif.Props.Cdp

/-!
# C119: two forests together

The probability, expectation and weights of the trees of two forests together are the means of those of the two, the rule is the intersection of the
two rules, and repeating the trees changes nothing.
-/

namespace Acv

variable {mems mems' : List Mem} {data : Nat → Row} {y : Nat → ℚ} {minSize maxDepth N : Nat}

theorem cellSum_scaled (cells : List (List Nat)) (f : Nat → ℚ) :
    (cells.length : ℚ) * cellSum cells f = (cells.map fun c => (c.map fun i => 1 / (c.length : ℚ) * f i).sum).sum := by
  unfold cellSum
  rcases Nat.eq_zero_or_pos cells.length with h | h
  · rw [List.length_eq_zero_iff.1 h]; simp
  · have hne : (cells.length : ℚ) ≠ 0 := by exact_mod_cast h.ne'
    rw [← List.sum_map_mul_left]
    congr 1
    refine List.map_congr_left fun c _ => ?_
    rw [← List.sum_map_mul_left]
    congr 1
    refine List.map_congr_left fun i _ => ?_
    rcases Nat.eq_zero_or_pos c.length with hc | hc
    · rw [hc]; simp
    · have hcn : (c.length : ℚ) ≠ 0 := by exact_mod_cast hc.ne'
      field_simp

theorem weightsOf_scaled (cells : List (List Nat)) (i : Nat) :
    (cells.length : ℚ) * weightsOf cells i = (cells.map fun c => (c.count i : ℚ) * (1 / (c.length : ℚ))).sum := by
  unfold weightsOf
  rcases Nat.eq_zero_or_pos cells.length with h | h
  · rw [List.length_eq_zero_iff.1 h]; simp
  · have hne : (cells.length : ℚ) ≠ 0 := by exact_mod_cast h.ne'
    rw [← List.sum_map_mul_left]
    congr 1
    refine List.map_congr_left fun c _ => ?_
    rcases Nat.eq_zero_or_pos c.length with hc | hc
    · rw [hc]; simp
    · have hcn : (c.length : ℚ) ≠ 0 := by exact_mod_cast hc.ne'
      field_simp

theorem cellSum_append (cells cells' : List (List Nat)) (f : Nat → ℚ) :
    AverageOf cells.length cells'.length (cellSum cells f) (cellSum cells' f) (cellSum (cells ++ cells') f) := by
  have h := cellSum_scaled (cells ++ cells') f
  rw [List.map_append, List.sum_append, ← cellSum_scaled, ← cellSum_scaled, List.length_append, Nat.cast_add] at h
  exact h

theorem weightsOf_append (cells cells' : List (List Nat)) (i : Nat) :
    AverageOf cells.length cells'.length (weightsOf cells i) (weightsOf cells' i) (weightsOf (cells ++ cells') i) := by
  have h := weightsOf_scaled (cells ++ cells') i
  rw [List.map_append, List.sum_append, ← weightsOf_scaled, ← weightsOf_scaled, List.length_append, Nat.cast_add] at h
  exact h

/-! ## Rules -/

/-- The bounds of two rules. -/
def ruleMeet (p q : Rule) : Rule := fun j => (max (p j).1 (q j).1, min (p j).2 (q j).2)

theorem tighten_meet (p q : Rule) (u : Bool × Nat × ℚ) : tighten (ruleMeet p q) u = ruleMeet (tighten p u) q := by
  funext f
  obtain ⟨b, g, thr⟩ := u
  simp only [tighten_apply, ruleMeet]
  by_cases hf : f = g
  · cases b
    · simp [hf, max_right_comm]
    · simp [hf, min_assoc]
  · simp [hf]

theorem foldl_tighten_meet : ∀ (us : List (Bool × Nat × ℚ)) (p q : Rule), us.foldl tighten (ruleMeet p q) = ruleMeet (us.foldl tighten p) q
  | [], _, _ => rfl
  | u :: us, p, q => by
    rw [List.foldl_cons, List.foldl_cons, tighten_meet, foldl_tighten_meet us]

/-- `p` asks for at least what `q` asks for. -/
def Tighter (p q : Rule) : Prop := ∀ j, (q j).1 ≤ (p j).1 ∧ (p j).2 ≤ (q j).2

theorem foldl_tighter : ∀ (us : List (Bool × Nat × ℚ)) (p : Rule), Tighter (us.foldl tighten p) p
  | [], p => fun j => ⟨le_refl _, le_refl _⟩
  | u :: us, p => by
    intro j
    have h := foldl_tighter us (tighten p u) j
    rw [List.foldl_cons]
    have h2 : (p j).1 ≤ (tighten p u j).1 ∧ (tighten p u j).2 ≤ (p j).2 := by
      obtain ⟨b, g, thr⟩ := u
      rw [tighten_apply]
      by_cases hf : j = g
      · cases b <;> simp [hf]
      · simp [hf]
    exact ⟨h2.1.trans h.1, h.2.trans h2.2⟩

theorem foldl_append_rules (us vs : List (Bool × Nat × ℚ)) (r : Rule) :
    BothRules (us.foldl tighten r) (vs.foldl tighten r) ((us ++ vs).foldl tighten r) := by
  have e : ruleMeet r (us.foldl tighten r) = us.foldl tighten r := by
    funext j
    have h := foldl_tighter us r j
    simp only [ruleMeet, max_eq_right h.1, min_eq_right h.2]
  intro j
  rw [List.foldl_append, ← e, foldl_tighten_meet, e]
  simp only [ruleMeet, max_comm, min_comm]

/-- The walk over the trees of two forests. -/
theorem forestRunD_append (push : List Int → Int → List Int) (dir : Int → ℚ → Option Bool) (data : Nat → Row) (minSize maxDepth N : Nat)
    (mems mems' : List Mem) (r : Rule) :
    (forestRunD push dir data minSize maxDepth N (mems ++ mems') r).1 =
      (forestRunD push dir data minSize maxDepth N mems r).1 ++ (forestRunD push dir data minSize maxDepth N mems' r).1 ∧
    BothRules (forestRunD push dir data minSize maxDepth N mems r).2 (forestRunD push dir data minSize maxDepth N mems' r).2
      (forestRunD push dir data minSize maxDepth N (mems ++ mems') r).2 ∧
    (forestRunD push dir data minSize maxDepth N mems r).1.length = mems.length := by
  obtain ⟨g, hg⟩ := forestRunD_updates push dir data minSize maxDepth N
  rw [hg, hg, hg]
  refine ⟨by simp, ?_, by simp⟩
  rw [List.flatMap_append]
  exact foldl_append_rules _ _ r

/-! ## C119 -/

/-- **C119, probabilities and expectations**: those of two forests together are the means of those of the two, weighted by the numbers of trees. -/
theorem C119_forest (mems mems' : List Mem) (S : List Nat) (x : Row) (yx : ℚ) (data : Nat → Row) (y : Nat → ℚ) (minSize maxDepth N : Nat)
    (classifier : Bool) (t : ℚ × ℚ) :
    AverageOf mems.length mems'.length (sdpRf mems S x yx data y minSize maxDepth N classifier t)
      (sdpRf mems' S x yx data y minSize maxDepth N classifier t) (sdpRf (mems ++ mems') S x yx data y minSize maxDepth N classifier t) ∧
    AverageOf mems.length mems'.length (ddpRf mems S x yx data y minSize maxDepth N classifier t)
      (ddpRf mems' S x yx data y minSize maxDepth N classifier t) (ddpRf (mems ++ mems') S x yx data y minSize maxDepth N classifier t) ∧
    AverageOf mems.length mems'.length (expRf mems S x data y minSize maxDepth N) (expRf mems' S x data y minSize maxDepth N)
      (expRf (mems ++ mems') S x data y minSize maxDepth N) ∧
    (∀ q : ℚ, AverageOf mems.length mems'.length (cdfRf mems S x data y minSize maxDepth N q) (cdfRf mems' S x data y minSize maxDepth N q)
      (cdfRf (mems ++ mems') S x data y minSize maxDepth N q)) ∧
    ∀ i, AverageOf mems.length mems'.length (ruleWeights mems S x data minSize maxDepth N i) (ruleWeights mems' S x data minSize maxDepth N i)
      (ruleWeights (mems ++ mems') S x data minSize maxDepth N i) := by
  have key : ∀ (push : List Int → Int → List Int),
      (forestRun push S x data minSize maxDepth N (mems ++ mems') Rule.init).1 =
        (forestRun push S x data minSize maxDepth N mems Rule.init).1 ++ (forestRun push S x data minSize maxDepth N mems' Rule.init).1 ∧
      (forestRun push S x data minSize maxDepth N mems Rule.init).1.length = mems.length ∧
      (forestRun push S x data minSize maxDepth N mems' Rule.init).1.length = mems'.length := by
    intro push
    simp only [← forestRunD_dirS]
    have h := forestRunD_append push (dirS S x) data minSize maxDepth N mems mems' Rule.init
    exact ⟨h.1, h.2.2, (forestRunD_append push (dirS S x) data minSize maxDepth N mems' [] Rule.init).2.2⟩
  have hs : ∀ f : Nat → ℚ, AverageOf mems.length mems'.length (cellSum (cellsSet mems S x data minSize maxDepth N) f)
      (cellSum (cellsSet mems' S x data minSize maxDepth N) f) (cellSum (cellsSet (mems ++ mems') S x data minSize maxDepth N) f) := by
    intro f
    obtain ⟨h1, h2, h3⟩ := key setInsert
    have := cellSum_append (cellsSet mems S x data minSize maxDepth N) (cellsSet mems' S x data minSize maxDepth N) f
    unfold cellsSet at this ⊢
    rw [h1]
    rwa [h2, h3] at this
  refine ⟨hs _, hs _, hs _, fun q => ?_, fun i => ?_⟩
  · obtain ⟨h1, h2, h3⟩ := key pushBack
    have := cellSum_append (cellsVec mems S x data minSize maxDepth N) (cellsVec mems' S x data minSize maxDepth N) fun i => ind (decide (y i ≤ q))
    unfold cdfRf cellsVec at *
    rw [h1]
    rwa [h2, h3] at this
  · obtain ⟨h1, h2, h3⟩ := key setInsert
    have := weightsOf_append (cellsSet mems S x data minSize maxDepth N) (cellsSet mems' S x data minSize maxDepth N) i
    unfold cellsSet at this
    rw [h2, h3, ← h1] at this
    exact this

/-- **C119, rules**: the rule of two forests together asks for what the two rules ask for. -/
theorem C119_rule (mems mems' : List Mem) (S : List Nat) (x : Row) (yx down up : ℚ) (data : Nat → Row) (y : Nat → ℚ) (minSize maxDepth N : Nat)
    (classifier : Bool) (t : ℚ × ℚ) :
    BothRules (sdpRule mems S x yx data y minSize maxDepth N classifier t).2 (sdpRule mems' S x yx data y minSize maxDepth N classifier t).2
      (sdpRule (mems ++ mems') S x yx data y minSize maxDepth N classifier t).2 ∧
    BothRules (cdpRule mems S x yx down up data y minSize maxDepth N classifier).2 (cdpRule mems' S x yx down up data y minSize maxDepth N classifier).2
      (cdpRule (mems ++ mems') S x yx down up data y minSize maxDepth N classifier).2 := by
  have h := (forestRunD_append setInsert (dirS S x) data minSize maxDepth N mems mems' Rule.init).2.1
  refine ⟨?_, h⟩
  rw [forestRunD_dirS, forestRunD_dirS, forestRunD_dirS] at h
  exact h

/-- **C119, counterfactual probabilities** and those under a rule, with the weights of the rows. -/
theorem C119_cond (mems mems' : List Mem) (S : List Nat) (x : Row) (cond : Rule) (yx down up : ℚ) (data : Nat → Row) (y : Nat → ℚ)
    (minSize maxDepth N : Nat) (classifier : Bool) (t : ℚ × ℚ) :
    AverageOf mems.length mems'.length (cdpRf mems S x yx down up data y minSize maxDepth N classifier)
      (cdpRf mems' S x yx down up data y minSize maxDepth N classifier) (cdpRf (mems ++ mems') S x yx down up data y minSize maxDepth N classifier) ∧
    AverageOf mems.length mems'.length (cdpCond mems S x cond yx down up data y minSize maxDepth N classifier).1
      (cdpCond mems' S x cond yx down up data y minSize maxDepth N classifier).1
      (cdpCond (mems ++ mems') S x cond yx down up data y minSize maxDepth N classifier).1 ∧
    (∀ i, AverageOf mems.length mems'.length ((cdpCond mems S x cond yx down up data y minSize maxDepth N classifier).2 i)
      ((cdpCond mems' S x cond yx down up data y minSize maxDepth N classifier).2 i)
      ((cdpCond (mems ++ mems') S x cond yx down up data y minSize maxDepth N classifier).2 i)) ∧
    AverageOf mems.length mems'.length (ddpCond mems S x cond yx t data y minSize maxDepth N classifier).1
      (ddpCond mems' S x cond yx t data y minSize maxDepth N classifier).1 (ddpCond (mems ++ mems') S x cond yx t data y minSize maxDepth N classifier).1 ∧
    AverageOf mems.length mems'.length (cdpIntv mems S cond yx t data y minSize maxDepth N classifier).1
      (cdpIntv mems' S cond yx t data y minSize maxDepth N classifier).1 (cdpIntv (mems ++ mems') S cond yx t data y minSize maxDepth N classifier).1 ∧
    AverageOf mems.length mems'.length (ddpIntv mems S cond yx t data y minSize maxDepth N classifier).1
      (ddpIntv mems' S cond yx t data y minSize maxDepth N classifier).1
      (ddpIntv (mems ++ mems') S cond yx t data y minSize maxDepth N classifier).1 := by
  have hs : ∀ (dir : Int → ℚ → Option Bool) (f : Nat → ℚ), AverageOf mems.length mems'.length (cellSum (cellsD mems dir data minSize maxDepth N) f)
      (cellSum (cellsD mems' dir data minSize maxDepth N) f) (cellSum (cellsD (mems ++ mems') dir data minSize maxDepth N) f) := by
    intro dir f
    have h := forestRunD_append setInsert dir data minSize maxDepth N mems mems' Rule.init
    have h' := (forestRunD_append setInsert dir data minSize maxDepth N mems' [] Rule.init).2.2
    have := cellSum_append (cellsD mems dir data minSize maxDepth N) (cellsD mems' dir data minSize maxDepth N) f
    unfold cellsD at this ⊢
    rw [h.1]
    rwa [h.2.2, h'] at this
  refine ⟨hs _ _, hs _ _, fun i => ?_, hs _ _, hs _ _, hs _ _⟩
  have h := forestRunD_append setInsert (dirCond S x cond) data minSize maxDepth N mems mems' Rule.init
  have h' := (forestRunD_append setInsert (dirCond S x cond) data minSize maxDepth N mems' [] Rule.init).2.2
  have := weightsOf_append (cellsD mems (dirCond S x cond) data minSize maxDepth N) (cellsD mems' (dirCond S x cond) data minSize maxDepth N) i
  unfold cellsD at this
  rw [h.2.2, h', ← h.1] at this
  exact this

/-- **C119, levels**: a set that reaches the level in both forests reaches it in the two together, and one that misses it in both misses it. -/
theorem C119_level (hne : mems ≠ [] ∨ mems' ≠ []) (S : List Nat) (x : Row) (yx : ℚ) (classifier : Bool) (t : ℚ × ℚ) (pi : ℚ) :
    (pi ≤ sdpRf mems S x yx data y minSize maxDepth N classifier t → pi ≤ sdpRf mems' S x yx data y minSize maxDepth N classifier t →
      pi ≤ sdpRf (mems ++ mems') S x yx data y minSize maxDepth N classifier t) ∧
    (sdpRf mems S x yx data y minSize maxDepth N classifier t < pi → sdpRf mems' S x yx data y minSize maxDepth N classifier t < pi →
      sdpRf (mems ++ mems') S x yx data y minSize maxDepth N classifier t < pi) := by
  have h := (C119_forest mems mems' S x yx data y minSize maxDepth N classifier t).1
  unfold AverageOf at h
  have h1 : (0 : ℚ) ≤ mems.length := by positivity
  have h2 : (0 : ℚ) ≤ mems'.length := by positivity
  have h3 : (0 : ℚ) < mems.length + mems'.length := by
    have : 0 < mems.length + mems'.length := by
      rcases hne with h | h
      · have := List.length_pos_of_ne_nil h; omega
      · have := List.length_pos_of_ne_nil h; omega
    exact_mod_cast this
  generalize sdpRf mems S x yx data y minSize maxDepth N classifier t = a at h ⊢
  generalize sdpRf mems' S x yx data y minSize maxDepth N classifier t = b at h ⊢
  generalize sdpRf (mems ++ mems') S x yx data y minSize maxDepth N classifier t = c at h ⊢
  constructor
  · intro ha hb
    by_contra hc
    nlinarith [mul_le_mul_of_nonneg_left ha h1, mul_le_mul_of_nonneg_left hb h2, mul_lt_mul_of_pos_left (not_le.1 hc) h3]
  · intro ha hb
    by_contra hc
    have hc' := mul_le_mul_of_nonneg_left (not_lt.1 hc) h3.le
    rcases h1.eq_or_lt with e | e
    · rcases h2.eq_or_lt with e' | e'
      · rw [← e, ← e'] at h3; norm_num at h3
      · nlinarith [mul_lt_mul_of_pos_left hb e', mul_le_mul_of_nonneg_left ha.le h1]
    · nlinarith [mul_lt_mul_of_pos_left ha e, mul_le_mul_of_nonneg_left hb.le h2]

/-- **C119, copies**: a forest whose trees are all repeated `k` times gives the same probabilities, expectations, weights and rules, and the same
results of the searches. -/
theorem C119_copies {k : Nat} (hk : 0 < k) (mems : List Mem) (data : Nat → Row) (y : Nat → ℚ) (minSize maxDepth N : Nat)
    (classifier : Bool) :
    (∀ S x yx t, sdpRf (List.replicate k mems).flatten S x yx data y minSize maxDepth N classifier t =
      sdpRf mems S x yx data y minSize maxDepth N classifier t) ∧
    (∀ S x, expRf (List.replicate k mems).flatten S x data y minSize maxDepth N = expRf mems S x data y minSize maxDepth N) ∧
    (∀ S x, ruleWeights (List.replicate k mems).flatten S x data minSize maxDepth N = ruleWeights mems S x data minSize maxDepth N) ∧
    (∀ S x yx t, (sdpRule (List.replicate k mems).flatten S x yx data y minSize maxDepth N classifier t).2 =
      (sdpRule mems S x yx data y minSize maxDepth N classifier t).2) ∧
    ∀ (X : Nat → Row) (yX : Nat → ℚ) (t : Nat → ℚ × ℚ) (n cols : Nat) (order : List Nat) (C : List (List Nat)) (pi : ℚ) (minimal : Nat) (stop : Bool)
      (half : Nat),
      importanceSdpRf (fun i S => sdpRf (List.replicate k mems).flatten S (X i) (yX i) data y minSize maxDepth N classifier (t i)) n cols order C pi
        minimal stop half =
      importanceSdpRf (fun i S => sdpRf mems S (X i) (yX i) data y minSize maxDepth N classifier (t i)) n cols order C pi minimal stop half := by
  have hlen : ∀ k : Nat, ((List.replicate k mems).flatten).length = k * mems.length := fun k => by simp
  have havg : ∀ (v : List Mem → ℚ), v [] = 0 → (∀ a b : List Mem, AverageOf a.length b.length (v a) (v b) (v (a ++ b))) →
      v (List.replicate k mems).flatten = v mems := by
    intro v h0 hv
    rcases Nat.eq_zero_or_pos mems.length with h | h
    · rw [List.length_eq_zero_iff.1 h]; simp [h0]
    · have hm : (mems.length : ℚ) ≠ 0 := by exact_mod_cast h.ne'
      have hind : ∀ k : Nat, (k * mems.length : ℚ) * v (List.replicate k mems).flatten = (k * mems.length : ℚ) * v mems := by
        intro k
        induction k with
        | zero => simp
        | succ k ih =>
          rw [List.replicate_succ, List.flatten_cons]
          have := hv mems (List.replicate k mems).flatten
          unfold AverageOf at this
          rw [hlen k] at this
          push_cast at this ⊢
          have e : ((k : ℚ) + 1) * mems.length = mems.length + k * mems.length := by ring
          rw [e, this, ih]
          ring
      have hkq : (k : ℚ) ≠ 0 := by exact_mod_cast hk.ne'
      exact mul_left_cancel₀ (mul_ne_zero hkq hm) (hind k)
  have hsdp : ∀ S x yx t, sdpRf (List.replicate k mems).flatten S x yx data y minSize maxDepth N classifier t =
      sdpRf mems S x yx data y minSize maxDepth N classifier t := fun S x yx t =>
    havg (fun ms => sdpRf ms S x yx data y minSize maxDepth N classifier t) (by simp [sdpRf, cellsSet, forestRun, cellSum])
      fun a b => (C119_forest a b S x yx data y minSize maxDepth N classifier t).1
  refine ⟨hsdp, fun S x => ?_, fun S x => funext fun i => ?_, fun S x yx t => ?_, fun X yX t n cols order C pi minimal stop half => ?_⟩
  · exact havg (fun ms => expRf ms S x data y minSize maxDepth N) (by simp [expRf, cellsSet, forestRun, cellSum])
      fun a b => (C119_forest a b S x 0 data y minSize maxDepth N classifier (0, 0)).2.2.1
  · exact havg (fun ms => ruleWeights ms S x data minSize maxDepth N i) (by simp [ruleWeights, cellsSet, forestRun])
      fun a b => (C119_forest a b S x 0 data y minSize maxDepth N classifier (0, 0)).2.2.2.2 i
  · obtain ⟨k, rfl⟩ : ∃ k', k = k' + 1 := ⟨k - 1, by omega⟩
    clear hk havg hsdp
    induction k with
    | zero => simp
    | succ k ih =>
      rw [List.replicate_succ, List.flatten_cons]
      funext j
      rw [(C119_rule mems _ S x yx 0 0 data y minSize maxDepth N classifier t).1 j, ih]
      simp
  · simp only [hsdp]

/-- Two forests of one tree: their probabilities, and the joint rule. -/
example : (sdpRf [Mem.ofTree rootSplit leafJunk] [0] (diag 4) 1 diag (fun i => if i ≤ 4 then 1 else 0) 1 3 10 true (0, 0) = 3 / 8) ∧
    sdpRf [Mem.ofTree ladderTree leafJunk] [1] (diag 2) 1 diag (fun i => if i ≤ 4 then 1 else 0) 1 3 10 true (0, 0) = 1 ∧
    BothRules (sdpRule [Mem.ofTree rootSplit leafJunk] [0, 1] (diag 2) 1 diag (fun _ => 1) 1 3 10 true (0, 0)).2
      (sdpRule [Mem.ofTree ladderTree leafJunk] [0, 1] (diag 2) 1 diag (fun _ => 1) 1 3 10 true (0, 0)).2
      (sdpRule [Mem.ofTree rootSplit leafJunk, Mem.ofTree ladderTree leafJunk] [0, 1] (diag 2) 1 diag (fun _ => 1) 1 3 10 true (0, 0)).2 ∧
    (sdpRule [Mem.ofTree rootSplit leafJunk, Mem.ofTree ladderTree leafJunk] [0, 1] (diag 2) 1 diag (fun _ => 1) 1 3 10 true (0, 0)).2 1 ≠
      Rule.init 1 :=
  ⟨by decide +kernel, by decide +kernel, (C119_rule [_] [_] _ _ _ 0 0 _ _ _ _ _ _ _).1, by decide +kernel⟩

end Acv

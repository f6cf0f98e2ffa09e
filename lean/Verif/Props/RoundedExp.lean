import Verif.Props.RoundedSdp

/-!
# C104: conditional expectations of a tree ensemble in double precision, under every interleaving
-/

namespace Acv

theorem solo_once {Cell V : Type} [DecidableEq Cell] {prog : List (Stmt Cell V)} {s : Stmt Cell V} (hs : s ∈ prog)
    (hn : (prog.map Stmt.dst).Nodup) (hsrc : s.srcs = [s.dst]) (mem : Cell → V) : solo mem prog s.dst = s.f [mem s.dst] := by
  obtain ⟨a, b, rfl⟩ := List.append_of_mem hs
  rw [List.map_append, List.map_cons, List.nodup_append] at hn
  obtain ⟨_, hb, hab⟩ := hn
  rw [List.nodup_cons] at hb
  rw [solo_append]
  have h1 : ∀ m : Cell → V, solo m (s :: b) s.dst = s.f [m s.dst] := by
    intro m
    show solo (Stmt.exec m s) b s.dst = _
    rw [solo_untouched _ (fun s' hs' e => hb.1 (by rw [← e]; exact List.mem_map_of_mem hs'))]
    simp [Stmt.exec, setCell, hsrc]
  rw [h1, solo_untouched _ (fun s' hs' e => hab _ (List.mem_map_of_mem hs') s.dst (by simp) e)]

theorem accProgM_dst_nodup {V : Type} (A : Machine V) (tab nbLeaf N Q : Nat) (add : Nat → Nat → Option (Nat → V)) (leaf : Nat) :
    ((accProgM A tab nbLeaf N Q add leaf).map Stmt.dst).Nodup := by
  unfold accProgM
  split
  · rw [List.map_flatMap, List.nodup_flatMap]
    constructor
    · intro i _
      cases add leaf i with
      | none => simp
      | some f =>
        simp only [List.map_map]
        refine List.Nodup.map ?_ List.nodup_range
        intro a b h
        simpa using h
    · refine List.Pairwise.imp ?_ (List.nodup_range (n := N))
      intro i j hij c hc hc'
      have key : ∀ i, c ∈ List.map Stmt.dst (match add leaf i with
          | none => []
          | some f => (List.range Q).map fun q => (⟨⟨tab, leaf, i, q⟩, [⟨tab, leaf, i, q⟩], fun l => A.add (l.headD (A.ofNat 0)) (f q)⟩ : Stmt ACell V)) →
          c.row = i := by
        intro i h
        cases hadd : add leaf i with
        | none => simp [hadd] at h
        | some f =>
          simp only [hadd, List.map_map, List.mem_map] at h
          obtain ⟨q, _, rfl⟩ := h
          rfl
      exact hij ((key i hc).symm.trans (key j hc'))
  · simp

theorem accProgM_owner {V : Type} {A : Machine V} {tab nbLeaf N Q : Nat} {add : Nat → Nat → Option (Nat → V)} {leaf : Nat} {s : Stmt ACell V}
    (hs : s ∈ accProgM A tab nbLeaf N Q add leaf) :
    ∃ i < N, ∃ q < Q, ∃ f, leaf < nbLeaf ∧ add leaf i = some f ∧
      s = ⟨⟨tab, leaf, i, q⟩, [⟨tab, leaf, i, q⟩], fun l => A.add (l.headD (A.ofNat 0)) (f q)⟩ := by
  unfold accProgM at hs
  split at hs
  · rename_i hl
    obtain ⟨i, hi, h⟩ := List.mem_flatMap.mp hs
    cases hadd : add leaf i with
    | none => simp [hadd] at h
    | some f =>
      simp only [hadd, List.mem_map, List.mem_range] at h
      obtain ⟨q, hq, rfl⟩ := h
      exact ⟨i, List.mem_range.mp hi, q, hq, f, hl, hadd, rfl⟩
  · simp at hs

/-- What the loop of one tree leaves in a cell, for any arithmetic. -/
theorem accProgM_solo {V : Type} (A : Machine V) (tab nbLeaf N Q : Nat) (add : Nat → Nat → Option (Nat → V)) (leaf i q : Nat) (hi : i < N) (hq : q < Q)
    (mem : ACell → V) : solo mem (accProgM A tab nbLeaf N Q add leaf) ⟨tab, leaf, i, q⟩ =
      match (if leaf < nbLeaf then add leaf i else none) with
      | none => mem ⟨tab, leaf, i, q⟩
      | some f => A.add (mem ⟨tab, leaf, i, q⟩) (f q) := by
  cases hadd : (if leaf < nbLeaf then add leaf i else none) with
  | none =>
    apply solo_untouched
    intro s hs e
    obtain ⟨i', _, q', _, f, hl, hf, rfl⟩ := accProgM_owner hs
    simp only [ACell.mk.injEq, true_and] at e
    obtain ⟨rfl, rfl⟩ := e
    rw [if_pos hl, hf] at hadd
    simp at hadd
  | some f =>
    have hl : leaf < nbLeaf := by
      by_contra h
      rw [if_neg h] at hadd
      simp at hadd
    rw [if_pos hl] at hadd
    have hs : (⟨⟨tab, leaf, i, q⟩, [⟨tab, leaf, i, q⟩], fun l => A.add (l.headD (A.ofNat 0)) (f q)⟩ : Stmt ACell V) ∈
        accProgM A tab nbLeaf N Q add leaf := by
      unfold accProgM
      rw [if_pos hl]
      refine List.mem_flatMap.mpr ⟨i, List.mem_range.mpr hi, ?_⟩
      simp only [hadd]
      exact List.mem_map.mpr ⟨q, List.mem_range.mpr hq, rfl⟩
    have := solo_once hs (accProgM_dst_nodup A tab nbLeaf N Q add leaf) rfl mem
    simpa using this

/-- What the loops of all trees leave in a cell of table 0, in rounded arithmetic. -/
theorem accTreesM_approx {rnd : ℚ → ℚ} {u : ℚ} (hr : RelErr rnd u) (hu : 0 ≤ u) (N Q : Nat) {leaf i q : Nat} (hi : i < N) (hq : q < Q)
    {β : Type} (nb : β → Nat) (add : β → Nat → Nat → Option (Nat → ℚ)) (A X : β → ℚ) : ∀ (ts : List β) (scheds : List (List Nat)) (mem : ACell → ℚ) (e : Nat) (a0 x0 : ℚ), Approx u e a0 x0 (mem ⟨0, leaf, i, q⟩) →
    (∀ t ∈ ts, Approx u e (A t) (X t) (match (if leaf < nb t then add t leaf i else none) with
      | none => 0
      | some f => f q)) →
    (∀ c ∈ (accTreesM (roundMachine rnd) N Q (ts.map fun t => (0, nb t, add t)) scheds mem).2, c.finished) →
    Approx u (e + ts.length) (a0 + (ts.map A).sum) (x0 + (ts.map X).sum)
      ((accTreesM (roundMachine rnd) N Q (ts.map fun t => (0, nb t, add t)) scheds mem).1 ⟨0, leaf, i, q⟩)
  | [], scheds, mem, e, a0, x0, h, _, _ => by simpa [accTreesM] using h
  | t :: ts, scheds, mem, e, a0, x0, h, ht, hf => by
    rw [List.map_cons] at hf ⊢
    unfold accTreesM at hf ⊢
    simp only [List.mem_cons, forall_eq_or_imp] at hf ⊢
    have hown : ∀ i, ∀ s ∈ accProgM (roundMachine rnd) 0 (nb t) N Q (add t) i, s.dst.leaf = i ∧ ∀ c ∈ s.srcs, c.leaf = i := by
      intro i s hs
      obtain ⟨i', _, q', _, f, _, _, rfl⟩ := accProgM_owner hs
      exact ⟨rfl, by simp⟩
    have hquiet : Quiet (accProgM (roundMachine rnd) 0 (nb t) N Q (add t)) leaf ⟨0, leaf, i, q⟩ := by
      intro j hj s hs he
      exact hj (by rw [← (hown j s hs).1, he])
    have hstep := run_finished (raceFree_of_owner ACell.leaf hown) hf.1 hquiet
    rw [accProgM_solo (roundMachine rnd) 0 (nb t) N Q (add t) leaf i q hi hq mem] at hstep
    have hA := ht t (by simp)
    have hnew : Approx u (e + 1) (a0 + A t) (x0 + X t) (((Conf.start (accProgM (roundMachine rnd) 0 (nb t) N Q (add t)) mem).run (scheds.headD [])).mem
        ⟨0, leaf, i, q⟩) := by
      rw [hstep]
      cases hadd : (if leaf < nb t then add t leaf i else none) with
      | none =>
        rw [hadd] at hA
        simp only at hA ⊢
        have := h.add hA
        rw [add_zero] at this
        exact this.mono hu (by omega) (le_refl _)
      | some f =>
        rw [hadd] at hA
        exact (h.add hA).rnd hr hu
    have := accTreesM_approx hr hu N Q hi hq nb add A X ts scheds.tail _ (e + 1) (a0 + A t) (x0 + X t) hnew
      (fun t' ht' => (ht t' (by simp [ht'])).mono hu (by omega) (le_refl _)) hf.2
    simp only [List.length_cons, List.map_cons, List.sum_cons, ← add_assoc]
    convert this using 1
    omega

/-- The conditional expectation with the absolute leaf values. -/
def expAbs (ts : List TreeArr) (m : Nat) (data : List Row) (S : List Nat) (x : Row) (k : Nat) : ℚ :=
  sumLeaves ts k fun r v => if satCC r S x then guardDiv (cntCC data r (List.range m) * |v|) (cnt data r S) else 0

/-- **C104, conditional expectations of an ensemble.** For every complete interleaving of the leaf iterations of each tree, `compute_exp` with a rounding of
relative error `u` after every operation differs from the exact conditional expectation by at most `(1 + u) ^ (trees + leaves + 2) - 1` times the
conditional expectation of the absolute leaf values. -/
theorem C104_tree_exp {rnd : ℚ → ℚ} {u : ℚ} (hr : RelErr rnd u) (hu : 0 ≤ u) (hk : KeepsIntegers rnd) (ts : List TreeArr) (m : Nat) {data : List Row}
    (hd : data.length ≤ 2 ^ 53) (S : List Nat) (X : List Row) (d maxLeaves : Nat) (hmax : ∀ t ∈ ts, t.leafIdx.length ≤ maxLeaves)
    (scheds : List (List Nat)) (hf : ∀ c ∈ (expParallelRnd rnd ts m data S X d maxLeaves scheds).2, c.finished) {i k : Nat} (hi : i < X.length)
    (hkd : k < d) :
    |(expParallelRnd rnd ts m data S X d maxLeaves scheds).1 i k - expCy ts m data S X[i] k| ≤
      ((1 + u) ^ (ts.length + maxLeaves + 2) - 1) * expAbs ts m data S X[i] k := by
  unfold expParallelRnd at hf ⊢
  simp only at hf ⊢
  let w : (ℚ → ℚ) → TreeArr → Nat → ℚ := fun g t ℓ => if satCC (t.leafRect ℓ) S X[i] then
    guardDiv (cntCC data (t.leafRect ℓ) (List.range m) * g (t.value ℓ k)) (cnt data (t.leafRect ℓ) S) else 0
  let W : (ℚ → ℚ) → Nat → TreeArr → ℚ := fun g leaf t => ((t.leafIdx[leaf]?).map (w g t)).getD 0
  have hcell : ∀ leaf, Approx u (2 + ts.length) ((ts.map (W abs leaf)).sum) ((ts.map (W id leaf)).sum)
      ((accTreesM (roundMachine rnd) X.length d (ts.map fun t => (0, t.leafIdx.length, expAddRnd rnd t m data S X)) scheds (fun _ => 0)).1
        ⟨0, leaf, i, k⟩) := by
    intro leaf
    have h := accTreesM_approx hr hu X.length d (leaf := leaf) hi hkd (fun t : TreeArr => t.leafIdx.length) (fun t => expAddRnd rnd t m data S X)
      (W abs leaf) (W id leaf) ts scheds (fun _ => 0) 2 0 0 (Approx.exact hu 2 (by simp)) (by
        intro t _
        show Approx u 2 (((t.leafIdx[leaf]?).map (w abs t)).getD 0) (((t.leafIdx[leaf]?).map (w id t)).getD 0) _
        by_cases hl : leaf < t.leafIdx.length
        · rw [if_pos hl]
          unfold expAddRnd
          rw [List.getElem?_eq_getElem hl, List.getElem?_eq_getElem hi]
          simp only [Option.map_some, Option.getD_some, w, id]
          by_cases hs : satCC (t.leafRect t.leafIdx[leaf]) S X[i]
          · rw [if_pos hs, if_pos hs, if_pos hs]
            simp only [guardDiv]
            by_cases hc : cnt data (t.leafRect t.leafIdx[leaf]) S = 0
            · simp only [hc, ne_eq, not_true_eq_false, Nat.cast_zero, if_false]
              exact Approx.exact hu 2 (by simp)
            · have hcq : (cnt data (t.leafRect t.leafIdx[leaf]) S : ℚ) ≠ 0 := by exact_mod_cast hc
              rw [if_pos hcq, if_pos hcq, if_pos hc, hk (cntCC _ _ _) (le_trans (List.length_filter_le _ _) hd),
                hk (cnt _ _ _) (le_trans (List.length_filter_le _ _) hd)]
              have h0 : Approx u 0 ((cntCC data (t.leafRect t.leafIdx[leaf]) (List.range m) : ℚ) * |t.value t.leafIdx[leaf] k|)
                  ((cntCC data (t.leafRect t.leafIdx[leaf]) (List.range m) : ℚ) * t.value t.leafIdx[leaf] k)
                  ((cntCC data (t.leafRect t.leafIdx[leaf]) (List.range m) : ℚ) * t.value t.leafIdx[leaf] k) :=
                Approx.exact hu 0 (by rw [abs_mul, abs_of_nonneg (Nat.cast_nonneg _)])
              exact ((h0.rnd hr hu).divExact (lt_of_le_of_ne (Nat.cast_nonneg _) (Ne.symm hcq))).rnd hr hu
          · rw [if_neg hs, if_neg hs, if_neg hs]
            exact Approx.exact hu 2 (by simp)
        · rw [if_neg hl, List.getElem?_eq_none (by omega)]
          exact Approx.exact hu 2 (by simp)) hf
    rw [zero_add, zero_add] at h
    exact h
  have hall := Approx.foldl hr hu (fun leaf => (ts.map (W abs leaf)).sum) (fun leaf => (ts.map (W id leaf)).sum)
    (fun leaf => (accTreesM (roundMachine rnd) X.length d (ts.map fun t => (0, t.leafIdx.length, expAddRnd rnd t m data S X)) scheds (fun _ => 0)).1
        ⟨0, leaf, i, k⟩) (List.range maxLeaves) (2 + ts.length) 0 0 0 (Approx.exact hu _ (by simp)) (fun leaf _ => hcell leaf)
  rw [zero_add, zero_add, List.length_range] at hall
  have hsum : ∀ g : ℚ → ℚ, ((List.range maxLeaves).map fun leaf => (ts.map (W g leaf)).sum).sum = (ts.map fun t => (t.leafIdx.map (w g t)).sum).sum := by
    intro g
    rw [listSum_swap (fun (t : TreeArr) leaf => W g leaf t) ts]
    congr 1
    apply List.map_congr_left
    intro t ht
    exact sum_range_getElem (w g t) t.leafIdx maxLeaves (hmax t ht)
  rw [hsum, hsum] at hall
  have he : 2 + ts.length + maxLeaves = ts.length + maxLeaves + 2 := by omega
  rw [he] at hall
  exact hall.2

/-- Interleavings that finish all loops exist for every input. -/
theorem accTreesM_schedule {V : Type} (A : Machine V) (N Q : Nat) : ∀ (ts : List (Nat × Nat × (Nat → Nat → Option (Nat → V)))) (mem : ACell → V),
    ∃ scheds : List (List Nat), ∀ c ∈ (accTreesM A N Q ts scheds mem).2, c.finished
  | [], _ => ⟨[], by simp [accTreesM]⟩
  | t :: ts, mem => by
    have hend : ∀ i, t.2.1 ≤ i → accProgM A t.1 t.2.1 N Q t.2.2 i = [] := by
      intro i hi
      unfold accProgM
      rw [if_neg (by omega)]
    obtain ⟨s, hs⟩ := C13_complete_schedule_exists hend mem
    obtain ⟨ss, hss⟩ := accTreesM_schedule A N Q ts (((Conf.start (accProgM A t.1 t.2.1 N Q t.2.2) mem).run s).mem)
    refine ⟨s :: ss, ?_⟩
    unfold accTreesM
    simp only [List.headD_cons, List.tail_cons, List.mem_cons, forall_eq_or_imp]
    exact ⟨hs, hss⟩

/-- **C104, conditional expectations of an ensemble in double precision**: an interleaving that finishes exists, and under every such interleaving the error
is at most `(trees + leaves + 2) 2 ^ -52` times the conditional expectation of the absolute leaf values. -/
theorem C104_tree_exp_double (ts : List TreeArr) (m : Nat) {data : List Row} (hd : data.length ≤ 2 ^ 53) (S : List Nat) (X : List Row)
    (d maxLeaves : Nat) (hmax : ∀ t ∈ ts, t.leafIdx.length ≤ maxLeaves) (hT : ts.length + maxLeaves + 2 ≤ 2 ^ 52) :
    (∃ scheds, ∀ c ∈ (expParallelRnd roundDouble ts m data S X d maxLeaves scheds).2, c.finished) ∧
    ∀ scheds, (∀ c ∈ (expParallelRnd roundDouble ts m data S X d maxLeaves scheds).2, c.finished) → ∀ i k, (hi : i < X.length) → k < d →
      |(expParallelRnd roundDouble ts m data S X d maxLeaves scheds).1 i k - expCy ts m data S X[i] k| ≤
        (ts.length + maxLeaves + 2) / 2 ^ 52 * expAbs ts m data S X[i] k := by
  refine ⟨accTreesM_schedule _ _ _ _ _, fun scheds hf i k hi hk => ?_⟩
  refine le_trans (C104_tree_exp roundDouble_relErr (by norm_num) roundDouble_keeps ts m hd S X d maxLeaves hmax scheds hf hi hk) ?_
  apply mul_le_mul_of_nonneg_right
  · have h1 : ((ts.length + maxLeaves + 2 : Nat) : ℚ) ≤ 2 ^ 52 := by exact_mod_cast hT
    have h2 := pow_sub_one_le (u := 1 / 2 ^ 53) (by norm_num) (ts.length + maxLeaves + 2) (by
      rw [mul_one_div, div_le_iff₀ (by norm_num)]
      refine le_trans h1 ?_
      norm_num)
    refine le_trans h2 (le_of_eq ?_)
    push_cast
    ring
  · unfold expAbs sumLeaves
    apply List.sum_nonneg
    intro q hq
    obtain ⟨t, _, rfl⟩ := List.mem_map.mp hq
    apply List.sum_nonneg
    intro q hq
    obtain ⟨ℓ, _, rfl⟩ := List.mem_map.mp hq
    simp only [guardDiv]
    split
    · split
      · positivity
      · exact le_refl _
    · exact le_refl _

/-- A round-robin interleaving of the leaves of two trees: the computed value at the second sample is 113/3 up to rounding. -/
example : (expParallelRnd roundDouble [exTree, stump] 3 exData [0] [fun _ => 1, fun _ => 2] 1 3
      [(List.range 60).map (· % 3), (List.range 60).map (· % 3)]).1 1 0 = 2650556030692011 / 70368744177664 ∧
    expCy [exTree, stump] 3 exData [0] (fun _ => 2) 0 = 113 / 3 ∧ expAbs [exTree, stump] 3 exData [0] (fun _ => 2) 0 = 113 / 3 := by
  refine ⟨?_, ?_, ?_⟩ <;> decide +kernel

end Acv

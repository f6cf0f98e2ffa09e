import Verif.Lemmas.LoadSpark
import Verif.Lemmas.LoadLgb
import Verif.Lemmas.LeafShap
import Mathlib.Tactic.Ring

/-!
# C62: Spark trees
-/

namespace Acv

/-- A tree with two splits. -/
def exSpark : SparkNode :=
  .split 1 (.continuous 3) (fun k => if k = 0 then 6 else 4) 10
    (.split 0 (.continuous (-1)) (fun k => if k = 0 then 5 else 1) 6 (.leaf (fun k => if k = 0 then 2 else 0) 2) (.leaf (fun k => if k = 0 then 3 else 1) 4))
    (.leaf (fun k => if k = 0 then 1 else 3) 4)

theorem exSpark_numeric : exSpark.Numeric 2 := ⟨by decide, ⟨_, rfl⟩, ⟨by decide, ⟨_, rfl⟩, trivial, trivial⟩, trivial⟩

theorem sparkLoad_ok {d : Nat} (normalize : Bool) (scaling : ℚ) (K : Nat) {T : SparkNode} (h : T.Numeric d) :
    ∃ t, sparkLoad normalize scaling K T = .ok t ∧ IsTree t d (T.toB 0) ∧ t.size = T.size ∧
      ∀ x, t.value ((T.toB 0).descend x) = (fun k => sparkShare normalize K (T.outcome x) k * scaling) ∧
        t.weight ((T.toB 0).descend x) = T.rows x := by
  obtain ⟨t, h1, h2, h3, -⟩ := sparkBuild_spec T 0 (sparkEmpty T.size) h (fun _ _ _ => ⟨rfl, rfl⟩)
  refine ⟨{ t with
      dflt := t.left
      value := fun n k => (if normalize then t.value n k / ((List.range K).map fun c => t.value n c).sum else t.value n k) * scaling },
    by unfold sparkLoad; rw [h1], ⟨T.toB_id 0, ?_, ?_, ?_, T.toB_vars 0 h⟩, h3, ?_⟩
  · exact encodes_value (t := { t with dflt := t.left }) _ (T.toB_encodes rfl 0 (T.held_congr (t := t) 0 (fun _ _ _ => ⟨rfl, rfl, rfl, rfl, rfl, rfl⟩) h2))
  · rw [T.toB_ids]; exact List.nodup_range'
  · intro n
    rw [T.toB_ids, List.mem_range'_1]
    show _ ↔ n < t.size
    rw [h3]
    show _ ↔ n < T.size
    omega
  · intro x
    obtain ⟨e1, e2⟩ := T.outcome_held x 0 h2
    refine ⟨?_, e2⟩
    funext k
    show (if normalize then t.value ((T.toB 0).descend x) k / ((List.range K).map fun c => t.value ((T.toB 0).descend x) c).sum
      else t.value ((T.toB 0).descend x) k) * scaling = _
    rw [e1]
    rfl

/-- **C62, one tree.** A Spark tree whose splits are all continuous is loaded without exception into a well-formed tree with as many nodes; every
complete observation ends in a leaf that holds Spark's prediction times the scaling, and the number of training rows. -/
theorem C62_tree {d : Nat} (normalize : Bool) (scaling : ℚ) (K : Nat) {T : SparkNode} (h : T.Numeric d) :
    ∃ t, sparkLoad normalize scaling K T = .ok t ∧ WellFormed t d ∧ t.size = T.size ∧
      ∀ x, ∃ ℓ, t.leafOf (full x) = some ℓ ∧ (∀ k, t.value ℓ k = sparkShare normalize K (T.outcome x) k * scaling) ∧ t.weight ℓ = T.rows x := by
  obtain ⟨t, h1, h2, h3, h4⟩ := sparkLoad_ok normalize scaling K h
  refine ⟨t, h1, ⟨_, h2⟩, h3, fun x => ⟨_, leafOf_obs h2 _, ?_, ?_⟩⟩
  · intro k
    rw [descendObs_full, (h4 x).1]
  · rw [descendObs_full, (h4 x).2]

example : (sparkLoad true (1 / 2) 2 exSpark).toOption.map (fun t => (t.outcomeAt (fun _ => 0) 0, t.size)) = some (3 / 8, 5) := by decide +kernel

theorem sparkBuild_error : ∀ (T : SparkNode) (i : Nat) (t : TreeArr) (e : String), sparkBuild T i t = .error e → e = "NotImplementedError"
  | .leaf _ _, _, _, _, h => by simp [sparkBuild] at h
  | .split _ (.categorical _) _ _ _ _, _, _, _, h => by
    simp only [sparkBuild, Except.error.injEq] at h
    exact h.symm
  | .split f (.continuous thr) v c l r, i, t, e, h => by
    unfold sparkBuild at h
    split at h
    · rename_i e' he
      simp only [Except.error.injEq] at h
      exact h ▸ sparkBuild_error l _ _ _ he
    · exact sparkBuild_error r _ _ _ h

theorem sparkBuild_categorical : ∀ (T : SparkNode) (i : Nat) (t : TreeArr), T.HasCategorical → ∃ e, sparkBuild T i t = .error e
  | .leaf _ _, _, _, h => h.elim
  | .split _ (.categorical _) _ _ _ _, _, _, _ => ⟨_, rfl⟩
  | .split f (.continuous thr) v c l r, i, t, h => by
    rcases h with ⟨_, h⟩ | h | h
    · cases h
    · obtain ⟨e, he⟩ := sparkBuild_categorical l (i + 1) ((t.putStats i v c).putTest i f thr) h
      exact ⟨e, by unfold sparkBuild; rw [he]⟩
    · unfold sparkBuild
      split
      · exact ⟨_, rfl⟩
      · exact sparkBuild_categorical r _ _ h

/-- **C62, categories.** A Spark tree with a categorical split anywhere is refused with `NotImplementedError`: it is never loaded as another tree. -/
theorem C62_refused (normalize : Bool) (scaling : ℚ) (K : Nat) {T : SparkNode} (h : T.HasCategorical) :
    sparkLoad normalize scaling K T = .error "NotImplementedError" := by
  obtain ⟨e, he⟩ := sparkBuild_categorical T 0 (sparkEmpty T.size) h
  unfold sparkLoad
  rw [he]
  exact congrArg _ (sparkBuild_error _ _ _ _ he)

example : (SparkNode.split 0 (.continuous 1) (fun _ => 0) 3 (.leaf (fun _ => 0) 1)
    (.split 1 (.categorical [0, 2]) (fun _ => 0) 2 (.leaf (fun _ => 0) 1) (.leaf (fun _ => 1) 1))).HasCategorical := Or.inr (Or.inr (Or.inl ⟨_, rfl⟩))

theorem mapM_forall {α β ε : Type} {f : α → Except ε β} : ∀ {l : List α}, (∀ a ∈ l, ∃ b, f a = .ok b) →
    ∃ l', l.mapM f = .ok l' ∧ List.Forall₂ (fun a b => f a = .ok b) l l'
  | [], _ => ⟨[], rfl, .nil⟩
  | a :: l, h => by
    obtain ⟨b, hb⟩ := h a (List.mem_cons_self ..)
    obtain ⟨l', h1, h2⟩ := mapM_forall (l := l) fun a ha => h a (List.mem_cons_of_mem _ ha)
    refine ⟨b :: l', ?_, .cons hb h2⟩
    rw [List.mapM_cons, hb]
    show (do let bs ← l.mapM f; pure (b :: bs)) = _
    rw [h1]
    rfl

/-- Loading a list of trees, each with its own scaling. -/
theorem spark_sum {d : Nat} (normalize : Bool) (K : Nat) (s : SparkNode × ℚ → ℚ) {l : List (SparkNode × ℚ)} (h : ∀ p ∈ l, p.1.Numeric d) :
    ∃ ts, l.mapM (fun p => sparkLoad normalize (s p) K p.1) = .ok ts ∧ ts.length = l.length ∧ (∀ t ∈ ts, WellFormed t d) ∧
      ∀ x k, (ts.map fun t => t.outcomeAt x k).sum = (l.map fun p => sparkShare normalize K (p.1.outcome x) k * s p).sum := by
  obtain ⟨ts, h1, h2⟩ := mapM_forall (l := l) (f := fun p => sparkLoad normalize (s p) K p.1) fun p hp => by
    obtain ⟨t, ht, -⟩ := C62_tree normalize (s p) K (h p hp)
    exact ⟨t, ht⟩
  refine ⟨ts, h1, h2.length_eq.symm, ?_⟩
  clear h1
  induction h2 with
  | nil => simp
  | @cons p t l ts hp _ ih =>
    obtain ⟨t', e1, e2, -, e3⟩ := C62_tree normalize (s p) K (h p (List.mem_cons_self ..))
    obtain rfl : t' = t := by
      have := e1.symm.trans hp
      simpa using this
    obtain ⟨i1, i2⟩ := ih fun q hq => h q (List.mem_cons_of_mem _ hq)
    refine ⟨?_, ?_⟩
    · intro u hu
      rcases List.mem_cons.1 hu with rfl | hu
      · exact e2
      · exact i1 u hu
    · intro x k
      obtain ⟨ℓ, l1, l2, -⟩ := e3 x
      rw [List.map_cons, List.sum_cons, List.map_cons, List.sum_cons, i2 x k]
      congr 1
      unfold TreeArr.outcomeAt
      rw [l1]
      exact l2 k

/-- **C62, forests.** The leaves of a loaded Spark random forest add up, for every complete observation, to the average of the predictions of its
trees, weighted by `treeWeights`. -/
theorem C62_forest {d : Nat} (normalize : Bool) (K : Nat) {l : List (SparkNode × ℚ)} (h : ∀ p ∈ l, p.1.Numeric d) :
    ∃ ts, sparkForest normalize K l = .ok ts ∧ ts.length = l.length ∧ (∀ t ∈ ts, WellFormed t d) ∧
      ∀ x k, (ts.map fun t => t.outcomeAt x k).sum =
        (l.map fun p => p.2 * sparkShare normalize K (p.1.outcome x) k).sum / (l.map Prod.snd).sum := by
  obtain ⟨ts, h1, h2, h3, h4⟩ := spark_sum normalize K (fun p => p.2 / (l.map Prod.snd).sum) h
  refine ⟨ts, h1, h2, h3, fun x k => ?_⟩
  rw [h4]
  simp only [div_eq_mul_inv, ← mul_assoc]
  rw [List.sum_map_mul_right]
  simp only [mul_comm]

/-- **C62, boosting.** The leaves of a loaded Spark boosting model add up to the sum of the predictions of its trees, weighted by `treeWeights`. -/
theorem C62_boosting {d : Nat} {l : List (SparkNode × ℚ)} (h : ∀ p ∈ l, p.1.Numeric d) :
    ∃ ts, sparkBoost l = .ok ts ∧ ts.length = l.length ∧ (∀ t ∈ ts, WellFormed t d) ∧
      ∀ x k, (ts.map fun t => t.outcomeAt x k).sum = (l.map fun p => p.2 * p.1.outcome x k).sum := by
  obtain ⟨ts, h1, h2, h3, h4⟩ := spark_sum false 1 (fun p => p.2) h
  refine ⟨ts, h1, h2, h3, fun x k => ?_⟩
  rw [h4]
  simp only [sparkShare, Bool.false_eq_true, if_false, mul_comm]

example : ∀ p ∈ [(exSpark, (1 : ℚ)), (.leaf (fun _ => 1) 3, 2)], p.1.Numeric 2 := by
  intro p hp
  simp only [List.mem_cons, List.not_mem_nil, or_false] at hp
  rcases hp with rfl | rfl
  · exact exSpark_numeric
  · trivial

end Acv

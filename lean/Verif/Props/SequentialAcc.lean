import Verif.Model.SequentialAcc
import Verif.Props.ParallelAcc

/-! # C90: expectations and same decision probabilities without parallelism -/

namespace Acv

/-- The tables filled one leaf after the other are those filled under any complete interleavings. -/
theorem accTrees_eq_accSeq (N Q : Nat) : ∀ (ts : List AccTree) (scheds : List (List Nat)) (mem : ACell → ℚ),
    (∀ c ∈ (accTrees N Q ts scheds mem).2, c.finished) → (accTrees N Q ts scheds mem).1 = accSeq N Q ts mem
  | [], _, _, _ => rfl
  | t :: ts, scheds, mem, hf => by
    unfold accTrees at hf ⊢
    unfold accSeq
    simp only [List.mem_cons, forall_eq_or_imp] at hf ⊢
    rw [accTrees_eq_accSeq N Q ts _ _ hf.2,
      run_eq_seq (accProg_raceFree _ _ _ _ _) (n := t.nbLeaf) (fun i hi => by unfold accProg; rw [if_neg (by omega)]) hf.1]

/-- **C90, `compute_exp_nopa`**: the same table as `compute_exp`, whatever the interleavings of the latter. -/
theorem C90_exp (ts : List TreeArr) (m : Nat) (data : List Row) (S : List Nat) (X : List Row) (d maxLeaves : Nat)
    (scheds : List (List Nat)) (hf : ∀ c ∈ (expParallel ts m data S X d maxLeaves scheds).2, c.finished) (i k : Nat) :
    expSeq ts m data S X d maxLeaves i k = (expParallel ts m data S X d maxLeaves scheds).1 i k := by
  unfold expParallel at hf ⊢
  unfold expSeq
  simp only at hf ⊢
  rw [accTrees_eq_accSeq _ _ _ _ _ hf]

/-- **C90, `compute_exp_cat_nopa`**. -/
theorem C90_exp_cat (ts : List TreeArr) (m : Nat) (data : List Row) (S : List Nat) (X : List Row) (d maxLeaves : Nat)
    (scheds : List (List Nat)) (hf : ∀ c ∈ (expCatParallel ts m data S X d maxLeaves scheds).2, c.finished) (i k : Nat) :
    expCatSeq ts m data S X d maxLeaves i k = (expCatParallel ts m data S X d maxLeaves scheds).1 i k := by
  unfold expCatParallel at hf ⊢
  unfold expCatSeq
  simp only at hf ⊢
  rw [accTrees_eq_accSeq _ _ _ _ _ hf]

/-- **C90, `compute_sdp_clf_cat_nopa`**. -/
theorem C90_sdp_clf_cat (ts : List TreeArr) (m : Nat) (lab : Row → Nat) (data : List Row) (S : List Nat) (X : List Row) (maxLeaves : Nat)
    (scheds : List (List Nat)) (hf : ∀ c ∈ (sdpCatParallel ts m lab data S X maxLeaves scheds).2, c.finished) (i : Nat) :
    sdpCatSeq ts m lab data S X maxLeaves i = (sdpCatParallel ts m lab data S X maxLeaves scheds).1 i := by
  unfold sdpCatParallel at hf ⊢
  unfold sdpCatSeq
  simp only at hf ⊢
  rw [accTrees_eq_accSeq _ _ _ _ _ hf]

theorem sum_range_pad {n K : Nat} (h : n ≤ K) (f : Nat → ℚ) (hz : ∀ a, n ≤ a → f a = 0) :
    ((List.range K).map f).sum = ((List.range n).map f).sum := by
  obtain ⟨e, rfl⟩ := Nat.exists_eq_add_of_le h
  rw [List.range_add, List.map_append, List.sum_append, List.map_map]
  rw [show ((List.range e).map (f ∘ fun x => n + x)).sum = 0 from ?_, add_zero]
  apply List.sum_eq_zero
  intro y hy
  obtain ⟨a, _, rfl⟩ := List.mem_map.mp hy
  exact hz (n + a) (by omega)

/-- **C90, `compute_sdp_clf_nopa`**: stopping the last loop at the leaves of the tree changes nothing. -/
theorem C90_sdp_clf (ts : List TreeArr) (m : Nat) (lab : Row → Nat) (data : List Row) (S : List Nat) (X : List Row) (maxLeaves : Nat)
    (hmax : ∀ t ∈ ts, t.leafIdx.length ≤ maxLeaves) (scheds : List (List Nat))
    (hf : ∀ c ∈ (sdpClfParallel ts m lab data S X maxLeaves scheds).2, c.finished) (i : Nat) :
    sdpClfSeq ts m lab data S X i = (sdpClfParallel ts m lab data S X maxLeaves scheds).1 i := by
  unfold sdpClfParallel at hf ⊢
  unfold sdpClfSeq
  simp only at hf ⊢
  rw [← accTrees_eq_accSeq _ _ _ _ _ hf]
  have hz : ∀ tb ∈ ts.zipIdx, ∀ leaf q, tb.1.leafIdx.length ≤ leaf →
      (accTrees X.length 6 (ts.zipIdx.map fun tb => ⟨tb.2, tb.1.leafIdx.length, sdpClfAdd tb.1 m lab data S X⟩) scheds
        (fun _ => 0)).1 ⟨tb.2, leaf, i, q⟩ = 0 := by
    intro tb htb leaf q hl
    rw [accTrees_mem _ _ _ _ _ _ hf, zero_add, List.map_map]
    have := zipIdx_delta (ts := ts) (N := X.length) (Q := 6) (fun t => sdpClfAdd t m lab data S X) ⟨tb.2, leaf, i, q⟩
      (t := tb.1) ts 0 htb
    simp only [Function.comp_def]
    rw [this]
    unfold AccTree.delta
    rw [if_neg]
    rintro ⟨-, h, -⟩
    simp only at h
    omega
  have key : ∀ q (n : TreeArr × Nat → ℚ), (ts.zipIdx.map fun tb => ((List.range tb.1.leafIdx.length).map fun leaf => guardDiv
      ((accTrees X.length 6 (ts.zipIdx.map fun tb => ⟨tb.2, tb.1.leafIdx.length, sdpClfAdd tb.1 m lab data S X⟩) scheds
        (fun _ => 0)).1 ⟨tb.2, leaf, i, q⟩) (n tb)).sum) =
      ts.zipIdx.map fun tb => ((List.range maxLeaves).map fun leaf => guardDiv
      ((accTrees X.length 6 (ts.zipIdx.map fun tb => ⟨tb.2, tb.1.leafIdx.length, sdpClfAdd tb.1 m lab data S X⟩) scheds
        (fun _ => 0)).1 ⟨tb.2, leaf, i, q⟩) (n tb)).sum := by
    intro q n
    apply List.map_congr_left
    intro tb htb
    refine (sum_range_pad (hmax tb.1 ?_) _ ?_).symm
    · have := List.mem_zipIdx htb
      rw [this.2.2]
      exact List.getElem_mem _
    · intro leaf hl
      rw [hz tb htb leaf q hl]
      simp [guardDiv]
  rw [key 0 _, key 1 _, key 2 _]

/-- On two trees with three and two leaves (the padded leaf of the second is visited by the parallel routine only) the interleavings are
complete and the values are not trivial. -/
example : (∀ c ∈ (sdpClfParallel [exTree, stump] 3 (fun x => if x 0 ≤ 1 then 0 else 1) exData [0] [fun _ => 1, fun _ => 2] 3
      [(List.range 90).map (· % 3), (List.range 90).map (2 - · % 3)]).2, ∀ i, i < 3 → (c.iter i).todo = []) ∧
    stump.leafIdx.length < 3 ∧
    expSeq [exTree, stump] 3 exData [0] [fun _ => 1, fun _ => 2] 1 3 1 0 ≠ 0 := by
  refine ⟨?_, ?_, ?_⟩ <;> decide +kernel

end Acv

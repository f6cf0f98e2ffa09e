import Verif.Model.ParallelMachine
import Verif.Props.ParallelAcc

/-!
# C13 with machine arithmetic

The parallel loops return bit for bit what the sequential loops return, whatever the arithmetic is: floating point additions need not
commute or associate.
-/

namespace Acv

variable {V : Type}

theorem leafCounterProgM_owner {A : Machine V} {coef0 : Nat → Nat → V} {coef : Nat → Nat → Nat → V} {m : Nat} {data : List Row} {r : Rect} {v : V}
    {x : Row} {leaf va : Nat} {g : List Nat} {rest : List (List Nat)} {counter : Nat} {s : Stmt LCell V}
    (hs : s ∈ leafCounterProgM A coef0 coef m data r v x leaf va g rest counter) : s.dst.leaf = leaf ∧ ∀ c ∈ s.srcs, c.leaf = leaf := by
  unfold leafCounterProgM at hs
  simp only [List.mem_append] at hs
  rcases hs with (hs | hs) | hs
  · simp only [List.mem_cons, List.not_mem_nil, or_false] at hs
    rcases hs with rfl | rfl <;> exact ⟨rfl, by simp⟩
  · obtain ⟨z, _, hz⟩ := List.mem_flatMap.mp hs
    split at hz
    · rcases List.mem_cons.mp hz with rfl | hz
      · exact ⟨rfl, by simp [LCell.leaf]⟩
      · split at hz
        · rw [List.mem_singleton.mp hz]; exact ⟨rfl, by simp [LCell.leaf]⟩
        · simp at hz
    · simp at hz
  · obtain ⟨j, _, rfl⟩ := List.mem_map.mp hs
    exact ⟨rfl, by simp [LCell.leaf]⟩

theorem leafProgM_owner {A : Machine V} {coef0 : Nat → Nat → V} {coef : Nat → Nat → Nat → V} {t : TreeArr} {value : Nat → V} {m : Nat}
    {data : List Row} {C : List (List Nat)} {x : Row} {leaf : Nat} {s : Stmt LCell V}
    (hs : s ∈ leafProgM A coef0 coef t value m data C x leaf) : s.dst.leaf = leaf ∧ ∀ c ∈ s.srcs, c.leaf = leaf := by
  unfold leafProgM at hs
  split at hs
  · simp at hs
  · obtain ⟨gv, _, h⟩ := List.mem_flatMap.mp hs
    split at h
    · obtain ⟨counter, _, h⟩ := List.mem_flatMap.mp h
      exact leafCounterProgM_owner h
    · simp at h

/-- Programs whose iterations own their cells have no races. -/
theorem raceFree_of_owner {Cell : Type} [DecidableEq Cell] {P : Nat → List (Stmt Cell V)} (own : Cell → Nat)
    (h : ∀ i, ∀ s ∈ P i, own s.dst = i ∧ ∀ c ∈ s.srcs, own c = i) : RaceFree P := by
  intro i j hij s hs s' hs'
  obtain ⟨h1, _⟩ := h i s hs
  obtain ⟨h2, h3⟩ := h j s' hs'
  refine ⟨fun he => hij ?_, fun he => hij ?_⟩
  · rw [← h1, ← h2, he]
  · rw [← h1, h3 _ he]

theorem leafProgM_end (A : Machine V) (coef0 : Nat → Nat → V) (coef : Nat → Nat → Nat → V) (t : TreeArr) (value : Nat → V) (m : Nat)
    (data : List Row) (C : List (List Nat)) (x : Row) : ∀ i, t.leafIdx.length ≤ i → leafProgM A coef0 coef t value m data C x i = [] := by
  intro i hi
  unfold leafProgM
  rw [List.getElem?_eq_none hi]

/-- **C13, Shapley values, any arithmetic.** For every arithmetic on the values and every complete interleaving of the leaf iterations of each tree,
the parallel routine returns what the loops return one leaf after the other. -/
theorem C13_shapley_any_arithmetic (A : Machine V) (coef0 : Nat → Nat → V) (coef : Nat → Nat → Nat → V) (m : Nat) (data : List Row)
    (C : List (List Nat)) (x : Row) (j maxLeaves scaling : Nat) : ∀ (ts : List (TreeArr × (Nat → V))) (scheds : List (List Nat)) (mem : LCell → V)
    (phi : V), (∀ c ∈ (shapParallelM A coef0 coef m data C x j maxLeaves scaling ts scheds mem phi).2, c.finished) →
    (shapParallelM A coef0 coef m data C x j maxLeaves scaling ts scheds mem phi).1 =
      shapSequentialM A coef0 coef m data C x j maxLeaves scaling ts mem phi
  | [], _, _, _, _ => rfl
  | t :: ts, scheds, mem, phi, hf => by
    unfold shapParallelM at hf ⊢
    unfold shapSequentialM
    simp only [List.mem_cons, forall_eq_or_imp] at hf ⊢
    rw [← run_eq_seq (raceFree_of_owner LCell.leaf fun i s hs => leafProgM_owner hs) (leafProgM_end A coef0 coef t.1 t.2 m data C x) hf.1]
    exact C13_shapley_any_arithmetic A coef0 coef m data C x j maxLeaves scaling ts _ _ _ hf.2

/-- **C13, tables, any arithmetic.** The same for the loops of `compute_exp`, `compute_exp_cat`, `compute_sdp_clf_cat` and `compute_sdp_clf` that add to
a table. -/
theorem C13_tables_any_arithmetic (A : Machine V) (N Q : Nat) : ∀ (ts : List (Nat × Nat × (Nat → Nat → Option (Nat → V))))
    (scheds : List (List Nat)) (mem : ACell → V), (∀ c ∈ (accTreesM A N Q ts scheds mem).2, c.finished) →
    (accTreesM A N Q ts scheds mem).1 = accSequentialM A N Q ts mem
  | [], _, _, _ => rfl
  | t :: ts, scheds, mem, hf => by
    unfold accTreesM at hf ⊢
    unfold accSequentialM
    simp only [List.mem_cons, forall_eq_or_imp] at hf ⊢
    have hown : ∀ i, ∀ s ∈ accProgM A t.1 t.2.1 N Q t.2.2 i, s.dst.leaf = i ∧ ∀ c ∈ s.srcs, c.leaf = i := by
      intro i s hs
      unfold accProgM at hs
      split at hs
      · obtain ⟨k, _, h⟩ := List.mem_flatMap.mp hs
        split at h
        · simp at h
        · obtain ⟨q, _, rfl⟩ := List.mem_map.mp h
          exact ⟨rfl, by simp⟩
      · simp at hs
    have hend : ∀ i, t.2.1 ≤ i → accProgM A t.1 t.2.1 N Q t.2.2 i = [] := by
      intro i hi
      unfold accProgM
      rw [if_neg (by omega)]
    rw [← run_eq_seq (raceFree_of_owner ACell.leaf hown) hend hf.1]
    exact C13_tables_any_arithmetic A N Q ts _ _ hf.2

/-! ## The exact arithmetic is an instance -/

theorem leafProgM_exact (t : TreeArr) (m : Nat) (data : List Row) (C : List (List Nat)) (x : Row) (k leaf : Nat) :
    leafProgM exactMachine coefZero coefLoop t (fun ℓ => t.value ℓ k) m data C x leaf = leafProg t m data C x k leaf := by
  unfold leafProgM leafProg
  have hc : ∀ r v g rest counter va, leafCounterProgM exactMachine coefZero coefLoop m data r v x leaf va g rest counter =
      leafCounterProg m data r v x leaf va g rest counter := by
    intro r v g rest counter va
    unfold leafCounterProgM leafCounterProg
    simp only [exactMachine, Nat.cast_zero, Nat.cast_one, Nat.cast_ite, decide_eq_true_eq]
  simp only [hc]
  cases t.leafIdx[leaf]? <;> rfl

theorem foldl_add_rat {α : Type} (f : α → ℚ) : ∀ (l : List α) (p : ℚ), l.foldl (fun p a => p + f a) p = p + (l.map f).sum
  | [], p => by simp
  | a :: l, p => by rw [List.foldl_cons, foldl_add_rat f l, List.map_cons, List.sum_cons, add_assoc]

theorem gatherPhiM_exact (maxLeaves scaling j : Nat) (mem : LCell → ℚ) (phi : ℚ) :
    gatherPhiM exactMachine maxLeaves scaling j mem phi = phi + gatherPhi maxLeaves scaling j mem := by
  unfold gatherPhiM gatherPhi
  have h : ∀ (p : ℚ) (leaf : Nat), (List.range (2 ^ scaling)).foldl (fun p counter => exactMachine.add p (mem (.phi leaf counter j))) p =
      p + ((List.range (2 ^ scaling)).map fun counter => mem (.phi leaf counter j)).sum := fun p leaf =>
    foldl_add_rat (fun counter => mem (.phi leaf counter j)) _ p
  simp only [h]
  exact foldl_add_rat _ _ _

/-- **C13, exact arithmetic is an instance.** With exact arithmetic and the coefficients of the code, the routine over an arbitrary arithmetic is the
one of `C13_shapley_schedule_independent`, under every interleaving. -/
theorem C13_exact_instance (m : Nat) (data : List Row) (C : List (List Nat)) (x : Row) (j k maxLeaves scaling : Nat) :
    ∀ (ts : List TreeArr) (scheds : List (List Nat)) (mem : LCell → ℚ) (phi : ℚ),
    shapParallelM exactMachine coefZero coefLoop m data C x j maxLeaves scaling (ts.map fun t => (t, fun ℓ => t.value ℓ k)) scheds mem phi =
      shapParallel m data C x j k maxLeaves scaling ts scheds mem phi
  | [], _, _, _ => rfl
  | t :: ts, scheds, mem, phi => by
    rw [List.map_cons]
    unfold shapParallelM shapParallel
    have h1 : leafProgM exactMachine coefZero coefLoop t (fun ℓ => t.value ℓ k) m data C x = leafProg t m data C x k :=
      funext fun leaf => leafProgM_exact t m data C x k leaf
    have h2 : resetPhiM exactMachine mem = resetPhi mem := by
      funext c
      cases c <;> simp [resetPhiM, resetPhi, exactMachine]
    simp only [h1, h2, gatherPhiM_exact]
    rw [C13_exact_instance m data C x j k maxLeaves scaling ts]

/-- **C13, tables**: with exact arithmetic the tables are those of the loops of the conditional expectations and same decision probabilities. -/
theorem C13_tables_exact_instance (N Q : Nat) : ∀ (ts : List AccTree) (scheds : List (List Nat)) (mem : ACell → ℚ),
    accTreesM exactMachine N Q (ts.map fun t => (t.tab, t.nbLeaf, t.add)) scheds mem = accTrees N Q ts scheds mem
  | [], _, _ => rfl
  | t :: ts, scheds, mem => by
    rw [List.map_cons]
    unfold accTreesM accTrees
    have h1 : accProgM exactMachine t.tab t.nbLeaf N Q t.add = accProg t.tab t.nbLeaf N Q t.add := by
      funext leaf
      simp only [accProgM, accProg, exactMachine, Nat.cast_zero]
      split
      · congr 1
        funext i
        cases t.add leaf i <;> rfl
      · rfl
    simp only [h1]
    rw [C13_tables_exact_instance N Q ts]

/-- A rounding arithmetic: every operation is rounded down to a multiple of 1/8. Its addition is not associative. -/
def roughMachine : Machine ℚ :=
  let rd : ℚ → ℚ := fun q => ((q * 8).floor : ℚ) / 8
  ⟨fun n => n, fun a b => rd (a + b), fun a b => rd (a - b), fun a b => rd (a * b), fun a b => rd (a / b), fun v => decide (v ≠ 0)⟩

/-- Two different complete interleavings of the three leaves of `exTree` in rough arithmetic give the rough sequential value, which is not the
exact one. -/
example :
    (shapParallelM roughMachine coefZero coefLoop 3 exData [[2, 1]] (fun _ => 2) 0 3 2 [(exTree, fun ℓ => exTree.value ℓ 0)]
      [(List.range 300).map (· % 3)] (fun _ => 7) 0).1 =
    shapSequentialM roughMachine coefZero coefLoop 3 exData [[2, 1]] (fun _ => 2) 0 3 2 [(exTree, fun ℓ => exTree.value ℓ 0)] (fun _ => 7) 0 ∧
    shapSequentialM roughMachine coefZero coefLoop 3 exData [[2, 1]] (fun _ => 2) 0 3 2 [(exTree, fun ℓ => exTree.value ℓ 0)] (fun _ => 7) 0 ≠
      shapCy [exTree] 3 exData [[2, 1]] (fun _ => 2) 0 0 := by
  constructor <;> decide +kernel

end Acv

import Verif.Lemmas.Parallel
import Verif.Props.Shapley

/-!
# C13: parallel loops are schedule independent
-/

namespace Acv

/-- **C13, in general.** If no iteration writes a cell that another iteration writes or reads, every complete interleaving
of the loads and stores of the iterations leaves in memory exactly what the sequential loop leaves. -/
theorem C13_race_free_schedule_independent {Cell V : Type} [DecidableEq Cell] {P : Nat → List (Stmt Cell V)} (hP : RaceFree P)
    {n : Nat} (hn : ∀ i, n ≤ i → P i = []) (mem0 : Cell → V) {sched : List Nat}
    (hf : ((Conf.start P mem0).run sched).finished) :
    ((Conf.start P mem0).run sched).mem = seqLoop P n mem0 :=
  run_eq_seq hP hn hf

/-- Complete interleavings exist, from every memory: C13 is not vacuous for any program. -/
theorem C13_complete_schedule_exists {Cell V : Type} [DecidableEq Cell] {P : Nat → List (Stmt Cell V)} {n : Nat}
    (hn : ∀ i, n ≤ i → P i = []) (mem0 : Cell → V) : ∃ sched, ((Conf.start P mem0).run sched).finished :=
  complete_exists hn mem0

/-- The hypothesis of C13 is not idle: two iterations incrementing one shared cell lose an update under some interleaving. -/
theorem C13_race_loses_update :
    ∃ (P : Nat → List (Stmt Nat)) (sched : List Nat), (∀ i, 2 ≤ i → P i = []) ∧
      ((Conf.start P fun _ => 0).run sched).finished ∧
      ((Conf.start P fun _ => 0).run sched).mem 0 = 1 ∧ seqLoop P 2 (fun _ => 0) 0 = 2 := by
  refine ⟨fun i => if i < 2 then [⟨0, [0], fun l => l.headD 0 + 1⟩] else [], [0, 1, 0, 1], ?_, ?_, ?_, ?_⟩
  · intro i hi; simp; omega
  · refine finished_of (n := 2) (fun i hi => by simp; omega) ?_
    decide +kernel
  · decide +kernel
  · decide +kernel

/-- **C13, row loops** (`compute_sdp_rf`, `compute_sdp_rule`, `compute_ddp_rf`, ...: `for i in prange(N): out[i] = f(i)`): under
every complete interleaving every row gets its own value and nothing else is written. -/
theorem C13_row_loop (N : Nat) (f : Nat → ℚ) (mem0 : Nat → ℚ) {sched : List Nat}
    (hf : ((Conf.start (rowProg N f) mem0).run sched).finished) (i : Nat) :
    ((Conf.start (rowProg N f) mem0).run sched).mem i = if i < N then f i else mem0 i := by
  have hown : ∀ i, ∀ s ∈ rowProg N f i, s.dst = i ∧ s.srcs = [] := by
    intro i s hs
    unfold rowProg at hs
    split at hs
    · rw [List.mem_singleton.mp hs]; exact ⟨rfl, rfl⟩
    · simp at hs
  have hrf : RaceFree (rowProg N f) := by
    intro i j hij s hs s' hs'
    rw [(hown i s hs).1, (hown j s' hs').1, (hown j s' hs').2]
    exact ⟨hij, by simp⟩
  rw [run_finished hrf hf (i := i) (fun j hj s hs => by rw [(hown j s hs).1]; exact hj)]
  unfold rowProg
  split <;> simp [solo, Stmt.exec, setCell]

example : ((Conf.start (rowProg 3 fun i => i + 1) fun _ => 0).run [2, 0, 1, 1]).finished := by
  intro i
  match i with
  | 0 => decide +kernel
  | 1 => decide +kernel
  | 2 => decide +kernel
  | n + 3 => rfl

theorem shapParallel_eq (m : Nat) (data : List Row) (C : List (List Nat)) (x : Row) (j k maxLeaves scaling : Nat) :
    ∀ (ts : List TreeArr) (_ : ∀ t ∈ ts, t.leafIdx.length ≤ maxLeaves)
    (_ : ∀ t ∈ ts, ∀ ℓ ∈ t.leafIdx, ∀ g ∈ leafPlayersCy m C (t.leafCols ℓ),
      ((leafPlayersCy m C (t.leafCols ℓ)).erase g).length ≤ scaling) (scheds : List (List Nat)) (mem : LCell → ℚ) (phi : ℚ)
    (_ : ∀ c ∈ (shapParallel m data C x j k maxLeaves scaling ts scheds mem phi).2, c.finished),
    (shapParallel m data C x j k maxLeaves scaling ts scheds mem phi).1 = phi / m + shapCy ts m data C x j k := by
  intro ts
  induction ts with
  | nil => intro _ _ scheds mem phi _; simp [shapParallel, shapCy]
  | cons t ts ih =>
    intro h1 h2 scheds mem phi hf
    unfold shapParallel at hf ⊢
    simp only [List.mem_cons, forall_eq_or_imp] at hf h1 h2 ⊢
    rw [ih h1.2 h2.2 _ _ _ hf.2, gather_tree h1.1 h2.1 j mem hf.1]
    unfold shapCy
    rw [List.map_cons, List.sum_cons]
    ring

/-- **C13, Shapley values.** However the leaf iterations of each tree are interleaved (one complete interleaving per tree),
whatever the scratch tables contained before, the parallel routine returns the values of the sequential description
`shapCy`, provided the scratch buffers are large enough for the ensemble (the subject of C15). -/
theorem C13_shapley_schedule_independent (ts : List TreeArr) (m : Nat) (data : List Row) (C : List (List Nat)) (x : Row)
    (j k maxLeaves scaling : Nat) (hmax : ∀ t ∈ ts, t.leafIdx.length ≤ maxLeaves)
    (hbuf : ∀ t ∈ ts, ∀ ℓ ∈ t.leafIdx, ∀ g ∈ leafPlayersCy m C (t.leafCols ℓ),
      ((leafPlayersCy m C (t.leafCols ℓ)).erase g).length ≤ scaling)
    (scheds : List (List Nat)) (scratch : LCell → ℚ)
    (hf : ∀ c ∈ (shapParallel m data C x j k maxLeaves scaling ts scheds scratch 0).2, c.finished) :
    (shapParallel m data C x j k maxLeaves scaling ts scheds scratch 0).1 = shapCy ts m data C x j k := by
  rw [shapParallel_eq m data C x j k maxLeaves scaling ts hmax hbuf scheds scratch 0 hf, zero_div, zero_add]

/-- A round-robin interleaving of the three leaves of `exTree` completes, and gives the value. -/
example : (∀ c ∈ (shapParallel 3 exData [[2, 1]] (fun _ => 2) 0 0 3 2 [exTree] [(List.range 300).map (· % 3)] (fun _ => 7) 0).2,
      c.finished) ∧
    (shapParallel 3 exData [[2, 1]] (fun _ => 2) 0 0 3 2 [exTree] [(List.range 300).map (· % 3)] (fun _ => 7) 0).1 = 95 / 12 := by
  constructor
  · intro c hc
    rw [shapParallel, shapParallel] at hc
    rw [List.mem_singleton.mp hc]
    refine finished_of (n := 3) ?_ (by decide +kernel)
    intro i hi
    unfold leafProg
    rw [List.getElem?_eq_none]
    have : exTree.leafIdx.length = 3 := by decide +kernel
    omega
  · decide +kernel

end Acv

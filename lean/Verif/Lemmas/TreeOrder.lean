import Verif.Lemmas.Cdp
import Verif.Lemmas.LeafShapPy
import Verif.Model.SdpReg
import Mathlib.Algebra.BigOperators.Group.List.Basic
import Mathlib.Algebra.BigOperators.Group.Finset.Basic
import Mathlib.Algebra.BigOperators.Group.Finset.Piecewise
import Mathlib.Algebra.BigOperators.Fin
import Mathlib.Tactic.Ring

/-!
# Trees in another order
-/

namespace Acv

/-! ## Sums -/

theorem osum_cons (a : Option ℚ) (l : List (Option ℚ)) : osum (a :: l) = (do return (← a) + (← osum l)) := by
  have key : ∀ (l : List (Option ℚ)) (b : Option ℚ),
      l.foldl (fun a b => (do return (← a) + (← b) : Option ℚ)) b = (do return (← b) + (← osum l)) := by
    intro l
    induction l with
    | nil => intro b; cases b <;> simp [osum]
    | cons c l ih =>
      intro b
      have h0 := ih c
      rw [List.foldl_cons, ih]
      have h1 : osum (c :: l) = (do return (← c) + (← osum l)) := by
        unfold osum
        rw [List.foldl_cons]
        have : (do return (← some 0) + (← c) : Option ℚ) = c := by cases c <;> simp
        rw [this]
        exact h0
      rw [h1]
      cases b <;> cases c <;> cases osum l <;> simp [add_assoc]
  unfold osum
  rw [List.foldl_cons]
  have : (do return (← some 0) + (← a) : Option ℚ) = a := by cases a <;> simp
  rw [this]
  exact key l a

theorem osum_perm {l l' : List (Option ℚ)} (h : l.Perm l') : osum l = osum l' := by
  induction h with
  | nil => rfl
  | cons a _ ih => rw [osum_cons, osum_cons, ih]
  | swap a b l =>
    rw [osum_cons, osum_cons, osum_cons, osum_cons]
    cases a <;> cases b <;> cases osum l <;> simp [add_left_comm]
  | trans _ _ ih1 ih2 => exact ih1.trans ih2

theorem mapM_except_unit {α : Type} (f : α → Except Unit (Option ℚ)) : ∀ l : List α,
    l.mapM f = if l.all (fun a => match f a with | .ok _ => true | .error _ => false)
      then .ok (l.map fun a => match f a with | .ok v => v | .error _ => none) else .error ()
  | [] => rfl
  | a :: l => by
    rw [List.mapM_cons, mapM_except_unit f l]
    cases h : f a with
    | error e => cases e; simp [h, bind, Except.bind]
    | ok v =>
      cases hl : l.all (fun a => match f a with | .ok _ => true | .error _ => false) <;> simp [h, hl, bind, Except.bind, pure, Except.pure]

theorem sumTreePairs_eq (ts : List TreeArr) (diag : TreeArr → ℚ) (off : TreeArr → TreeArr → ℚ) :
    sumTreePairs ts diag off = (ts.map fun t => (ts.map fun t' => off t t').sum + (diag t - off t t)).sum := by
  have hz : ∀ g : TreeArr × Nat → ℚ, (ts.zipIdx.map g).sum = ∑ i : Fin ts.length, g (ts[i], (i : Nat)) := by
    intro g
    have : ts.zipIdx.map g = List.ofFn fun i : Fin ts.length => g (ts[i], (i : Nat)) := by
      apply List.ext_getElem
      · simp
      · intro i h1 h2
        simp
    rw [this, List.sum_ofFn]
  have hm : ∀ g : TreeArr → ℚ, (ts.map g).sum = ∑ i : Fin ts.length, g ts[i] := by
    intro g
    have : ts.map g = List.ofFn fun i : Fin ts.length => g ts[i] := by
      apply List.ext_getElem
      · simp
      · intro i h1 h2
        simp
    rw [this, List.sum_ofFn]
  unfold sumTreePairs
  rw [hz, hm]
  refine Finset.sum_congr rfl fun i _ => ?_
  rw [hz, hm]
  have : ∀ j : Fin ts.length, (if (ts[i], (i : Nat)).2 = (ts[j], (j : Nat)).2 then diag (ts[i], (i : Nat)).1 else
      off (ts[i], (i : Nat)).1 (ts[j], (j : Nat)).1) = off ts[i] ts[j] + if i = j then diag ts[i] - off ts[i] ts[i] else 0 := by
    intro j
    by_cases hij : i = j
    · subst hij; simp
    · have : (i : Nat) ≠ j := fun h => hij (Fin.ext h)
      simp [hij, this]
  simp only [this]
  rw [Finset.sum_add_distrib, Finset.sum_ite_eq]
  simp

theorem sumTreePairs_perm {ts ts' : List TreeArr} (h : ts.Perm ts') (diag : TreeArr → ℚ) (off : TreeArr → TreeArr → ℚ) :
    sumTreePairs ts' diag off = sumTreePairs ts diag off := by
  rw [sumTreePairs_eq, sumTreePairs_eq, (h.map _).sum_eq]
  congr 1
  refine List.map_congr_left fun t _ => ?_
  rw [(h.map (off t)).sum_eq]

/-! ## Walks -/

/-- One tightening of a rule: `true` an upper bound. -/
def tighten (r : Rule) (u : Bool × Nat × ℚ) : Rule := if u.1 then r.below u.2.1 u.2.2 else r.above u.2.1 u.2.2

theorem tighten_apply (r : Rule) (u : Bool × Nat × ℚ) (f : Nat) :
    tighten r u f = if f = u.2.1 then (if u.1 then ((r f).1, min u.2.2 (r f).2) else (max (r f).1 u.2.2, (r f).2)) else r f := by
  obtain ⟨b, g, thr⟩ := u
  cases b
  · simp only [tighten, Rule.above, Bool.false_eq_true, if_false]
    by_cases hf : f = g
    · subst hf
      simp only [if_true]
      by_cases hl : (r f).1 ≤ thr
      · rw [if_pos hl, max_eq_right hl]
      · rw [if_neg hl, max_eq_left (le_of_not_ge hl)]
    · simp [hf]
  · simp only [tighten, Rule.below, if_true]
    by_cases hf : f = g
    · subst hf
      simp only [if_true]
      by_cases hl : thr ≤ (r f).2
      · rw [if_pos hl, min_eq_left hl]
      · rw [if_neg hl, min_eq_right (le_of_not_ge hl)]
    · simp [hf]

instance tighten_comm : RightCommutative tighten := ⟨fun r u v => by
  funext f
  simp only [tighten_apply]
  obtain ⟨bu, fu, tu⟩ := u
  obtain ⟨bv, fv, tv⟩ := v
  by_cases h1 : f = fu
  · by_cases h2 : f = fv
    · subst h1
      subst h2
      cases bu <;> cases bv <;> simp [max_right_comm, min_left_comm]
    · simp [h1 ▸ h2, h1]
  · simp [h1]⟩

variable (mem : Mem) (push : List Int → Int → List Int) (dir : Int → ℚ → Option Bool) (data : Nat → Row) (minSize : Nat)

theorem visitD_updates (n : Int) (child : List Int) (rows : List Nat) :
    ∃ (us : List (Bool × Nat × ℚ)) (child' : List Int) (rows' : List Nat), ∀ r, mem.visitD push dir data n ⟨child, rows, r⟩ = ⟨child', rows', us.foldl tighten r⟩ := by
  unfold Mem.visitD
  cases dir (mem.feat n) (mem.thr n) with
  | none => exact ⟨[], push (push child (mem.lc n)) (mem.rc n), rows, fun r => rfl⟩
  | some b =>
    cases b with
    | true => exact ⟨[(true, (mem.feat n).toNat, mem.thr n)], push child (mem.lc n),
        rows.filter fun i => !decide (mem.thr n < data i (mem.feat n).toNat), fun r => rfl⟩
    | false => exact ⟨[(false, (mem.feat n).toNat, mem.thr n)], push child (mem.rc n),
        rows.filter fun i => !decide (data i (mem.feat n).toNat ≤ mem.thr n), fun r => rfl⟩

theorem scanD_updates : ∀ (nodes : List Int) (child : List Int) (rows : List Nat),
    ∃ (us : List (Bool × Nat × ℚ)) (child' : List Int) (rows' : List Nat), ∀ r, mem.scanD push dir data minSize nodes ⟨child, rows, r⟩ = ⟨child', rows', us.foldl tighten r⟩
  | [], child, rows => ⟨[], child, rows, fun _ => rfl⟩
  | n :: ns, child, rows => by
    obtain ⟨us, child', rows', hv⟩ := visitD_updates mem push dir data n child rows
    by_cases hc : rows'.length < minSize
    · exact ⟨us, child', rows', fun r => by simp only [Mem.scanD, hv, hc, if_true]⟩
    · obtain ⟨us2, child2, rows2, hs⟩ := scanD_updates ns child' rows'
      exact ⟨us ++ us2, child2, rows2, fun r => by simp only [Mem.scanD, hv, hc, if_false, hs, List.foldl_append]⟩

theorem levelsD_updates : ∀ (k : Nat) (nodes child : List Int) (rows : List Nat),
    ∃ (us : List (Bool × Nat × ℚ)) (child' : List Int) (rows' : List Nat), ∀ r, mem.levelsD push dir data minSize k nodes ⟨child, rows, r⟩ = ⟨child', rows', us.foldl tighten r⟩
  | 0, _, child, rows => ⟨[], child, rows, fun _ => rfl⟩
  | k + 1, nodes, child, rows => by
    obtain ⟨us, child', rows', hv⟩ := scanD_updates mem push dir data minSize nodes child rows
    obtain ⟨us2, child2, rows2, hs⟩ := levelsD_updates k child' child' rows'
    exact ⟨us ++ us2, child2, rows2, fun r => by simp only [Mem.levelsD, hv, hs, List.foldl_append]⟩

theorem runD_updates (maxDepth N : Nat) :
    ∃ p : List (Bool × Nat × ℚ) × List Nat, ∀ r, mem.runD push dir data minSize maxDepth N r = (p.2, p.1.foldl tighten r) := by
  obtain ⟨us, child', rows', h⟩ := levelsD_updates mem push dir data minSize maxDepth [0] [] (List.range N)
  exact ⟨(us, rows'), fun r => by simp only [Mem.runD, h]⟩

/-- The cells of a forest, tree by tree, and the tightenings of the rule. -/
theorem forestRunD_updates (maxDepth N : Nat) : ∃ g : Mem → List (Bool × Nat × ℚ) × List Nat, ∀ (mems : List Mem) (r : Rule),
    forestRunD push dir data minSize maxDepth N mems r = (mems.map fun mem => (g mem).2, (mems.flatMap fun mem => (g mem).1).foldl tighten r) := by
  refine ⟨fun mem => (runD_updates mem push dir data minSize maxDepth N).choose, fun mems => ?_⟩
  induction mems with
  | nil => intro r; rfl
  | cons mem mems ih =>
    intro r
    have h := (runD_updates mem push dir data minSize maxDepth N).choose_spec r
    simp only [forestRunD, h, ih, List.map_cons, List.flatMap_cons, List.foldl_append]

/-- **The walk over the trees in another order**: the cells in that order, and the same rule. -/
theorem forestRunD_perm {mems mems' : List Mem} (h : mems.Perm mems') (maxDepth N : Nat) (r : Rule) :
    (forestRunD push dir data minSize maxDepth N mems r).1.Perm (forestRunD push dir data minSize maxDepth N mems' r).1 ∧
    (forestRunD push dir data minSize maxDepth N mems' r).2 = (forestRunD push dir data minSize maxDepth N mems r).2 := by
  obtain ⟨g, hg⟩ := forestRunD_updates push dir data minSize maxDepth N
  rw [hg, hg]
  exact ⟨h.map _, (h.flatMap_right _).symm.foldl_eq r⟩

theorem cellSum_perm {cells cells' : List (List Nat)} (h : cells.Perm cells') (f : Nat → ℚ) : cellSum cells' f = cellSum cells f := by
  unfold cellSum
  rw [h.length_eq]
  exact (h.map _).sum_eq.symm

theorem weightsOf_perm {cells cells' : List (List Nat)} (h : cells.Perm cells') (i : Nat) : weightsOf cells' i = weightsOf cells i := by
  unfold weightsOf
  rw [h.length_eq]
  exact (h.map _).sum_eq.symm

end Acv

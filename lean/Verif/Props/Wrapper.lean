import Verif.Model.Wrapper
import Mathlib.Data.List.Basic
import Mathlib.Algebra.Order.Ring.Rat
import Mathlib.Tactic.NormNum

/-!
# C108: the wrapped model predicts one value per observation
-/

namespace Acv

/-- A model of `d` columns that answers row by row, and raises if a row has another number of columns. -/
def rowWise {β : Type} (d : Nat) (f : List ℚ → β) (m : List (List ℚ)) : Option (List β) :=
  if m.all fun r => r.length == d then some (m.map f) else none

/-- **C108, matrices.** On a matrix with the right number of columns the wrapper returns, for every row in order, the probabilities of the classes, the
probability of the second class, or the prediction of the wrapped model. -/
theorem C108_matrix_partial {d : Nat} (p : List ℚ → List ℚ) (q : List ℚ → ℚ) (hp : ∀ r, 2 ≤ (p r).length) {m : List (List ℚ)}
    (hm : ∀ r ∈ m, r.length = d) :
    wrapCall (rowWise d p) (rowWise d q) .proba (.rows m) = some (.table (m.map p)) ∧
    wrapCall (rowWise d p) (rowWise d q) .probaOne (.rows m) = some (.column (m.map fun r => (p r).getD 1 0)) ∧
    wrapCall (rowWise d p) (rowWise d q) .predict (.rows m) = some (.column (m.map q)) := by
  have hall : (m.all fun r => r.length == d) = true := by simpa using hm
  have h2 : ∀ l : List (List ℚ), (∀ r ∈ l, 2 ≤ r.length) → secondColumn l = some (l.map fun r => r.getD 1 0) := by
    intro l
    induction l with
    | nil => intro _; rfl
    | cons r l ih =>
      intro h
      have hr := h r List.mem_cons_self
      have := ih fun s hs => h s (List.mem_cons_of_mem _ hs)
      unfold secondColumn at this ⊢
      rw [List.mapM_cons, this, List.getElem?_eq_getElem (by omega)]
      simp [List.getD_eq_getElem?_getD, List.getElem?_eq_getElem (show 1 < r.length by omega)]
  refine ⟨by simp [wrapCall, rowWise, hall, WArr.toRows], ?_, by simp [wrapCall, rowWise, hall, WArr.toRows]⟩
  simp only [wrapCall, rowWise, WArr.toRows, hall, if_true, Option.bind_some]
  rw [h2 _ (by simpa using fun r _ => hp r)]
  simp

/-- **C108, one observation.** An observation given as a vector of `d` values is read as `d` observations of one column: a model of one column returns `d`
answers, and a model of more columns raises. -/
theorem C108_vector {d : Nat} (p : List ℚ → List ℚ) (q : List ℚ → ℚ) {v : List ℚ} (hv : v ≠ []) :
    (d ≠ 1 → ∀ mode, wrapCall (rowWise d p) (rowWise d q) mode (.flat v) = none) ∧
    (d = 1 → wrapCall (rowWise d p) (rowWise d q) .predict (.flat v) = some (.column (v.map fun a => q [a]))) := by
  constructor
  · intro hd mode
    obtain ⟨a, w, rfl⟩ := List.exists_cons_of_ne_nil hv
    have : ∀ {β : Type} (f : List ℚ → β), rowWise d f (WArr.flat (a :: w)).toRows = none := by
      intro β f
      unfold rowWise
      rw [if_neg]
      simp [WArr.toRows, Ne.symm hd]
    cases mode <;> simp [wrapCall, this]
  · rintro rfl
    simp [wrapCall, rowWise, WArr.toRows]

/-- The full claim of C108: an observation of `d` values, given as a vector, gets the prediction of the wrapped model. -/
def C108_claim : Prop :=
  ∀ (d : Nat) (p : List ℚ → List ℚ) (q : List ℚ → ℚ) (v : List ℚ), v.length = d →
    wrapCall (rowWise d p) (rowWise d q) .predict (.flat v) = some (.column [q v])

/-- **C108 is false of the code**, for every model of two or more columns. -/
theorem C108_false : ¬ C108_claim ∧ ∀ (p : List ℚ → List ℚ) (q : List ℚ → ℚ) (v : List ℚ), 2 ≤ v.length →
    wrapCall (rowWise v.length p) (rowWise v.length q) .predict (.flat v) = none := by
  have h : ∀ (p : List ℚ → List ℚ) (q : List ℚ → ℚ) (v : List ℚ), 2 ≤ v.length →
      wrapCall (rowWise v.length p) (rowWise v.length q) .predict (.flat v) = none := by
    intro p q v hv
    exact (C108_vector p q (by rintro rfl; simp at hv)).1 (by omega) _
  refine ⟨fun hc => ?_, h⟩
  have := hc 2 (fun _ => []) (fun _ => 0) [1, 2] rfl
  exact absurd ((h (fun _ => []) (fun _ => 0) [1, 2] (by simp)).symm.trans this) (by simp)

example : wrapCall (rowWise 2 fun r => [1 - r.sum, r.sum]) (rowWise 2 fun r => r.sum) .probaOne (.rows [[1 / 4, 1 / 4], [0, 1]]) =
    some (.column [1 / 2, 1]) ∧
    wrapCall (rowWise 2 fun r => [1 - r.sum, r.sum]) (rowWise 2 fun r => r.sum) .predict (.flat [1, 2]) = none := by decide +kernel

end Acv

import Verif.Model.ClassColumns
import Mathlib.Tactic.Linarith
import Mathlib.Tactic.Ring

/-! # C97: every class has a score in the methods for classifiers -/

namespace Acv

/-- The scores of the classes in a node: for a model with `K` outputs they are its values, for a boosted model of two classes with one
output they are the two columns of `values_binary`. -/
def classScore {α : Type} (outputs : Nat) (raw bin : Nat → Nat → Nat → α) : Nat → Nat → Nat → α := if outputs = 1 then bin else raw

/-- The methods that look at the kind of the model before they choose the table of scores: `importance_sdp_clf_greedy`,
`importance_sdp_clf_search`, `compute_sdp_clf`, `compute_sdp_clf_cat` and `compute_sdp_clf_ptrees`. -/
def testing : List ClfMethod := [.greedy, .search, .sdp, .sdpCat, .ptrees]

theorem tests_iff (f : ClfMethod) : f.tests = true ↔ f ∈ testing := by cases f <;> decide

/-- **The property**: whatever the loaded classifier, method, tree, node and class, the method reads the score of that class. -/
def C97_claim : Prop := ∀ (kind : ClfKind) (baselineHasLen : Bool) (K d : Nat), 2 ≤ K → kind.outputs baselineHasLen K = some d →
  ∀ (f : ClfMethod) (T N : Nat) (raw bin : Nat → Nat → Nat → ℚ) (b node k : Nat), b < T → node < N → k < K →
    f.read kind d T N raw bin b node k = some (classScore d raw bin b node k)

theorem read3_in {α : Type} {T N D : Nat} (v : Nat → Nat → Nat → α) {b node k : Nat} (hb : b < T) (hn : node < N) (hk : k < D) :
    read3 N D (flat3 T N D v) b node k = some (v b node k) := by
  have h1 : node * D + k < N * D := by
    calc node * D + k < node * D + D := by omega
      _ = (node + 1) * D := by ring
      _ ≤ N * D := Nat.mul_le_mul_right _ hn
  have h2 : b * (N * D) + node * D + k < T * (N * D) := by
    calc b * (N * D) + node * D + k = b * (N * D) + (node * D + k) := by ring
      _ < b * (N * D) + N * D := by omega
      _ = (b + 1) * (N * D) := by ring
      _ ≤ T * (N * D) := Nat.mul_le_mul_right _ hb
  unfold read3 flat3
  rw [List.getElem?_map, List.getElem?_range h2, Option.map_some]
  have hD : 0 < D := by omega
  have hND : 0 < N * D := Nat.mul_pos (by omega) hD
  have e1 : (b * (N * D) + node * D + k) / (N * D) = b := by
    rw [show b * (N * D) + node * D + k = (node * D + k) + (N * D) * b by ring, Nat.add_mul_div_left _ _ hND, Nat.div_eq_of_lt h1,
      Nat.zero_add]
  have e2 : (b * (N * D) + node * D + k) / D % N = node := by
    rw [show b * (N * D) + node * D + k = k + D * (node + N * b) by ring, Nat.add_mul_div_left _ _ hD, Nat.div_eq_of_lt hk,
      Nat.zero_add, Nat.add_mul_mod_self_left, Nat.mod_eq_of_lt hn]
  have e3 : (b * (N * D) + node * D + k) % D = k := by
    rw [show b * (N * D) + node * D + k = k + D * (node + N * b) by ring, Nat.add_mul_mod_self_left, Nat.mod_eq_of_lt hk]
  rw [e1, e2, e3]

theorem outputs_cases {kind : ClfKind} {baselineHasLen : Bool} {K d : Nat} (hK : 2 ≤ K) (hd : kind.outputs baselineHasLen K = some d) :
    d = K ∨ (d = 1 ∧ K = 2) := by
  cases kind <;> simp only [ClfKind.outputs] at hd <;> (try split_ifs at hd) <;>
    (try simp only [Option.some.injEq] at hd) <;> first | omega | contradiction

/-- **C97 (partial)**: the score is read for every model with one output per class, and for boosted models of two classes by the
methods that use several threads. Missing: `*_nopa` and swing methods on boosted models of two classes, and histogram boosting of two
classes (`C97_false`). -/
theorem C97_partial {kind : ClfKind} {baselineHasLen : Bool} {K d : Nat} (hK : 2 ≤ K) (hd : kind.outputs baselineHasLen K = some d)
    {f : ClfMethod} (h : d = K ∨ (f ∈ testing ∧ kind ≠ .histGradientBoosting)) (T N : Nat) {α : Type} (raw bin : Nat → Nat → Nat → α)
    {b node k : Nat} (hb : b < T) (hn : node < N) (hk : k < K) :
    f.read kind d T N raw bin b node k = some (classScore d raw bin b node k) := by
  have hd1 := outputs_cases hK hd
  unfold ClfMethod.read classScore
  simp only
  by_cases h1 : d = 1
  · have hne : d ≠ K := by omega
    obtain ⟨hf, hh⟩ := h.resolve_left hne
    have hK2 : K = 2 := by omega
    have hl : kind.listed = true := by
      cases kind <;> simp only [ClfKind.outputs, Option.some.injEq] at hd <;>
        first | rfl | (exfalso; omega) | exact absurd rfl hh
    have hu : f.usesBinary kind d = true := by simp [ClfMethod.usesBinary, (tests_iff f).mpr hf, hl, h1]
    rw [ClfMethod.columns, hu, if_pos rfl, if_pos rfl, if_pos h1]
    exact read3_in _ hb hn (by omega)
  · have hu : f.usesBinary kind d = false := by simp [ClfMethod.usesBinary, h1]
    rw [ClfMethod.columns, hu, if_neg (by simp), if_neg (by simp), if_neg h1]
    exact read3_in _ hb hn (by omega)

/-- **What is read instead.** When a model of two classes has one output and the method is not one that tests for it, or the model is a
histogram boosting, the score of class 0 is the raw output of the node and the score of class 1 is the raw output of the next node of
the tree. -/
theorem C97_neighbour {kind : ClfKind} {f : ClfMethod} (h : f ∉ testing ∨ kind = .histGradientBoosting) {T N : Nat} {α : Type}
    (raw bin : Nat → Nat → Nat → α) {b node : Nat} (hb : b < T) (hn : node < N) :
    f.read kind 1 T N raw bin b node 0 = some (raw b node 0) ∧
    (node + 1 < N → f.read kind 1 T N raw bin b node 1 = some (raw b (node + 1) 0)) ∧
    (node + 1 = N → b + 1 < T → f.read kind 1 T N raw bin b node 1 = some (raw (b + 1) 0 0)) ∧
    (node + 1 = N → b + 1 = T → f.read kind 1 T N raw bin b node 1 = none) := by
  have hu : f.usesBinary kind 1 = false := by
    rcases h with h | h
    · rw [← tests_iff] at h
      simp [ClfMethod.usesBinary, h]
    · subst h; simp [ClfMethod.usesBinary, ClfKind.listed]
  have hr : ∀ k, f.read kind 1 T N raw bin b node k = read3 N 1 (flat3 T N 1 raw) b node k := by
    intro k
    unfold ClfMethod.read
    simp only
    rw [ClfMethod.columns, hu, if_neg (by simp), if_neg (by simp)]
  rw [hr, hr]
  refine ⟨read3_in raw hb hn (by omega), fun h1 => ?_, fun h1 h2 => ?_, fun h1 h2 => ?_⟩
  · rw [← read3_in raw hb h1 (show 0 < 1 by omega)]
    unfold read3
    congr 1
  · rw [← read3_in raw h2 (show 0 < N by omega) (show 0 < 1 by omega)]
    unfold read3
    congr 1
    rw [← h1]
    ring
  · unfold read3 flat3
    rw [List.getElem?_eq_none]
    rw [List.length_map, List.length_range, ← h2, ← h1]
    apply le_of_eq
    ring

/-- **The property is false of the code**: a binary XGBoost classifier and `swing_sv_clf`. -/
theorem C97_false : ¬ C97_claim := by
  intro h
  have h1 := h .xgb false 2 1 (by omega) rfl .swing 1 3 (fun _ n _ => n) (fun _ _ _ => 7) 0 0 1 (by omega) (by omega) (by omega)
  rw [((C97_neighbour (kind := .xgb) (f := .swing) (Or.inl (by decide)) _ _ (by omega) (by omega)).2.1) (by omega)] at h1
  simp [classScore] at h1

/-- **C97, which methods**: the claim holds for a loaded model and a method exactly when the model has one output per class, or the
method tests for boosted models and the model is not a histogram boosting. -/
theorem C97_iff {kind : ClfKind} {baselineHasLen : Bool} {K d : Nat} (hK : 2 ≤ K) (hd : kind.outputs baselineHasLen K = some d)
    (f : ClfMethod) :
    (∀ (T N : Nat) (raw bin : Nat → Nat → Nat → ℚ) (b node k : Nat), b < T → node < N → k < K →
      f.read kind d T N raw bin b node k = some (classScore d raw bin b node k)) ↔
    (d = K ∨ (f ∈ testing ∧ kind ≠ .histGradientBoosting)) := by
  constructor
  · intro h
    by_contra hc
    rw [not_or, not_and_or, not_not] at hc
    have hd1 : d = 1 := by
      have := outputs_cases hK hd
      tauto
    subst hd1
    have h1 := h 1 2 (fun _ n _ => n) (fun _ _ _ => 7) 0 0 1 (by omega) (by omega) (by omega)
    rw [((C97_neighbour hc.2 _ _ (by omega) (by omega)).2.1) (by omega)] at h1
    simp [classScore] at h1
  · intro h T N raw bin b node k hb hn hk
    exact C97_partial hK hd h T N raw bin hb hn hk

/-- A binary LightGBM model read by `compute_sdp_clf`: one output, two scores. A forest of three classes read by `swing_sv_clf_nopa`. -/
example : ClfKind.lgbm.outputs false 2 = some 1 ∧
    ClfMethod.sdp.read .lgbm 1 2 3 (fun _ _ _ => (0 : ℚ)) (fun b n c => b + 10 * n + 100 * c) 1 2 1 = some 121 ∧
    ClfKind.forest.outputs false 3 = some 3 ∧
    ClfMethod.swingNopa.read .forest 3 2 3 (fun b n c => (b + 10 * n + 100 * c : ℚ)) (fun _ _ _ => 0) 1 2 2 = some 221 := by
  refine ⟨rfl, ?_, rfl, ?_⟩ <;> decide +kernel

end Acv

import Verif.Model.CondGauss
import Mathlib.LinearAlgebra.Matrix.ToLinearEquiv
import Mathlib.Data.List.NodupEquivFin
import Mathlib.Algebra.Order.BigOperators.Group.Finset
import Mathlib.Tactic.Linarith
import Mathlib.Tactic.Ring
import Mathlib.Tactic.Positivity

/-!
# C96: the conditional Gaussian parameters are those of the conditional law

A Gaussian law with mean `mean` and covariance `cov`, given the columns `S`, is Gaussian with the parameters determined by: the difference
between a column and its conditional mean has mean zero and no covariance with the columns given, and its covariance is the conditional one.
The specification states this for every population with these two moments (a finite weighted set of rows).
-/

open Finset

namespace Acv

/-! ## Specification -/

/-- A finite population: rows `X ω` with probabilities `w ω`. -/
structure Population (Ω : Type) [Fintype Ω] where
  w : Ω → ℚ
  X : Ω → Nat → ℚ
  nonneg : ∀ ω, 0 ≤ w ω
  total : ∑ ω, w ω = 1

variable {Ω : Type} [Fintype Ω]

/-- The mean of a quantity over the population. -/
def Population.E (P : Population Ω) (f : Ω → ℚ) : ℚ := ∑ ω, P.w ω * f ω

/-- The population has these means and covariances in its first `d` columns. -/
def Population.Has (P : Population Ω) (d : Nat) (mean : Nat → ℚ) (cov : Nat → Nat → ℚ) : Prop :=
  (∀ j < d, P.E (fun ω => P.X ω j) = mean j) ∧
  ∀ i < d, ∀ j < d, P.E (fun ω => (P.X ω i - mean i) * (P.X ω j - mean j)) = cov i j

/-! ## Lemmas -/

theorem npInv_some {n : Nat} {A B : Matrix (Fin n) (Fin n) ℚ} (h : npInv A = some B) : A.det ≠ 0 ∧ B * A = 1 ∧ A * B = 1 := by
  unfold npInv at h
  split at h
  · cases h
  · rename_i hd
    have := Option.some.inj h
    subst this
    refine ⟨hd, ?_, ?_⟩
    · rw [Matrix.smul_mul, Matrix.adjugate_mul, smul_smul, inv_mul_cancel₀ hd, one_smul]
    · rw [Matrix.mul_smul, Matrix.mul_adjugate, smul_smul, inv_mul_cancel₀ hd, one_smul]

theorem npInv_none {n : Nat} {A : Matrix (Fin n) (Fin n) ℚ} : npInv A = none ↔ A.det = 0 := by
  unfold npInv
  split <;> simp_all

variable {d : Nat} {mean : Nat → ℚ} {cov : Nat → Nat → ℚ} {bar S : List Nat}

/-- The coefficients of the given columns, and what they say about the result. -/
theorem condMVN_coef (hS : S ≠ []) (hd : (subCov cov S S).det ≠ 0) :
    ∃ b : Fin bar.length → Fin S.length → ℚ, (∀ (k : Fin bar.length) (t : Fin S.length), ∑ s, b k s * cov S[s] S[t] = cov bar[k] S[t]) ∧
      ∀ x, condMVN d mean cov bar S x = some (List.ofFn fun k : Fin bar.length => mean bar[k] + ∑ s, b k s * (x s - mean S[s]),
        List.ofFn fun k : Fin bar.length => List.ofFn fun l : Fin bar.length => cov bar[k] bar[l] - ∑ s, b k s * cov S[s] bar[l]) := by
  cases hA : npInv (subCov cov S S) with
  | none => exact absurd (npInv_none.1 hA) hd
  | some A =>
    obtain ⟨-, h1, -⟩ := npInv_some hA
    refine ⟨subCov cov bar S * A, fun k t => ?_, fun x => ?_⟩
    · have h : (subCov cov bar S * A * subCov cov S S) k t = subCov cov bar S k t := by
        rw [Matrix.mul_assoc, h1, Matrix.mul_one]
      rw [Matrix.mul_apply] at h
      exact h
    · unfold condMVN
      rw [if_neg hS, hA]
      rfl

theorem condMVN_isSome (hS : S ≠ []) {x : Nat → ℚ} {r} (h : condMVN d mean cov bar S x = some r) : (subCov cov S S).det ≠ 0 := by
  unfold condMVN at h
  rw [if_neg hS] at h
  cases hA : npInv (subCov cov S S) with
  | none => rw [hA] at h; cases h
  | some A => exact (npInv_some hA).1

theorem condMVN_none {x : Nat → ℚ} : condMVN d mean cov bar S x = none ↔ S ≠ [] ∧ (subCov cov S S).det = 0 := by
  by_cases hS : S = []
  · simp [condMVN, hS]
  · constructor
    · intro h
      refine ⟨hS, ?_⟩
      by_contra hd
      obtain ⟨b, -, hb⟩ := condMVN_coef (d := d) (mean := mean) (bar := bar) hS hd
      rw [hb] at h
      cases h
    · rintro ⟨-, hd⟩
      unfold condMVN
      rw [if_neg hS, npInv_none.2 hd]
      rfl

/-- The coefficients are unique. -/
theorem coef_unique (hd : (subCov cov S S).det ≠ 0) {b c : Fin S.length → ℚ}
    (h : ∀ t : Fin S.length, ∑ s, b s * cov S[s] S[t] = ∑ s, c s * cov S[s] S[t]) : b = c := by
  have h1 : Matrix.vecMul b (subCov cov S S) = Matrix.vecMul c (subCov cov S S) := by
    funext t
    exact h t
  have h2 : Matrix.vecMul (b - c) (subCov cov S S) = 0 := by
    rw [Matrix.sub_vecMul, h1, sub_self]
  by_contra hne
  exact hd (Matrix.exists_vecMul_eq_zero_iff.1 ⟨b - c, sub_ne_zero.2 hne, h2⟩)

theorem E_add (P : Population Ω) (f g : Ω → ℚ) : P.E (fun ω => f ω + g ω) = P.E f + P.E g := by
  unfold Population.E
  rw [← Finset.sum_add_distrib]
  exact Finset.sum_congr rfl fun _ _ => by ring

theorem E_sub (P : Population Ω) (f g : Ω → ℚ) : P.E (fun ω => f ω - g ω) = P.E f - P.E g := by
  unfold Population.E
  rw [← Finset.sum_sub_distrib]
  exact Finset.sum_congr rfl fun _ _ => by ring

theorem E_mul (P : Population Ω) (a : ℚ) (f : Ω → ℚ) : P.E (fun ω => a * f ω) = a * P.E f := by
  unfold Population.E
  rw [Finset.mul_sum]
  exact Finset.sum_congr rfl fun _ _ => by ring

theorem E_const (P : Population Ω) (a : ℚ) : P.E (fun _ => a) = a := by
  unfold Population.E
  rw [← Finset.sum_mul, P.total, one_mul]

theorem E_sum (P : Population Ω) {n : Nat} (f : Fin n → Ω → ℚ) : P.E (fun ω => ∑ s, f s ω) = ∑ s, P.E (f s) := by
  unfold Population.E
  rw [Finset.sum_comm]
  exact Finset.sum_congr rfl fun _ _ => by rw [Finset.mul_sum]

theorem E_nonneg (P : Population Ω) {f : Ω → ℚ} (h : ∀ ω, 0 ≤ f ω) : 0 ≤ P.E f :=
  Finset.sum_nonneg fun ω _ => mul_nonneg (P.nonneg ω) (h ω)

/-! ## Theorems -/

/-- The residual of column `bar[k]` for coefficients `b`. -/
theorem residual_facts {P : Population Ω} (hP : P.Has d mean cov) (hS : ∀ j ∈ S, j < d) {j : Nat} (hj : j < d) {b : Fin S.length → ℚ}
    (hb : ∀ t : Fin S.length, ∑ s, b s * cov S[s] S[t] = cov j S[t]) :
    P.E (fun ω => P.X ω j - (mean j + ∑ s, b s * (P.X ω S[s] - mean S[s]))) = 0 ∧
    (∀ t : Fin S.length, P.E (fun ω => (P.X ω j - (mean j + ∑ s, b s * (P.X ω S[s] - mean S[s]))) * (P.X ω S[t] - mean S[t])) = 0) ∧
    ∀ l < d, P.E (fun ω => (P.X ω j - (mean j + ∑ s, b s * (P.X ω S[s] - mean S[s]))) * (P.X ω l - mean l)) =
      cov j l - ∑ s, b s * cov S[s] l := by
  have hsd : ∀ s : Fin S.length, S[s] < d := fun s => hS _ (List.getElem_mem _)
  have hc : ∀ l < d, P.E (fun ω => P.X ω l - mean l) = 0 := by
    intro l hl
    rw [E_sub, hP.1 l hl, E_const, sub_self]
  have hl : ∀ l < d, P.E (fun ω => (P.X ω j - (mean j + ∑ s, b s * (P.X ω S[s] - mean S[s]))) * (P.X ω l - mean l)) =
      cov j l - ∑ s, b s * cov S[s] l := by
    intro l hl
    have e : (fun ω => (P.X ω j - (mean j + ∑ s, b s * (P.X ω S[s] - mean S[s]))) * (P.X ω l - mean l)) =
        fun ω => (P.X ω j - mean j) * (P.X ω l - mean l) - ∑ s, b s * ((P.X ω S[s] - mean S[s]) * (P.X ω l - mean l)) := by
      funext ω
      rw [← sub_sub, sub_mul, Finset.sum_mul]
      congr 1
      exact Finset.sum_congr rfl fun _ _ => by ring
    rw [e, E_sub, hP.2 j hj l hl, E_sum]
    congr 1
    refine Finset.sum_congr rfl fun s _ => ?_
    rw [E_mul, hP.2 _ (hsd s) l hl]
  refine ⟨?_, fun t => ?_, hl⟩
  · have e : (fun ω => P.X ω j - (mean j + ∑ s, b s * (P.X ω S[s] - mean S[s]))) =
        fun ω => (P.X ω j - mean j) - ∑ s, b s * (P.X ω S[s] - mean S[s]) := by
      funext ω
      ring
    rw [e, E_sub, hc j hj, E_sum, zero_sub, neg_eq_zero]
    refine Finset.sum_eq_zero fun s _ => ?_
    rw [E_mul, hc _ (hsd s), mul_zero]
  · rw [hl _ (hsd t), hb t, sub_self]

/-- **C96, conditional parameters.** For every population with the given means and covariances whose given columns are not collinear: the
difference between a column and the conditional mean returned for the row has mean zero, has no covariance with the columns given, and has the
covariance returned, which does not depend on the row. -/
theorem C96_conditional {P : Population Ω} (hP : P.Has d mean cov) (hbar : ∀ j ∈ bar, j < d) (hS : ∀ j ∈ S, j < d) (hne : S ≠ [])
    {x0 : Nat → ℚ} {r0} (h : condMVN d mean cov bar S x0 = some r0) :
    ∃ (m : Ω → Fin bar.length → ℚ) (C : Fin bar.length → Fin bar.length → ℚ), r0.2 = (List.ofFn fun k => List.ofFn (C k)) ∧
      (∀ ω, condMVN d mean cov bar S (fun s => P.X ω (S.getD s 0)) = some (List.ofFn (m ω), List.ofFn fun k => List.ofFn (C k))) ∧
      (∀ k, P.E (fun ω => P.X ω bar[k] - m ω k) = 0) ∧
      (∀ k, ∀ s ∈ S, P.E (fun ω => (P.X ω bar[k] - m ω k) * (P.X ω s - mean s)) = 0) ∧
      ∀ k l, P.E (fun ω => (P.X ω bar[k] - m ω k) * (P.X ω bar[l] - m ω l)) = C k l := by
  obtain ⟨b, hb, hr⟩ := condMVN_coef (d := d) (mean := mean) (bar := bar) hne (condMVN_isSome hne h)
  have hj : ∀ k : Fin bar.length, bar[k] < d := fun k => hbar _ (List.getElem_mem _)
  refine ⟨fun ω k => mean bar[k] + ∑ s, b k s * (P.X ω S[s] - mean S[s]), fun k l => cov bar[k] bar[l] - ∑ s, b k s * cov S[s] bar[l],
    ?_, fun ω => ?_, fun k => (residual_facts hP hS (hj k) (hb k)).1, fun k s hs => ?_, fun k l => ?_⟩
  · rw [hr] at h
    exact (congrArg Prod.snd (Option.some.inj h)).symm
  · rw [hr]
    simp
  · obtain ⟨t, ht, rfl⟩ := List.getElem_of_mem hs
    exact (residual_facts hP hS (hj k) (hb k)).2.1 ⟨t, ht⟩
  · obtain ⟨h1, h2, h3⟩ := residual_facts hP hS (hj k) (hb k)
    have e : (fun ω => (P.X ω bar[k] - (mean bar[k] + ∑ s, b k s * (P.X ω S[s] - mean S[s]))) *
        (P.X ω bar[l] - (mean bar[l] + ∑ s, b l s * (P.X ω S[s] - mean S[s])))) = fun ω =>
        (P.X ω bar[k] - (mean bar[k] + ∑ s, b k s * (P.X ω S[s] - mean S[s]))) * (P.X ω bar[l] - mean bar[l]) -
        ∑ t, b l t * ((P.X ω bar[k] - (mean bar[k] + ∑ s, b k s * (P.X ω S[s] - mean S[s]))) * (P.X ω S[t] - mean S[t])) := by
      funext ω
      rw [← sub_sub (P.X ω bar[l]), mul_sub, Finset.mul_sum]
      congr 1
      exact Finset.sum_congr rfl fun _ _ => by ring
    rw [e, E_sub, h3 _ (hj l), E_sum]
    have : ∑ t, P.E (fun ω => b l t * ((P.X ω bar[k] - (mean bar[k] + ∑ s, b k s * (P.X ω S[s] - mean S[s]))) * (P.X ω S[t] - mean S[t]))) = 0 :=
      Finset.sum_eq_zero fun t _ => by rw [E_mul, h2 t, mul_zero]
    rw [this, sub_zero]

/-- **C96, best prediction.** The conditional variance returned for a column is the smallest mean squared error of a prediction of this column by
an affine function of the columns given. -/
theorem C96_best {P : Population Ω} (hP : P.Has d mean cov) (hbar : ∀ j ∈ bar, j < d) (hS : ∀ j ∈ S, j < d) (hne : S ≠ [])
    {x0 : Nat → ℚ} {μ : List ℚ} {C : Fin bar.length → Fin bar.length → ℚ}
    (h : condMVN d mean cov bar S x0 = some (μ, List.ofFn fun k => List.ofFn (C k))) (k : Fin bar.length) (a : ℚ) (c : Fin S.length → ℚ) :
    C k k ≤ P.E (fun ω => (P.X ω bar[k] - (a + ∑ s, c s * P.X ω S[s])) ^ 2) := by
  obtain ⟨b, hb, hr⟩ := condMVN_coef (d := d) (mean := mean) (bar := bar) hne (condMVN_isSome hne h)
  have hj : ∀ k : Fin bar.length, bar[k] < d := fun k => hbar _ (List.getElem_mem _)
  obtain ⟨h1, h2, h3⟩ := residual_facts hP hS (hj k) (hb k)
  have hC : C k k = cov bar[k] bar[k] - ∑ s, b k s * cov S[s] bar[k] := by
    rw [hr] at h
    have h4 := congrArg Prod.snd (Option.some.inj h)
    have h5 := List.ofFn_injective h4
    have h6 := List.ofFn_injective (congrFun h5 k)
    exact (congrFun h6 k).symm
  set R : Ω → ℚ := fun ω => P.X ω bar[k] - (mean bar[k] + ∑ s, b k s * (P.X ω S[s] - mean S[s])) with hR
  set G : Ω → ℚ := fun ω => (mean bar[k] - a - ∑ s, c s * mean S[s]) + ∑ s, (b k s - c s) * (P.X ω S[s] - mean S[s]) with hG
  have hRG : P.E (fun ω => R ω * G ω) = 0 := by
    have e : (fun ω => R ω * G ω) = fun ω => (mean bar[k] - a - ∑ s, c s * mean S[s]) * R ω +
        ∑ s, (b k s - c s) * (R ω * (P.X ω S[s] - mean S[s])) := by
      funext ω
      simp only [hG]
      rw [mul_add, Finset.mul_sum]
      congr 1
      · ring
      · exact Finset.sum_congr rfl fun _ _ => by ring
    rw [e, E_add, E_mul, h1, mul_zero, zero_add, E_sum]
    exact Finset.sum_eq_zero fun s _ => by rw [E_mul, h2 s, mul_zero]
  have hRR : P.E (fun ω => R ω * R ω) = C k k := by
    have e : (fun ω => R ω * R ω) = fun ω => R ω * (P.X ω bar[k] - mean bar[k]) -
        ∑ s, b k s * (R ω * (P.X ω S[s] - mean S[s])) := by
      funext ω
      have : R ω = (P.X ω bar[k] - mean bar[k]) - ∑ s, b k s * (P.X ω S[s] - mean S[s]) := by simp only [hR]; ring
      nth_rw 2 [this]
      rw [mul_sub, Finset.mul_sum]
      congr 1
      exact Finset.sum_congr rfl fun _ _ => by ring
    have hz : ∑ s, P.E (fun ω => b k s * (R ω * (P.X ω S[s] - mean S[s]))) = 0 :=
      Finset.sum_eq_zero fun s _ => by rw [E_mul, h2 s, mul_zero]
    rw [e, E_sub, h3 _ (hj k), E_sum, hz, hC, sub_zero]
  have e : (fun ω => (P.X ω bar[k] - (a + ∑ s, c s * P.X ω S[s])) ^ 2) = fun ω => R ω * R ω + (2 * (R ω * G ω) + G ω ^ 2) := by
    funext ω
    have : P.X ω bar[k] - (a + ∑ s, c s * P.X ω S[s]) = R ω + G ω := by
      simp only [hR, hG, sub_mul, mul_sub, Finset.sum_sub_distrib]
      ring
    rw [this]
    ring
  rw [e, E_add, hRR, E_add, E_mul, hRG, mul_zero, zero_add]
  have := E_nonneg P (f := fun ω => G ω ^ 2) fun ω => sq_nonneg _
  linarith

/-- **C96, only this mean.** An affine function of the columns given whose error has mean zero and no covariance with them is the conditional
mean, at every point. -/
theorem C96_unique {P : Population Ω} (hP : P.Has d mean cov) (hbar : ∀ j ∈ bar, j < d) (hS : ∀ j ∈ S, j < d) (hne : S ≠ [])
    {x : Nat → ℚ} {r} (h : condMVN d mean cov bar S x = some r) (k : Fin bar.length) (a : ℚ) (c : Fin S.length → ℚ)
    (h0 : P.E (fun ω => P.X ω bar[k] - (a + ∑ s, c s * P.X ω S[s])) = 0)
    (h1 : ∀ t : Fin S.length, P.E (fun ω => (P.X ω bar[k] - (a + ∑ s, c s * P.X ω S[s])) * (P.X ω S[t] - mean S[t])) = 0) :
    r.1[(k : Nat)]? = some (a + ∑ s, c s * x s) := by
  have hd := condMVN_isSome hne h
  obtain ⟨b, hb, hr⟩ := condMVN_coef (d := d) (mean := mean) (bar := bar) hne hd
  have hj : bar[k] < d := hbar _ (List.getElem_mem _)
  have hsd : ∀ s : Fin S.length, S[s] < d := fun s => hS _ (List.getElem_mem _)
  have ha : a = mean bar[k] - ∑ s, c s * mean S[s] := by
    rw [E_sub, E_add, E_const, E_sum, hP.1 _ hj] at h0
    have : ∑ s, P.E (fun ω => c s * P.X ω S[s]) = ∑ s, c s * mean S[s] :=
      Finset.sum_congr rfl fun s _ => by rw [E_mul, hP.1 _ (hsd s)]
    rw [this] at h0
    linarith
  have hbc : b k = c := by
    refine coef_unique hd fun t => ?_
    rw [hb k t]
    have e : (fun ω => (P.X ω bar[k] - (a + ∑ s, c s * P.X ω S[s])) * (P.X ω S[t] - mean S[t])) = fun ω =>
        (P.X ω bar[k] - mean bar[k]) * (P.X ω S[t] - mean S[t]) - ∑ s, c s * ((P.X ω S[s] - mean S[s]) * (P.X ω S[t] - mean S[t])) := by
      funext ω
      have e1 : P.X ω bar[k] - (a + ∑ s, c s * P.X ω S[s]) = (P.X ω bar[k] - mean bar[k]) - ∑ s, c s * (P.X ω S[s] - mean S[s]) := by
        simp only [ha, mul_sub, Finset.sum_sub_distrib]
        ring
      rw [e1, sub_mul, Finset.sum_mul]
      congr 1
      exact Finset.sum_congr rfl fun _ _ => by ring
    have h2 := h1 t
    rw [e, E_sub, hP.2 _ hj _ (hsd t), E_sum] at h2
    have : ∑ s, P.E (fun ω => c s * ((P.X ω S[s] - mean S[s]) * (P.X ω S[t] - mean S[t]))) = ∑ s, c s * cov S[s] S[t] :=
      Finset.sum_congr rfl fun s _ => by rw [E_mul, hP.2 _ (hsd s) _ (hsd t)]
    rw [this] at h2
    linarith
  rw [hr] at h
  rw [← Option.some.inj h]
  simp only [List.getElem?_ofFn]
  rw [dif_pos k.isLt, hbc, ha]
  simp only [mul_sub, Finset.sum_sub_distrib, Option.some.injEq]
  ring

/-- **C96, errors.** The function raises exactly if columns are given and one of their non-trivial linear combinations is constant in the
population. -/
theorem C96_error {P : Population Ω} (hP : P.Has d mean cov) (hS : ∀ j ∈ S, j < d) (x : Nat → ℚ) :
    condMVN d mean cov bar S x = none ↔
      S ≠ [] ∧ ∃ c : Fin S.length → ℚ, c ≠ 0 ∧ ∃ a, ∀ ω, 0 < P.w ω → ∑ s, c s * P.X ω S[s] = a := by
  rw [condMVN_none, ← Matrix.exists_vecMul_eq_zero_iff]
  have hsd : ∀ s : Fin S.length, S[s] < d := fun s => hS _ (List.getElem_mem _)
  have hcov : ∀ (v : Fin S.length → ℚ) (t : Fin S.length), Matrix.vecMul v (subCov cov S S) t =
      P.E (fun ω => (∑ s, v s * (P.X ω S[s] - mean S[s])) * (P.X ω S[t] - mean S[t])) := by
    intro v t
    have e : (fun ω => (∑ s, v s * (P.X ω S[s] - mean S[s])) * (P.X ω S[t] - mean S[t])) =
        fun ω => ∑ s, v s * ((P.X ω S[s] - mean S[s]) * (P.X ω S[t] - mean S[t])) := by
      funext ω
      rw [Finset.sum_mul]
      exact Finset.sum_congr rfl fun _ _ => by ring
    rw [e, E_sum]
    change ∑ s, v s * cov S[s] S[t] = _
    exact Finset.sum_congr rfl fun s _ => by rw [E_mul, hP.2 _ (hsd s) _ (hsd t)]
  refine and_congr_right fun _ => exists_congr fun v => and_congr_right fun _ => ?_
  have hcen : ∀ ω, ∑ s, v s * (P.X ω S[s] - mean S[s]) = ∑ s, v s * P.X ω S[s] - ∑ s, v s * mean S[s] := by
    intro ω
    simp only [mul_sub, Finset.sum_sub_distrib]
  constructor
  · intro h
    refine ⟨∑ s, v s * mean S[s], fun ω hω => ?_⟩
    have h2 : P.E (fun ω => (∑ s, v s * (P.X ω S[s] - mean S[s])) ^ 2) = 0 := by
      have e : (fun ω => (∑ s, v s * (P.X ω S[s] - mean S[s])) ^ 2) =
          fun ω => ∑ t, v t * ((∑ s, v s * (P.X ω S[s] - mean S[s])) * (P.X ω S[t] - mean S[t])) := by
        funext ω
        rw [sq]
        nth_rw 2 [← Finset.sum_congr rfl fun _ _ => rfl]
        rw [Finset.mul_sum]
        exact Finset.sum_congr rfl fun _ _ => by ring
      rw [e, E_sum]
      refine Finset.sum_eq_zero fun t _ => ?_
      rw [E_mul, ← hcov, h]
      simp
    have h3 := (Finset.sum_eq_zero_iff_of_nonneg fun ω _ => mul_nonneg (P.nonneg ω) (sq_nonneg _)).1 h2 ω (Finset.mem_univ _)
    rcases mul_eq_zero.1 h3 with h4 | h4
    · exact absurd h4 (ne_of_gt hω)
    · have := pow_eq_zero_iff (two_ne_zero) |>.1 h4
      rw [hcen] at this
      linarith
  · rintro ⟨a, ha⟩
    have hz : ∀ ω, P.w ω * (∑ s, v s * (P.X ω S[s] - mean S[s])) = 0 := by
      have hsum : ∑ s, v s * mean S[s] = a := by
        have h1 : P.E (fun ω => ∑ s, v s * P.X ω S[s]) = a := by
          have : P.E (fun ω => ∑ s, v s * P.X ω S[s]) = P.E fun _ => a := by
            refine Finset.sum_congr rfl fun ω _ => ?_
            rcases (P.nonneg ω).lt_or_eq with h | h
            · beta_reduce
              rw [ha ω h]
            · rw [← h, zero_mul, zero_mul]
          rw [this, E_const]
        rw [E_sum] at h1
        rw [← h1]
        exact Finset.sum_congr rfl fun s _ => by rw [E_mul, hP.1 _ (hsd s)]
      intro ω
      rcases (P.nonneg ω).lt_or_eq with h | h
      · rw [hcen, ha ω h, hsum, sub_self, mul_zero]
      · rw [← h, zero_mul]
    funext t
    rw [hcov]
    refine Finset.sum_eq_zero fun ω _ => ?_
    rw [← mul_assoc, hz, zero_mul]

/-- **C96, given columns.** A column that is given keeps the value given, without variance. -/
theorem C96_given {x : Nat → ℚ} {r} (h : condMVN d mean cov bar S x = some r) (k : Fin bar.length)
    (s : Fin S.length) (hs : S[s] = bar[k]) :
    r.1[(k : Nat)]? = some (x s) ∧ ∀ l : Fin bar.length, (r.2.getD k []).getD l 1 = 0 ∧ (r.2.getD l []).getD k 1 = 0 := by
  have hne : S ≠ [] := by
    rintro rfl
    exact absurd s.isLt (by simp)
  have hd := condMVN_isSome hne h
  obtain ⟨b, hb, hr⟩ := condMVN_coef (d := d) (mean := mean) (bar := bar) hne hd
  have hbk : b k = Pi.single s 1 := by
    refine coef_unique hd fun t => ?_
    rw [hb k t, Finset.sum_eq_single s (fun t _ ht => by rw [Pi.single_eq_of_ne ht, zero_mul]) (fun h => absurd (Finset.mem_univ _) h),
      Pi.single_eq_same, one_mul, hs]
  have hsum : ∀ f : Fin S.length → ℚ, ∑ t, b k t * f t = f s := by
    intro f
    rw [hbk, Finset.sum_eq_single s (fun t _ ht => by rw [Pi.single_eq_of_ne ht, zero_mul]) (fun h => absurd (Finset.mem_univ _) h),
      Pi.single_eq_same, one_mul]
  rw [hr] at h
  rw [← Option.some.inj h]
  refine ⟨?_, fun l => ⟨?_, ?_⟩⟩
  · simp only [List.getElem?_ofFn]
    rw [dif_pos k.isLt]
    simp only [Fin.eta, hsum, hs, add_sub_cancel]
  · simp only [List.getD_eq_getElem?_getD, List.getElem?_ofFn]
    rw [dif_pos k.isLt]
    simp only [Option.getD_some, List.getElem?_ofFn]
    rw [dif_pos l.isLt]
    simp only [Fin.eta, hsum, hs, sub_self, Option.getD_some]
  · simp only [List.getD_eq_getElem?_getD, List.getElem?_ofFn]
    rw [dif_pos l.isLt]
    simp only [Option.getD_some, List.getElem?_ofFn]
    rw [dif_pos k.isLt]
    simp only [Fin.eta, Option.getD_some]
    have := hb l s
    rw [hs] at this
    rw [← this, sub_eq_zero]

/-- **C96, order.** The result does not depend on the order in which the columns are given. -/
theorem C96_order (d : Nat) (mean : Nat → ℚ) (cov : Nat → Nat → ℚ) (bar : List Nat) {S S' : List Nat} (hp : S.Perm S') (v : Nat → ℚ) :
    condMVN d mean cov bar S (fun s => v (S.getD s 0)) = condMVN d mean cov bar S' (fun s => v (S'.getD s 0)) := by
  have hdup : ∀ T : List Nat, ¬ T.Nodup → (subCov cov T T).det = 0 := by
    intro T hT
    obtain ⟨i, j, hlt, he⟩ := List.exists_duplicate_iff_not_nodup.2 hT |>.elim fun x hx => List.duplicate_iff_exists_distinct_get.1 hx |> fun
      ⟨n, m, hnm, h1, h2⟩ => (⟨n, m, hnm, h1.symm.trans h2⟩ : ∃ i j : Fin T.length, i < j ∧ T.get i = T.get j)
    refine Matrix.det_zero_of_row_eq (ne_of_lt hlt) ?_
    funext t
    change cov T[i] T[t] = cov T[j] T[t]
    have : T[i] = T[j] := he
    rw [this]
  by_cases hne : S = []
  · subst hne
    rw [List.nil_perm.1 hp]
  have hne' : S' ≠ [] := fun h => hne (by rw [h] at hp; exact List.perm_nil.1 hp)
  by_cases hnd : S.Nodup
  · have hnd' : S'.Nodup := hp.nodup_iff.1 hnd
    let e : Fin S.length ≃ Fin S'.length := (hnd.getEquiv S).trans ((Equiv.subtypeEquivRight fun x => hp.mem_iff).trans (hnd'.getEquiv S').symm)
    have he : ∀ i : Fin S.length, S'[e i] = S[i] := by
      intro i
      have h1 : (hnd'.getEquiv S') (e i) = (Equiv.subtypeEquivRight fun x => hp.mem_iff) (hnd.getEquiv S i) := by
        simp [e]
      exact congrArg Subtype.val h1
    have hsub : subCov cov S S = (subCov cov S' S').submatrix e e := by
      funext i j
      change cov S[i] S[j] = cov S'[e i] S'[e j]
      rw [he, he]
    have hdet : (subCov cov S S).det = (subCov cov S' S').det := by rw [hsub, Matrix.det_submatrix_equiv_self]
    by_cases hd : (subCov cov S S).det = 0
    · rw [condMVN_none.2 ⟨hne, hd⟩, condMVN_none.2 ⟨hne', hdet ▸ hd⟩]
    · obtain ⟨b, hb, hr⟩ := condMVN_coef (d := d) (mean := mean) (bar := bar) hne hd
      obtain ⟨b', hb', hr'⟩ := condMVN_coef (d := d) (mean := mean) (bar := bar) hne' (hdet ▸ hd)
      have hbe : ∀ k s, b k s = b' k (e s) := by
        intro k s
        refine congrFun (coef_unique (b := b k) (c := fun s => b' k (e s)) hd fun t => ?_) s
        rw [hb k t]
        have h1 := hb' k (e t)
        rw [← Equiv.sum_comp e] at h1
        simp only [he] at h1
        exact h1.symm
      rw [hr, hr']
      have hsum : ∀ (k : Fin bar.length) (f : Nat → ℚ), ∑ s, b k s * f S[s] = ∑ s, b' k s * f S'[s] := by
        intro k f
        rw [← Equiv.sum_comp e fun s => b' k s * f S'[s]]
        exact Finset.sum_congr rfl fun s _ => by rw [hbe, he]
      have h1 : ∀ k, ∑ s : Fin S.length, b k s * (v (S.getD s 0) - mean S[s]) = ∑ s : Fin S'.length, b' k s * (v (S'.getD s 0) - mean S'[s]) := by
        intro k
        have := hsum k fun c => v c - mean c
        simpa using this
      simp only [h1]
      have h2 : ∀ k l : Fin bar.length, ∑ s, b k s * cov S[s] bar[l] = ∑ s, b' k s * cov S'[s] bar[l] := fun k l => hsum k fun c => cov c bar[l]
      simp only [h2]
  · rw [condMVN_none.2 ⟨hne, hdup S hnd⟩, condMVN_none.2 ⟨hne', hdup S' fun h => hnd (hp.nodup_iff.2 h)⟩]

/-- **C96, marginal parameters.** With at least one column given, `marMVN` returns the means and covariances of the columns asked for, in their
order. -/
theorem C96_marginal {P : Population Ω} (hP : P.Has d mean cov) (hbar : ∀ j ∈ bar, j < d) (hne : S ≠ []) :
    (marMVN d mean cov bar S).1 = bar.map (fun j => P.E fun ω => P.X ω j) ∧
    (marMVN d mean cov bar S).2 = bar.map fun i => bar.map fun j =>
      P.E fun ω => (P.X ω i - P.E fun ω => P.X ω i) * (P.X ω j - P.E fun ω => P.X ω j) := by
  unfold marMVN
  rw [if_neg hne]
  constructor
  · exact List.map_congr_left fun j hj => (hP.1 j (hbar j hj)).symm
  · refine List.map_congr_left fun i hi => List.map_congr_left fun j hj => ?_
    rw [hP.1 i (hbar i hi), hP.1 j (hbar j hj), hP.2 i (hbar i hi) j (hbar j hj)]

/-- **C96, independence.** Conditioning changes nothing exactly when the columns asked for have no covariance with those given: then both
functions return the same parameters, otherwise the conditional mean depends on the values given. -/
theorem C96_independent (hne : S ≠ []) (hd : ∃ x r, condMVN d mean cov bar S x = some r) :
    (∀ x, condMVN d mean cov bar S x = some (marMVN d mean cov bar S)) ↔ ∀ i ∈ bar, ∀ j ∈ S, cov i j = 0 := by
  obtain ⟨x0, r0, h0⟩ := hd
  have hd := condMVN_isSome hne h0
  obtain ⟨b, hb, hr⟩ := condMVN_coef (d := d) (mean := mean) (bar := bar) hne hd
  have hm : marMVN d mean cov bar S = (List.ofFn fun k : Fin bar.length => mean bar[k], List.ofFn fun k : Fin bar.length =>
      List.ofFn fun l : Fin bar.length => cov bar[k] bar[l]) := by
    unfold marMVN
    rw [if_neg hne]
    have hmap : ∀ {β : Type} (f : Nat → β), bar.map f = List.ofFn fun k : Fin bar.length => f bar[k] := by
      intro β f
      apply List.ext_getElem (by simp)
      intro i h1 h2
      simp
    rw [hmap, hmap]
    simp only [hmap]
  constructor
  · intro h i hi j hj
    obtain ⟨k, hk, rfl⟩ := List.getElem_of_mem hi
    obtain ⟨t, ht, rfl⟩ := List.getElem_of_mem hj
    have hz : ∀ s : Fin S.length, b ⟨k, hk⟩ s = 0 := by
      intro s
      have h1 := h fun n => if h : n < S.length then mean S[n] + (if n = s then 1 else 0) else 0
      rw [hr, hm] at h1
      have h2 := congrFun (List.ofFn_injective (congrArg Prod.fst (Option.some.inj h1))) ⟨k, hk⟩
      have h3 : ∑ t : Fin S.length, b ⟨k, hk⟩ t * ((if h : (t : Nat) < S.length then mean S[(t : Nat)] + (if (t : Nat) = s then 1 else 0) else 0) -
          mean S[t]) = b ⟨k, hk⟩ s := by
        rw [Finset.sum_eq_single s]
        · rw [dif_pos s.isLt, if_pos rfl]
          simp
        · intro t _ hts
          rw [dif_pos t.isLt, if_neg (fun h => hts (Fin.ext h))]
          simp
        · exact fun h => absurd (Finset.mem_univ _) h
      simp only at h2
      rw [h3] at h2
      linarith
    have h4 := hb ⟨k, hk⟩ ⟨t, ht⟩
    rw [Finset.sum_eq_zero fun s _ => by rw [hz s, zero_mul]] at h4
    exact h4.symm
  · intro h x
    have hz : ∀ k, b k = 0 := by
      intro k
      refine coef_unique hd fun t => ?_
      rw [hb k t]
      have : cov bar[k] S[t] = 0 := h _ (List.getElem_mem _) _ (List.getElem_mem _)
      rw [this]
      simp
    rw [hr, hm]
    simp [hz]

/-- C96, shape, as one would expect it: a value for each column asked for. -/
def C96_shape_claim : Prop := ∀ (d : Nat) (mean : Nat → ℚ) (cov : Nat → Nat → ℚ) (bar S : List Nat) (x : Nat → ℚ) r,
  (∀ j ∈ bar, j < d) → condMVN d mean cov bar S x = some r → r.1.length = bar.length

/-- **C96, shape.** There is one value for each column asked for if columns are given; if none is given, the parameters of all columns are
returned, in their order, whatever is asked for. Samples of the right shape are drawn exactly if parameters are returned and, when no column is
given, as many columns are asked for as there are (or no sample is asked for). -/
theorem C96_shape_partial (n d : Nat) (mean : Nat → ℚ) (cov : Nat → Nat → ℚ) (bar S : List Nat) (x : Nat → ℚ) :
    (∀ r, condMVN d mean cov bar S x = some r → r.1.length = (if S = [] then d else bar.length) ∧
      r.2.length = r.1.length ∧ ∀ row ∈ r.2, row.length = r.1.length) ∧
    (S = [] → condMVN d mean cov bar S x = some (marMVN d mean cov bar S) ∧ (marMVN d mean cov bar S).1 = (List.range d).map mean ∧
      (marMVN d mean cov bar S).2 = (List.range d).map fun i => (List.range d).map (cov i)) ∧
    (sampleShape n d mean cov bar S x = some (n, bar.length) ↔
      (∃ r, condMVN d mean cov bar S x = some r) ∧ (S = [] → n = 0 ∨ bar.length = d)) := by
  have h1 : ∀ r, condMVN d mean cov bar S x = some r → r.1.length = (if S = [] then d else bar.length) ∧
      r.2.length = r.1.length ∧ ∀ row ∈ r.2, row.length = r.1.length := by
    intro r h
    by_cases hS : S = []
    · subst hS
      simp only [condMVN, if_true, Option.some.injEq] at h
      subst h
      simp
    · obtain ⟨b, -, hr⟩ := condMVN_coef (d := d) (mean := mean) (bar := bar) hS (condMVN_isSome hS h)
      rw [hr] at h
      rw [← Option.some.inj h, if_neg hS]
      simp [List.mem_ofFn]
  refine ⟨h1, ?_, ?_⟩
  · rintro rfl
    simp [condMVN, marMVN]
  · unfold sampleShape
    cases hc : condMVN d mean cov bar S x with
    | none => simp
    | some r =>
      have hl := (h1 r hc).1
      by_cases hS : S = []
      · rw [if_pos hS] at hl
        simp only [Option.bind_some, hl, hS, forall_const]
        by_cases h0 : n = 0
        · simp [h0]
        · simp [h0, eq_comm]
      · rw [if_neg hS] at hl
        simp [hl, hS]

/-- **C96, shape, false without columns given**: all columns are returned. -/
theorem C96_shape_false : ¬ C96_shape_claim := by
  intro h
  have := h 2 (fun _ => 0) (fun i j => if i = j then 1 else 0) [1] [] (fun _ => 0) _ (by decide) rfl
  exact absurd this (by decide)

/-! ## A concrete case -/

/-- Four equally likely rows with correlated columns. -/
def exPop : Population (Fin 4) where
  w := fun _ => 1/4
  X := fun ω j => if j = 0 then ((ω : Nat) : ℚ) else if j = 1 then (if ω = 0 ∨ ω = 3 then 1 else 0) else if ω = 3 then 4 else 0
  nonneg := fun _ => by norm_num
  total := by decide +kernel

def exPopMean : Nat → ℚ := fun j => if j = 0 then 3/2 else if j = 1 then 1/2 else 1

def exPopCov : Nat → Nat → ℚ := fun i j => exPop.E fun ω => (exPop.X ω i - exPopMean i) * (exPop.X ω j - exPopMean j)

example : exPop.Has 3 exPopMean exPopCov ∧ (∃ r, condMVN 3 exPopMean exPopCov [2] [0, 1] (fun _ => 1) = some r) ∧
    exPopCov 2 0 ≠ 0 ∧ exPopCov 2 1 ≠ 0 ∧ exPopCov 1 0 = 0 := by
  refine ⟨⟨by decide +kernel, fun _ _ _ _ => rfl⟩, ?_, by decide +kernel, by decide +kernel, by decide +kernel⟩
  rw [← Option.isSome_iff_exists]
  decide +kernel

example : condMVN 3 exPopMean exPopCov [1] [0] (fun _ => 1) = some (marMVN 3 exPopMean exPopCov [1] [0]) := by decide +kernel

end Acv

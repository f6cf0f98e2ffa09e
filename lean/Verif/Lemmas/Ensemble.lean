import Verif.Model.Ensemble
import Verif.Props.Shapley
import Verif.Lemmas.LoadLgb

/-!
# Lemmas on ensembles
-/

namespace Acv

theorem encodes_sk {raw : TreeArr} (normalize : Bool) (s : ℚ) (K : Nat) : ∀ {b : BTree}, Encodes raw b → Encodes (skTree normalize s K raw) b
  | .leaf _, h => h
  | .node _ _ _ _ _, ⟨h1, h2, _, h4, h5, h6, h7⟩ => ⟨h1, h2, Or.inl rfl, h4, h5, encodes_sk _ _ _ h6, encodes_sk _ _ _ h7⟩

theorem isTree_sk {raw : TreeArr} (normalize : Bool) (s : ℚ) (K : Nat) {d : Nat} {b : BTree} (h : IsTree raw d b) :
    IsTree (skTree normalize s K raw) d b := ⟨h.root, encodes_sk _ _ _ h.enc, h.nodup, h.all, h.vars⟩

theorem wf_sk {raw : TreeArr} (normalize : Bool) (s : ℚ) (K : Nat) {d : Nat} (h : WellFormed raw d) : WellFormed (skTree normalize s K raw) d :=
  let ⟨_, hb⟩ := h; ⟨_, isTree_sk _ _ _ hb⟩

theorem visits_full_congr {t u : TreeArr} (hl : u.left = t.left) (hr : u.right = t.right) (hf : u.feature = t.feature)
    (ht : u.threshold = t.threshold) {x : Row} {n k : Nat} (h : Visits t (full x) n k) : Visits u (full x) n k := by
  induction h with
  | refl => exact .refl _
  | step h _ ih =>
    refine .step ?_ ih
    obtain ⟨h1, h2⟩ := h
    refine ⟨by rw [hl]; exact h1, ?_⟩
    simp only [full] at h2 ⊢
    rw [ht, hl, hr]
    rw [hf]
    exact h2

theorem endsIn_full_congr (t u : TreeArr) (hl : u.left = t.left) (hr : u.right = t.right) (hf : u.feature = t.feature)
    (ht : u.threshold = t.threshold) {x : Row} {ℓ : Nat} (h : EndsIn t (full x) ℓ) : EndsIn u (full x) ℓ :=
  ⟨visits_full_congr hl hr hf ht h.1, by rw [hl]; exact h.2⟩

theorem endsIn_sk {raw : TreeArr} (normalize : Bool) (s : ℚ) (K : Nat) {x : Row} {ℓ : Nat} (h : EndsIn raw (full x) ℓ) :
    EndsIn (skTree normalize s K raw) (full x) ℓ := endsIn_full_congr raw (skTree normalize s K raw) rfl rfl rfl rfl h

theorem list_sum_div {α : Type} (l : List α) (f : α → ℚ) (c : ℚ) : (l.map fun a => f a / c).sum = (l.map f).sum / c := by
  simp only [div_eq_mul_inv]
  exact List.sum_map_mul_right ..

/-- Prediction of an ensemble without limit, from the leaves. -/
theorem predict_all {ts : List TreeArr} {d : Nat} (h : ∀ t ∈ ts, WellFormed t d) (base : Nat → ℚ) (x : Obs) (k : Nat) (leaf : TreeArr → Nat)
    (hleaf : ∀ t ∈ ts, EndsIn t x (leaf t)) : ensemblePredict ts none none base x k = some (base k + (ts.map fun t => t.value (leaf t) k).sum) := by
  have h2 : effLimit ts.length none none = ts.length := by rw [C03_tree_limit]; rfl
  have := (C03_predict_is_sum_of_leaf_values h none none base x k).2 leaf hleaf
  rwa [h2, List.take_length] at this

/-- The same for a mapped list of trees. -/
theorem predict_map {α : Type} {l : List α} {F : α → TreeArr} {d : Nat} (h : ∀ a ∈ l, WellFormed (F a) d) (base : Nat → ℚ) (x : Obs) (k : Nat)
    (leaf : α → Nat) (hleaf : ∀ a ∈ l, EndsIn (F a) x (leaf a)) :
    ensemblePredict (l.map F) none none base x k = some (base k + (l.map fun a => (F a).value (leaf a) k).sum) := by
  classical
  have hall : ∀ t ∈ l.map F, WellFormed t d := by
    intro t ht
    obtain ⟨a, ha, rfl⟩ := List.mem_map.1 ht
    exact h a ha
  have hex : ∀ t ∈ l.map F, ∃ ℓ, EndsIn t x ℓ := fun t ht => ((C03_predict_is_sum_of_leaf_values hall none none base x k).1 t ht).exists
  let lf : TreeArr → Nat := fun t => if ht : t ∈ l.map F then (hex t ht).choose else 0
  have hlf : ∀ t ∈ l.map F, EndsIn t x (lf t) := by
    intro t ht
    have : lf t = (hex t ht).choose := dif_pos ht
    rw [this]
    exact (hex t ht).choose_spec
  rw [predict_all hall base x k lf hlf, List.map_map]
  congr 3
  apply List.map_congr_left
  intro a ha
  have hu := ((C03_predict_is_sum_of_leaf_values hall none none base x k).1 (F a) (List.mem_map_of_mem ha))
  have : lf (F a) = leaf a := hu.unique (hlf _ (List.mem_map_of_mem ha)) (hleaf a ha)
  show (F a).value (lf (F a)) k = _
  rw [this]

end Acv

import Verif.Spec.LoadHist
import Verif.Lemmas.Ensemble

/-!
# C67: histogram gradient boosting
-/

namespace Acv

/-- A predictor with two splits; missing values go left at the root, right below. -/
def exHist : List HistNode :=
  [⟨0, 10, 1, 3, true, 1, 2, false, false, []⟩, ⟨5, 4, 0, 0, false, 0, 0, true, false, []⟩, ⟨0, 6, 0, -1, false, 3, 4, false, false, []⟩,
    ⟨7, 2, 0, 0, false, 0, 0, true, false, []⟩, ⟨9, 4, 0, 0, false, 0, 0, true, false, []⟩]

theorem exHist_fitted : HistFitted 2 exHist where
  shape := by
    refine ⟨.node 0 1 3 (.leaf 1) (.node 2 0 (-1) (.leaf 3) (.leaf 4)), rfl, ?_, by decide, ?_, by decide⟩
    · exact ⟨⟨_, rfl, rfl, rfl, rfl, rfl, rfl⟩, ⟨_, rfl, rfl⟩, ⟨_, rfl, rfl, rfl, rfl, rfl, rfl⟩, ⟨_, rfl, rfl⟩, ⟨_, rfl, rfl⟩⟩
    · intro n
      show n ∈ [0, 1, 2, 3, 4] ↔ n < 5
      simp only [List.mem_cons, List.not_mem_nil, or_false]
      omega

theorem hist_getD {nodes : List HistNode} {n : Nat} {v : HistNode} (h : nodes[n]? = some v) : nodes.getD n .blank = v := by
  rw [List.getD_eq_getElem?_getD, h]; rfl

theorem histShape_encodes {nodes : List HistNode} : ∀ b : BTree, HistShape nodes b → Encodes (histTree nodes) b
  | .leaf i, ⟨v, h1, h2⟩ => by
    constructor <;> simp only [histTree, hist_getD h1, h2, if_true] <;> decide
  | .node i f thr l r, ⟨⟨v, h1, h2, h3, h4, h5, h6⟩, hl, hr⟩ => by
    refine ⟨?_, ?_, ?_, ?_, ?_, histShape_encodes l hl, histShape_encodes r hr⟩
    · simp [histTree, h1, h2, h3]
    · simp [histTree, h1, h2, h4]
    · cases hm : v.missingLeft <;> simp [histTree, h1, h2, hm]
    · simp [histTree, h1, h2, h5]
    · simp [histTree, h1, h6]

/-- **C67, structure.** A fitted predictor is loaded as a well-formed tree with the same nodes, values and numbers of rows. -/
theorem C67_structure {d : Nat} {nodes : List HistNode} (h : HistFitted d nodes) :
    WellFormed (histTree nodes) d ∧ (histTree nodes).size = nodes.length ∧
      ∀ n v, nodes[n]? = some v → (∀ k, (histTree nodes).value n k = v.value) ∧ (histTree nodes).weight n = v.count := by
  obtain ⟨b, h1, h2, h3, h4, h5⟩ := h.shape
  refine ⟨⟨b, h1, histShape_encodes b h2, h3, h4, h5⟩, rfl, ?_⟩
  intro n v hv
  simp [histTree, hv]

theorem hist_step {nodes : List HistNode} {x : Obs} {n m : Nat} (hnum : ∀ v ∈ nodes, v.isCategorical = false) :
    HistStep nodes x n m ↔ StepTo (histTree nodes) x n m ∧ n < nodes.length := by
  unfold HistStep StepTo
  cases hn : nodes[n]? with
  | none =>
    have := List.getElem?_eq_none_iff.1 hn
    simp only [reduceCtorEq, false_and, exists_false, false_iff, not_and, not_lt]
    exact fun _ => this
  | some v =>
    have hlt : n < nodes.length := by
      by_contra hc
      rw [List.getElem?_eq_none_iff.2 (by omega)] at hn
      cases hn
    have hcat := hnum v (List.mem_of_getElem? hn)
    simp only [Option.some.injEq, exists_eq_left', histTree, hist_getD hn, HistNode.GoesLeft, hcat]
    cases hl : v.isLeaf with
    | true => simp
    | false =>
      simp only [Bool.false_eq_true, if_false, true_and, Int.toNat_natCast, Nat.cast_nonneg, hlt, and_true]
      cases x v.feature with
      | none =>
        cases hm : v.missingLeft <;> simp [eq_comm]
      | some a =>
        simp only [not_le, Nat.cast_inj]
        simp only [eq_comm]

/-- **C67 (partial).** For a fitted predictor without categorical splits and every observation, missing values included, the loaded tree ends in the
leaf in which scikit-learn ends. Missing: categorical splits (`C67_categorical_false`). -/
theorem C67_partial {d : Nat} {nodes : List HistNode} (h : HistFitted d nodes) (hnum : ∀ v ∈ nodes, v.isCategorical = false) (x : Obs) (ℓ : Nat) :
    EndsIn (histTree nodes) x ℓ ↔ HistEnds nodes x ℓ := by
  obtain ⟨b, h1, h2, h3, h4, h5⟩ := h.shape
  have key : ∀ n, n < nodes.length → ∀ m, StepTo (histTree nodes) x n m → HistStep nodes x n m :=
    fun n hn m hs => (hist_step hnum).2 ⟨hs, hn⟩
  have hleaf : ∀ n, (histTree nodes).left n < 0 → ∀ v, nodes[n]? = some v → v.isLeaf = true := by
    intro n hn v hv
    simp only [histTree, hist_getD hv] at hn
    cases hc : v.isLeaf with
    | true => rfl
    | false => rw [hc] at hn; simp at hn; omega
  constructor
  · rintro ⟨hv, hl⟩
    have hchild : ∀ (b : BTree), HistShape nodes b → ∀ n ∈ b.ids, ∀ v, nodes[n]? = some v → v.isLeaf = false → v.left ∈ b.ids ∧ v.right ∈ b.ids := by
      intro b
      induction b with
      | leaf i =>
        intro hs n hn v hv hf
        simp only [BTree.ids, List.mem_singleton] at hn
        subst hn
        obtain ⟨w, hw, hwl⟩ := hs
        rw [hv] at hw
        cases hw
        rw [hf] at hwl
        cases hwl
      | node i f thr l r ihl ihr =>
        intro hs n hn v hv hf
        obtain ⟨⟨w, hw, _, hwl, hwr, _⟩, hsl, hsr⟩ := hs
        simp only [BTree.ids, List.mem_cons, List.mem_append] at hn ⊢
        rcases hn with rfl | hn | hn
        · rw [hv] at hw
          cases hw
          rw [hwl, hwr]
          exact ⟨Or.inr (Or.inl (BTree.id_mem_ids l)), Or.inr (Or.inr (BTree.id_mem_ids r))⟩
        · have := ihl hsl n hn v hv hf
          exact ⟨Or.inr (Or.inl this.1), Or.inr (Or.inl this.2)⟩
        · have := ihr hsr n hn v hv hf
          exact ⟨Or.inr (Or.inr this.1), Or.inr (Or.inr this.2)⟩
    have hin : ∀ n m, n < nodes.length → StepTo (histTree nodes) x n m → m < nodes.length := by
      intro n m hn hs
      obtain ⟨v, e1, e2, e3⟩ := key n hn m hs
      have := hchild b h2 n ((h4 n).2 hn) v e1 e2
      rcases e3 with ⟨_, rfl⟩ | ⟨_, rfl⟩
      · exact (h4 _).1 this.1
      · exact (h4 _).1 this.2
    have hgo : ∀ n m, Visits (histTree nodes) x n m → n < nodes.length → Relation.ReflTransGen (HistStep nodes x) n m ∧ m < nodes.length := by
      intro n m hv
      induction hv with
      | refl n => exact fun hn => ⟨.refl, hn⟩
      | step hs _ ih =>
        intro hn
        obtain ⟨r1, r2⟩ := ih (hin _ _ hn hs)
        exact ⟨.head (key _ hn _ hs) r1, r2⟩
    have h0 : 0 < nodes.length := (h4 0).1 (h1 ▸ BTree.id_mem_ids b)
    obtain ⟨r1, r2⟩ := hgo 0 ℓ hv h0
    exact ⟨r1, nodes[ℓ], List.getElem?_eq_getElem r2, hleaf ℓ hl _ (List.getElem?_eq_getElem r2)⟩
  · rintro ⟨hr, v, hv, hl⟩
    refine ⟨?_, by simp only [histTree, hist_getD hv, hl, if_true]; decide⟩
    have hgo : ∀ n m, Relation.ReflTransGen (HistStep nodes x) n m → Visits (histTree nodes) x n m := by
      intro n m hr
      induction hr using Relation.ReflTransGen.head_induction_on with
      | refl => exact .refl _
      | head hs _ ih => exact .step ((hist_step hnum).1 hs).1 ih
    exact hgo 0 ℓ hr

/-- **C67, prediction (partial).** `predict` for a histogram gradient boosting model without categorical splits is its baseline plus the values of the
leaves in which scikit-learn ends. -/
theorem C67_predict_partial {d : Nat} {preds : List (List HistNode)} (h : ∀ p ∈ preds, HistFitted d p)
    (hnum : ∀ p ∈ preds, ∀ v ∈ p, v.isCategorical = false) (base : Nat → ℚ) (x : Obs) (k : Nat) (leaf : List HistNode → Nat)
    (hleaf : ∀ p ∈ preds, HistEnds p x (leaf p)) :
    ensemblePredict (preds.map histTree) none none base x k = some (base k + (preds.map fun p => (p.getD (leaf p) .blank).value).sum) := by
  rw [predict_map (fun p hp => (C67_structure (h p hp)).1) base x k leaf fun p hp => (C67_partial (h p hp) (hnum p hp) x (leaf p)).2 (hleaf p hp)]
  rfl

example : ensemblePredict ([exHist, exHist].map histTree) none none (fun _ => 1) (fun j => if j = 1 then some 4 else none) 0 = some 19 := by decide +kernel

/-- What C67 asks. -/
def C67_claim : Prop :=
  ∀ (d : Nat) (nodes : List HistNode), HistFitted d nodes → ∀ (x : Obs) (ℓ : Nat), EndsIn (histTree nodes) x ℓ ↔ HistEnds nodes x ℓ

/-- A predictor with one categorical split: category 2 goes left. -/
def exHistCat : List HistNode :=
  [⟨0, 10, 0, 0, true, 1, 2, false, true, [2]⟩, ⟨5, 4, 0, 0, false, 0, 0, true, false, []⟩, ⟨7, 6, 0, 0, false, 0, 0, true, false, []⟩]

theorem exHistCat_fitted : HistFitted 1 exHistCat where
  shape := by
    refine ⟨.node 0 0 0 (.leaf 1) (.leaf 2), rfl, ?_, by decide, ?_, by decide⟩
    · exact ⟨⟨_, rfl, rfl, rfl, rfl, rfl, rfl⟩, ⟨_, rfl, rfl⟩, ⟨_, rfl, rfl⟩⟩
    · intro n
      show n ∈ [0, 1, 2] ↔ n < 3
      simp only [List.mem_cons, List.not_mem_nil, or_false]
      omega

/-- **C67, categories.** A categorical split is loaded as a numerical one: the observation of category 2 ends in the other leaf. -/
theorem C67_categorical_false : ¬ C67_claim := by
  intro h
  have h1 : HistEnds exHistCat (full fun _ => 2) 1 := by
    refine ⟨.single ⟨_, rfl, rfl, Or.inl ⟨?_, rfl⟩⟩, _, rfl, rfl⟩
    show ∃ c ∈ [2], (2 : ℚ) = (c : Nat)
    exact ⟨2, by simp, by norm_num⟩
  have h2 := (h 1 exHistCat exHistCat_fitted (full fun _ => 2) 1).2 h1
  have hw := (C67_structure exHistCat_fitted).1
  obtain ⟨b, hb⟩ := hw
  have e1 := (endsIn_iff hb _ _).1 h2
  have e2 := leafOf_obs hb (full fun _ => 2)
  rw [← e1] at e2
  exact absurd e2 (by decide +kernel)

end Acv

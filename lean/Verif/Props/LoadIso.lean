import Verif.Lemmas.LoadIso
import Verif.Lemmas.Ensemble
import Verif.Props.LoadSpark
import Mathlib.Tactic.FieldSimp
import Mathlib.Tactic.Ring

/-!
# C66: isolation forests
-/

namespace Acv

/-- A fitted sklearn isolation tree on the columns `r.tf` of a dataset with `d` columns: a well-formed tree, leaves marked by `-1` and `-2`. -/
structure IsoFitted (d : Nat) (r : IsoRaw) : Prop where
  tree : WellFormed r.arr r.tf.length
  leaf : ∀ n < r.arr.size, r.arr.left n < 0 → r.arr.left n = -1 ∧ r.arr.right n = -1 ∧ r.arr.feature n = -2
  columns : ∀ f ∈ r.tf, f < d
  rows : ∀ n < r.arr.size, 0 < r.ns n

/-- A stump on columns 2 and 0 of a dataset; 8 rows, 3 of them below the threshold. -/
def exIso : IsoRaw where
  arr := ⟨3, fun n => if n = 0 then 1 else -1, fun n => if n = 0 then 2 else -1, fun n => if n = 0 then 1 else -1, fun n => if n = 0 then 1 else -2,
    fun n => if n = 0 then 5 else -2, fun _ _ => 0, fun _ => 1⟩
  ns := fun n => if n = 0 then 8 else if n = 1 then 3 else 5
  tf := [2, 0]

theorem exIso_fitted : IsoFitted 3 exIso where
  tree := ⟨.node 0 1 5 (.leaf 1) (.leaf 2), by decide, by simp [Encodes, exIso, BTree.id], by decide, by
    intro n
    show n ∈ [0, 1, 2] ↔ n < 3
    simp only [List.mem_cons, List.not_mem_nil, or_false]
    omega, by decide⟩
  leaf := by
    intro n hn h
    have : n ≠ 0 := by rintro rfl; simp [exIso] at h
    simp [exIso, this]
  columns := by decide
  rows := by
    intro n _
    simp only [exIso]
    split <;> [norm_num; (split <;> norm_num)]

theorem isoTree_ok {d : Nat} {r : IsoRaw} (h : IsoFitted d r) (h2 : 2 ≤ r.tf.length) (scaling : ℚ) (c : ℚ → ℚ) :
    ∃ (vals : Nat → ℚ) (b : BTree) (t : TreeArr), isoTree scaling c r.ns r.tf r.arr = .ok t ∧ (∀ n k, t.value n k = vals n * scaling) ∧
      t.left = r.arr.left ∧ t.right = r.arr.right ∧ t.size = r.arr.size ∧ IsTree r.arr r.tf.length b ∧ IsoHolds r.ns c vals b 0 ∧
      IsTree t d (b.rename fun f => r.tf.getD f 0) := by
  obtain ⟨b, hb⟩ := h.tree
  have hin : ∀ n < r.arr.size, -(r.tf.length : Int) ≤ r.arr.feature n ∧ r.arr.feature n < r.tf.length := by
    intro n hn
    by_cases hl : r.arr.left n < 0
    · rw [(h.leaf n hn hl).2.2]; omega
    · obtain ⟨f, hf, hlt⟩ : ∃ f, r.arr.feature n = ((f : Nat) : Int) ∧ f < r.tf.length := by
        have hmem := (hb.all n).2 hn
        have hv := hb.vars
        have he := hb.enc
        clear hb
        induction b with
        | leaf i =>
          simp only [BTree.ids, List.mem_singleton] at hmem
          subst hmem
          exact absurd he.1 hl
        | node i f thr l r ihl ihr =>
          obtain ⟨-, -, -, e4, -, el, er⟩ := he
          simp only [BTree.ids, List.mem_cons, List.mem_append] at hmem
          simp only [BTree.vars, List.mem_cons, List.mem_append] at hv
          rcases hmem with rfl | hm | hm
          · exact ⟨f, e4, hv f (Or.inl rfl)⟩
          · exact ihl hm (fun g hg => hv g (Or.inr (Or.inl hg))) el
          · exact ihr hm (fun g hg => hv g (Or.inr (Or.inr hg))) er
      omega
  obtain ⟨vals, e1, e2, -⟩ := isoRecalc_spec (ns := r.ns) (c := c) b (r.arr.size + 1) 0 (fun n => r.arr.value n 0) hb.enc hb.nodup
    (fun n hn hl => ⟨(h.leaf n ((hb.all n).1 hn) hl).1, (h.leaf n ((hb.all n).1 hn) hl).2.1⟩)
    (by rw [← ids_length hb]; have := b.height_lt; omega)
  rw [hb.root] at e1
  refine ⟨vals, b, { r.arr with
      dflt := r.arr.left
      value := fun n _ => (isoRecalc r.arr r.ns c (r.arr.size + 1) 0 0 fun n => r.arr.value n 0).2 n * scaling
      feature := fun n => if 0 ≤ r.arr.feature n then (r.tf.getD (r.arr.feature n).toNat 0 : Nat) else r.arr.feature n },
    ?_, ?_, rfl, rfl, rfl, hb, e2, ?_⟩
  · unfold isoTree
    rw [if_pos]
    simp only [List.all_eq_true, List.mem_range, decide_eq_true_eq]
    exact hin
  · intro n k
    show (isoRecalc r.arr r.ns c (r.arr.size + 1) 0 0 fun n => r.arr.value n 0).2 n * scaling = _
    rw [e1]
  · refine ⟨by rw [BTree.rename_id]; exact hb.root, ?_, by rw [BTree.rename_ids]; exact hb.nodup, ?_, ?_⟩
    · refine encodes_rename (t := r.arr) ?_ ?_ ?_ ?_ ?_ b hb.enc
      iterate 4 rfl
      intro n f hf
      show (if 0 ≤ r.arr.feature n then ((r.tf.getD (r.arr.feature n).toNat 0 : Nat) : Int) else r.arr.feature n) = _
      rw [hf, if_pos (by omega)]
      simp
    · intro n
      rw [BTree.rename_ids]
      exact hb.all n
    · intro f hf
      rw [BTree.rename_vars, List.mem_map] at hf
      obtain ⟨g, hg, rfl⟩ := hf
      have := hb.vars g hg
      rw [List.getD_eq_getElem?_getD, List.getElem?_eq_getElem this]
      exact h.columns _ (List.getElem_mem this)

/-- **C66, leaves.** A fitted isolation tree on at least two columns is loaded; the value of a leaf is its number of edges from the root plus the
average path length of its rows, times the scaling. -/
theorem C66_leaf {d : Nat} {r : IsoRaw} (h : IsoFitted d r) (h2 : 2 ≤ r.tf.length) (scaling : ℚ) (c : ℚ → ℚ) :
    ∃ t, isoTree scaling c r.ns r.tf r.arr = .ok t ∧ WellFormed t d ∧
      ∀ ℓ k, Above r.arr k 0 ℓ → r.arr.left ℓ < 0 → ∀ j, t.value ℓ j = (k + c (r.ns ℓ)) * scaling := by
  obtain ⟨vals, b, t, e1, e2, -, -, -, hb, e6, e7⟩ := isoTree_ok h h2 scaling c
  refine ⟨t, e1, ⟨_, e7⟩, ?_⟩
  intro ℓ k ha hl j
  obtain ⟨b', f1, f2, f3⟩ := isoHolds_above ha b 0 hb.root hb.enc e6
  cases b' with
  | leaf i =>
    obtain rfl : i = ℓ := f1
    rw [e2, show vals i = _ from f3, zero_add]
  | node i f thr l r' =>
    obtain rfl : i = ℓ := f1
    have := f2.1
    omega

/-- **C66, inner nodes.** The value of an inner node is the average of the values of its two children, weighted by their numbers of rows. -/
theorem C66_inner {d : Nat} {r : IsoRaw} (h : IsoFitted d r) (h2 : 2 ≤ r.tf.length) (scaling : ℚ) (c : ℚ → ℚ) :
    ∃ t, isoTree scaling c r.ns r.tf r.arr = .ok t ∧ ∀ p a b, p < r.arr.size → r.arr.left p = ((a : Nat) : Int) → r.arr.right p = ((b : Nat) : Int) →
      ∀ j, t.value p j = (r.ns a * t.value a j + r.ns b * t.value b j) / r.ns p := by
  obtain ⟨vals, B, t, e1, e2, -, -, -, hb, e6, e7⟩ := isoTree_ok h h2 scaling c
  refine ⟨t, e1, ?_⟩
  intro p a b hp ha hbb j
  have sumEq : ∀ (B : BTree) (level : ℚ), (∀ n ∈ B.ids, 0 < r.ns n) → IsoHolds r.ns c vals B level → isoSum r.ns c B level = r.ns B.id * vals B.id := by
    intro B level hpos hh
    cases B with
    | leaf i =>
      show (level + c (r.ns i)) * r.ns i = r.ns i * vals i
      rw [show vals i = _ from hh, mul_comm]
    | node i f thr l r' =>
      have := hpos i (by simp [BTree.ids])
      show isoSum r.ns c (.node i f thr l r') level = r.ns i * vals i
      rw [hh.1]
      field_simp
  have key : ∀ (B : BTree) (level : ℚ), (∀ n ∈ B.ids, 0 < r.ns n) → Encodes r.arr B → IsoHolds r.ns c vals B level → p ∈ B.ids →
      vals p = (r.ns a * vals a + r.ns b * vals b) / r.ns p := by
    intro B
    induction B with
    | leaf i =>
      intro _ _ he _ hm
      simp only [BTree.ids, List.mem_singleton] at hm
      subst hm
      have := he.1
      omega
    | node i f thr l r' ihl ihr =>
      intro level hpos he hh hm
      obtain ⟨g1, g2, -, -, -, gl, gr⟩ := he
      have hpl : ∀ n ∈ l.ids, 0 < r.ns n := fun n hn => hpos n (by simp [BTree.ids, hn])
      have hpr : ∀ n ∈ r'.ids, 0 < r.ns n := fun n hn => hpos n (by simp [BTree.ids, hn])
      simp only [BTree.ids, List.mem_cons, List.mem_append] at hm
      rcases hm with rfl | hm | hm
      · obtain rfl : l.id = a := by rw [g1] at ha; exact_mod_cast ha
        obtain rfl : r'.id = b := by rw [g2] at hbb; exact_mod_cast hbb
        rw [hh.1, ← sumEq l _ hpl hh.2.1, ← sumEq r' _ hpr hh.2.2]
        rfl
      · exact ihl _ hpl gl hh.2.1 hm
      · exact ihr _ hpr gr hh.2.2 hm
  have := key B 0 (fun n hn => h.rows n ((hb.all n).1 hn)) hb.enc e6 ((hb.all p).2 hp)
  rw [e2, e2, e2, this]
  ring

/-- **C66, prediction.** For an isolation forest each of whose trees was grown on at least two columns, `predict` is the mean over the trees of the
path length: the number of edges to the leaf in which the tree's columns of `x` end, plus the average path length of that leaf's rows. -/
theorem C66_predict_partial {d : Nat} {raws : List IsoRaw} (h : ∀ r ∈ raws, IsoFitted d r) (h2 : ∀ r ∈ raws, 2 ≤ r.tf.length) (c : ℚ → ℚ)
    (base : Nat → ℚ) (x : Nat → ℚ) (leaf edges : IsoRaw → Nat) (hleaf : ∀ r ∈ raws, EndsIn r.arr (full fun j => x (r.tf.getD j 0)) (leaf r))
    (hedges : ∀ r ∈ raws, Above r.arr (edges r) 0 (leaf r)) :
    ∃ ts, isoForest c raws = .ok ts ∧ (∀ t ∈ ts, WellFormed t d) ∧ ∀ k, ensemblePredict ts none none base (full x) k =
      some (base k + (raws.map fun r => (edges r : ℚ) + c (r.ns (leaf r))).sum / raws.length) := by
  classical
  have hex : ∀ r ∈ raws, ∃ t, isoTree (1 / (raws.length : ℚ)) c r.ns r.tf r.arr = .ok t := fun r hr => by
    obtain ⟨t, ht, -⟩ := C66_leaf (h r hr) (h2 r hr) (1 / (raws.length : ℚ)) c
    exact ⟨t, ht⟩
  let F : IsoRaw → TreeArr := fun r => if hr : r ∈ raws then (hex r hr).choose else r.arr
  have hF : ∀ r ∈ raws, isoTree (1 / (raws.length : ℚ)) c r.ns r.tf r.arr = .ok (F r) := fun r hr => by
    show _ = Except.ok (if hr : r ∈ raws then (hex r hr).choose else r.arr)
    rw [dif_pos hr]
    exact (hex r hr).choose_spec
  have hload : isoForest c raws = .ok (raws.map F) := by
    obtain ⟨l', e1, e2⟩ := mapM_forall (l := raws) (f := fun r => isoTree (1 / (raws.length : ℚ)) c r.ns r.tf r.arr) hex
    unfold isoForest
    rw [e1]
    congr 1
    clear e1
    have : ∀ (l : List IsoRaw) (l' : List TreeArr), (∀ r ∈ l, r ∈ raws) →
        List.Forall₂ (fun a b => isoTree (1 / (raws.length : ℚ)) c a.ns a.tf a.arr = .ok b) l l' → l' = l.map F := by
      intro l l' hl hh
      induction hh with
      | nil => rfl
      | @cons a b l l' hab _ ih =>
        rw [List.map_cons, ← ih fun r hr => hl r (List.mem_cons_of_mem _ hr)]
        congr 1
        have := hab.symm.trans (hF a (hl a (List.mem_cons_self ..)))
        simpa using this
    exact this raws l' (fun _ h => h) e2
  have hends : ∀ r ∈ raws, WellFormed (F r) d ∧ EndsIn (F r) (full x) (leaf r) ∧
      ∀ j, (F r).value (leaf r) j = ((edges r : ℚ) + c (r.ns (leaf r))) / raws.length := by
    intro r hr
    obtain ⟨vals, b, t, e1, e2, e3, e4, e5, hb, e6, e7⟩ := isoTree_ok (h r hr) (h2 r hr) (1 / (raws.length : ℚ)) c
    obtain rfl : t = F r := by
      have := e1.symm.trans (hF r hr)
      simpa using this
    obtain ⟨t', f1, -, f3⟩ := C66_leaf (h r hr) (h2 r hr) (1 / (raws.length : ℚ)) c
    obtain rfl : t' = F r := by
      have := f1.symm.trans (hF r hr)
      simpa using this
    refine ⟨⟨_, e7⟩, ?_, ?_⟩
    · rw [endsIn_iff e7, descendObs_full, BTree.rename_descend, ← descendObs_full (t := r.arr), ← endsIn_iff hb]
      exact hleaf r hr
    · intro j
      rw [f3 (leaf r) (edges r) (hedges r hr) (by
        have := (hleaf r hr).2
        simpa [TreeArr.isLeaf] using this) j]
      ring
  refine ⟨_, hload, ?_, ?_⟩
  · intro t ht
    obtain ⟨r, hr, rfl⟩ := List.mem_map.1 ht
    exact (hends r hr).1
  · intro k
    rw [predict_map (fun r hr => (hends r hr).1) base (full x) k leaf (fun r hr => (hends r hr).2.1)]
    congr 2
    rw [← list_sum_div]
    congr 1
    exact List.map_congr_left fun r hr => (hends r hr).2.2 k

example : (isoForest (fun n => n / 10) [exIso, exIso]).toOption.bind (fun ts => ensemblePredict ts none none (fun _ => 0) (full fun j => if j = 0 then 6 else 0) 0)
    = some (3 / 2) := by decide +kernel

/-- **C66, failure.** A tree grown on a single column never loads: the marker `-2` of its leaves is used as an index into the columns. Isolation
forests on one column, or with `max_features=1`, cannot be explained. -/
theorem C66_one_column_false {d : Nat} {r : IsoRaw} (h : IsoFitted d r) (h1 : r.tf.length = 1) (scaling : ℚ) (c : ℚ → ℚ) :
    isoTree scaling c r.ns r.tf r.arr = .error "IndexError" := by
  obtain ⟨b, hb⟩ := h.tree
  obtain ⟨n, hn, hl⟩ : ∃ n ∈ b.ids, r.arr.left n < 0 := by
    have he := hb.enc
    clear hb
    induction b with
    | leaf i => exact ⟨i, by simp [BTree.ids], he.1⟩
    | node i f thr l r' ihl _ =>
      obtain ⟨n, h1, h2⟩ := ihl he.2.2.2.2.2.1
      exact ⟨n, by simp [BTree.ids, h1], h2⟩
  unfold isoTree
  rw [if_neg]
  simp only [List.all_eq_true, List.mem_range, decide_eq_true_eq]
  intro hh
  have h3 := hh n ((hb.all n).1 hn)
  rw [(h.leaf n ((hb.all n).1 hn) hl).2.2, h1] at h3
  have := h3.1
  norm_num at this

/-- The stump on a single column meets the hypotheses. -/
example : IsoFitted 3 { exIso with arr := { exIso.arr with feature := fun n => if n = 0 then 0 else -2 }, tf := [2] } where
  tree := ⟨.node 0 0 5 (.leaf 1) (.leaf 2), by decide, by simp [Encodes, exIso, BTree.id], by decide, by
    intro n
    show n ∈ [0, 1, 2] ↔ n < 3
    simp only [List.mem_cons, List.not_mem_nil, or_false]
    omega, by decide⟩
  leaf := by
    intro n hn h
    have : n ≠ 0 := by rintro rfl; simp [exIso] at h
    simp [exIso, this]
  columns := by decide
  rows := exIso_fitted.rows

end Acv

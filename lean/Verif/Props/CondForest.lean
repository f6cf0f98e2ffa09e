import Verif.Model.CondForest
import Verif.Props.Rebuild
import Verif.Props.SdpReg

/-! # C89: the first same decision probabilities of a forest -/

namespace Acv

/-- The rectangle of a chain, narrowed from the root on. -/
def rectDown (t : TreeArr) (c : List (Nat × Bool)) : Rect := c.foldr (fun ps R => t.narrow R ps) fun _ => Ival.all

theorem narrow_comm (t : TreeArr) (R : Rect) (a b : Nat × Bool) : t.narrow (t.narrow R a) b = t.narrow (t.narrow R b) a := by
  funext j
  unfold TreeArr.narrow Rect.set
  by_cases h1 : j = (t.feature a.1).toNat <;> by_cases h2 : j = (t.feature b.1).toNat
  · subst h1
    rw [← h2]
    simp only [if_true]
    cases a.2 <;> cases b.2 <;> rcases R (t.feature a.1).toNat with ⟨_ | l, _ | u⟩ <;>
      simp [Ival.above, Ival.below, max_comm, min_comm, max_left_comm, min_left_comm, max_assoc, min_assoc]
  · have h3 : ¬ (t.feature b.1).toNat = (t.feature a.1).toNat := fun h => h2 (h1.trans h.symm)
    simp only [h1, if_neg h2, if_true, if_neg h3, if_neg (Ne.symm h3)]
  · have h3 : ¬ (t.feature a.1).toNat = (t.feature b.1).toNat := fun h => h1 (h2.trans h.symm)
    simp only [h2, if_neg h1, if_true, if_neg h3, if_neg (Ne.symm h3)]
  · simp only [if_neg h1, if_neg h2]

theorem foldl_narrow_cons (t : TreeArr) (a : Nat × Bool) : ∀ (c : List (Nat × Bool)) (R : Rect),
    c.foldl t.narrow (t.narrow R a) = t.narrow (c.foldl t.narrow R) a
  | [], _ => rfl
  | b :: c, R => by
    rw [List.foldl_cons, List.foldl_cons, narrow_comm, foldl_narrow_cons t a c]

theorem rectDown_eq (t : TreeArr) : ∀ c : List (Nat × Bool), rectDown t c = c.foldl t.narrow fun _ => Ival.all
  | [] => rfl
  | a :: c => by
    have := rectDown_eq t c
    rw [List.foldl_cons, foldl_narrow_cons, ← this]
    rfl

theorem leafRect_chain {t : TreeArr} {d b} (h : IsTree t d b) {ℓ : Nat} {c : List (Nat × Bool)} (hc : UpChain t ℓ c) (hl : c.length ≤ t.size) :
    t.leafRect ℓ = rectDown t c := by
  unfold TreeArr.leafRect
  rw [getPartition_chain h hc _ _ _ hl, rectDown_eq]

theorem rectDown_mem (t : TreeArr) (s : Nat) (x : Row) : ∀ c : List (Nat × Bool),
    (rectDown t c s).memOC (x s) = true ↔ ∀ ps ∈ c, (t.feature ps.1).toNat = s → t.linkSat x ps
  | [] => by simp [rectDown, Ival.all, Ival.memOC]
  | a :: c => by
    have ih := rectDown_mem t s x c
    have he : rectDown t (a :: c) = t.narrow (rectDown t c) a := rfl
    rw [he, List.forall_mem_cons, ← ih]
    unfold TreeArr.narrow Rect.set TreeArr.linkSat
    by_cases h : s = (t.feature a.1).toNat
    · subst h
      simp only [if_true, true_implies]
      cases a.2
      · simp only [Bool.false_eq_true, if_false]
        rw [memOC_below]
        exact and_comm
      · simp only [if_true]
        rw [memOC_above]
        exact and_comm
    · simp only [if_neg h]
      exact ⟨fun h1 => ⟨fun h2 => absurd h2.symm h, h1⟩, fun h1 => h1.2⟩

theorem explore_spec {t : TreeArr} (x : Row) (S : List Nat) : ∀ (s : BTree) (c : List (Nat × Bool)), Encodes t s → s.ids.Nodup →
    (∀ n ∈ s.ids, n < t.size) → UpChain t s.id c → ∀ fuel, s.height < fuel →
    ((explorePart t x S fuel s.id (rectDown t c)).map Prod.fst).Sublist s.leaves ∧
    ∀ ℓ ∈ s.leaves, ∃ c', UpChain t ℓ (c' ++ c) ∧ c'.length ≤ s.height ∧ ∀ R, (ℓ, R) ∈ explorePart t x S fuel s.id (rectDown t c) ↔
      R = rectDown t (c' ++ c) ∧ ∀ ps ∈ c', (t.feature ps.1).toNat ∈ S → t.linkSat x ps := by
  intro s
  induction s with
  | leaf i =>
    intro c hb _ _ hc fuel hf
    obtain ⟨k, rfl⟩ : ∃ k, fuel = k + 1 := ⟨fuel - 1, by simp [BTree.height] at hf; omega⟩
    have he : explorePart t x S (k + 1) i (rectDown t c) = [(i, rectDown t c)] := by
      rw [explorePart]; exact if_pos hb.1
    have hid : (BTree.leaf i).id = i := rfl
    rw [hid, he]
    refine ⟨by simp [BTree.leaves], fun ℓ hℓ => ?_⟩
    simp only [BTree.leaves, List.mem_singleton] at hℓ
    subst hℓ
    refine ⟨[], hc, by simp, fun R => ?_⟩
    simp
  | node i f thr l r ihl ihr =>
    intro c hb hnd hsz hc fuel hf
    obtain ⟨k, rfl⟩ : ∃ k, fuel = k + 1 := ⟨fuel - 1, by simp [BTree.height] at hf; omega⟩
    obtain ⟨e1, e2, e3, e4, e5, hel, her⟩ := hb
    simp only [BTree.ids, List.nodup_cons, List.mem_append, not_or, List.nodup_append] at hnd
    simp only [BTree.height] at hf
    have hi : i < t.size := hsz i (by simp [BTree.ids])
    have hcl : UpChain t l.id ((i, false) :: c) := UpChain.step hc hi (by simpa [TreeArr.child] using e1)
    have hcr : UpChain t r.id ((i, true) :: c) := UpChain.step hc hi (by simpa [TreeArr.child] using e2)
    have hL := ihl _ hel hnd.2.1 (fun n hn => hsz n (by simp [BTree.ids, hn])) hcl k (by omega)
    have hR := ihr _ her hnd.2.2.1 (fun n hn => hsz n (by simp [BTree.ids, hn])) hcr k (by omega)
    have htn : (t.feature i).toNat = f := by rw [e4]; simp
    have hnl : ¬ t.left i < 0 := by rw [e1]; exact not_lt.2 (Int.natCast_nonneg _)
    have hrl : rectDown t ((i, false) :: c) = (rectDown t c).set f ((rectDown t c f).below thr) := by
      show t.narrow _ _ = _
      unfold TreeArr.narrow
      simp only [htn, e5, Bool.false_eq_true, if_false]
      rfl
    have hrr : rectDown t ((i, true) :: c) = (rectDown t c).set f ((rectDown t c f).above thr) := by
      show t.narrow _ _ = _
      unfold TreeArr.narrow
      simp only [htn, e5, if_true]
      rfl
    have hsl : t.linkSat x (i, false) ↔ x f ≤ thr := by simp [TreeArr.linkSat, htn, e5]
    have hsr : t.linkSat x (i, true) ↔ ¬ x f ≤ thr := by simp [TreeArr.linkSat, htn, e5]
    have he : explorePart t x S (k + 1) i (rectDown t c) =
        if f ∈ S then
          if x f ≤ thr then explorePart t x S k l.id (rectDown t ((i, false) :: c))
          else explorePart t x S k r.id (rectDown t ((i, true) :: c))
        else explorePart t x S k l.id (rectDown t ((i, false) :: c)) ++ explorePart t x S k r.id (rectDown t ((i, true) :: c)) := by
      rw [explorePart, if_neg hnl]
      simp only [htn, e5, e1, e2, Int.toNat_natCast, hrl, hrr]
    have hid : (BTree.node i f thr l r).id = i := rfl
    rw [hid, he]
    generalize hA : explorePart t x S k l.id (rectDown t ((i, false) :: c)) = A at hL ⊢
    generalize hB : explorePart t x S k r.id (rectDown t ((i, true) :: c)) = B at hR ⊢
    have hAm : ∀ p ∈ A, p.1 ∈ l.leaves := fun p hp => hL.1.subset (List.mem_map_of_mem hp)
    have hBm : ∀ p ∈ B, p.1 ∈ r.leaves := fun p hp => hR.1.subset (List.mem_map_of_mem hp)
    have hdis : ∀ ℓ ∈ l.leaves, ℓ ∉ r.leaves := fun ℓ h1 h2 => hnd.2.2.2 ℓ (l.leaves_sub _ h1) ℓ (r.leaves_sub _ h2) rfl
    refine ⟨?_, fun ℓ hℓ => ?_⟩
    · simp only [BTree.leaves]
      split
      · split
        · exact hL.1.trans (List.sublist_append_left _ _)
        · exact hR.1.trans (List.sublist_append_right _ _)
      · rw [List.map_append]
        exact hL.1.append hR.1
    · simp only [BTree.leaves, List.mem_append] at hℓ
      rcases hℓ with hℓ | hℓ
      · obtain ⟨c', k1, k2, k3⟩ := hL.2 ℓ hℓ
        have hnB : ∀ R, (ℓ, R) ∉ B := fun R h => hdis ℓ hℓ (hBm _ h)
        refine ⟨c' ++ [(i, false)], by simpa using k1, by simp [BTree.height]; omega, fun R => ?_⟩
        have hps : (∀ ps ∈ c' ++ [(i, false)], (t.feature ps.1).toNat ∈ S → t.linkSat x ps) ↔
            (∀ ps ∈ c', (t.feature ps.1).toNat ∈ S → t.linkSat x ps) ∧ (f ∈ S → x f ≤ thr) := by
          rw [List.forall_mem_append, List.forall_mem_singleton, hsl, htn]
        rw [hps, List.append_assoc, List.singleton_append, ← and_assoc, ← k3 R]
        by_cases h1 : f ∈ S
        · by_cases h2 : x f ≤ thr
          · simp [h1, h2]
          · simp [h1, h2, hnB]
        · simp [h1, hnB]
      · obtain ⟨c', k1, k2, k3⟩ := hR.2 ℓ hℓ
        have hnA : ∀ R, (ℓ, R) ∉ A := fun R h => hdis ℓ (hAm _ h) hℓ
        refine ⟨c' ++ [(i, true)], by simpa using k1, by simp [BTree.height]; omega, fun R => ?_⟩
        have hps : (∀ ps ∈ c' ++ [(i, true)], (t.feature ps.1).toNat ∈ S → t.linkSat x ps) ↔
            (∀ ps ∈ c', (t.feature ps.1).toNat ∈ S → t.linkSat x ps) ∧ (f ∈ S → ¬ x f ≤ thr) := by
          rw [List.forall_mem_append, List.forall_mem_singleton, hsr, htn]
        rw [hps, List.append_assoc, List.singleton_append, ← and_assoc, ← k3 R]
        by_cases h1 : f ∈ S
        · by_cases h2 : x f ≤ thr
          · simp [h1, h2, hnA]
          · simp [h1, h2]
        · simp [h1, hnA]

/-- `x` passes on the columns of `S` all tests on the way to a leaf, in terms of the rectangle of the leaf. -/
def InOpen (r : Rect) (S : List Nat) (x : Row) : Prop :=
  ∀ s ∈ S, (∀ l, (r s).lo = some l → l < x s) ∧ ∀ h, (r s).hi = some h → x s ≤ h

theorem sat_open {r : Rect} {S : List Nat} {x : Row} : sat r S x = true ↔ InOpen r S x := sat_iff

theorem leaves_sublist : ∀ b : BTree, b.leaves.Sublist b.ids
  | .leaf i => by simp [BTree.leaves, BTree.ids]
  | .node i f thr l r => by
    simp only [BTree.leaves, BTree.ids]
    exact ((leaves_sublist l).append (leaves_sublist r)).trans (List.sublist_cons_self _ _)

/-- **C89, the compatible leaves.** The exploration returns each leaf at most once, exactly those whose rectangle contains the observation on the
columns of `S`, with their rectangle. -/
theorem C89_compatible {t : TreeArr} {d : Nat} (h : WellFormed t d) (x : Row) (S : List Nat) :
    ((compatLeaves t x S).map Prod.fst).Nodup ∧
    ∀ ℓ R, (ℓ, R) ∈ compatLeaves t x S ↔ ℓ ∈ t.leafIdx ∧ R = t.leafRect ℓ ∧ InOpen (t.leafRect ℓ) S x := by
  obtain ⟨b, hb⟩ := h
  have hr : UpChain t b.id [] := by rw [hb.root]; exact UpChain.root
  have hs := explore_spec x S b [] hb.enc hb.nodup (fun n hn => (hb.all n).1 hn) hr t.size (by rw [← ids_length hb]; exact b.height_lt)
  rw [hb.root] at hs
  have he : explorePart t x S t.size 0 (rectDown t []) = compatLeaves t x S := rfl
  rw [he] at hs
  refine ⟨(hs.1.trans (leaves_sublist b)).nodup hb.nodup, fun ℓ R => ?_⟩
  constructor
  · intro hm
    have hℓ : ℓ ∈ b.leaves := hs.1.subset (List.mem_map_of_mem (f := Prod.fst) hm)
    obtain ⟨c', k1, k2, k3⟩ := hs.2 ℓ hℓ
    rw [List.append_nil] at k1 k3
    have hR := leafRect_chain hb k1 (k2.trans (by rw [← ids_length hb]; exact b.height_lt.le))
    obtain ⟨h1, h2⟩ := (k3 R).1 hm
    refine ⟨(leafIdx_iff hb ℓ).2 hℓ, h1.trans hR.symm, ?_⟩
    rw [← sat_open, hR]
    unfold sat
    rw [List.all_eq_true]
    exact fun s hs => (rectDown_mem t s x c').2 fun ps hps he => h2 ps hps (he ▸ hs)
  · rintro ⟨hℓ, rfl, hin⟩
    obtain ⟨c', k1, k2, k3⟩ := hs.2 ℓ ((leafIdx_iff hb ℓ).1 hℓ)
    rw [List.append_nil] at k1 k3
    have hR := leafRect_chain hb k1 (k2.trans (by rw [← ids_length hb]; exact b.height_lt.le))
    refine (k3 _).2 ⟨hR, fun ps hps hS => ?_⟩
    rw [← sat_open, hR] at hin
    unfold sat at hin
    rw [List.all_eq_true] at hin
    exact (rectDown_mem t _ x c').1 (hin _ hS) ps hps rfl

/-- The observation itself is in the rectangle of its leaf. -/
theorem inOpen_leafAt {t : TreeArr} {m : Nat} (h : WellFormed t m) (w : Row) {S : List Nat} (hS : ∀ s ∈ S, s < m) :
    InOpen (t.leafRect (leafAt t w)) S w := by
  have := (inBox_leaf_iff h w (leafAt_mem h w)).2 rfl
  exact fun s hs => this s (hS s hs)

/-- A row that lies in the boxes of all compatible leaves ends in a compatible leaf. -/
theorem leaf_compat {t : TreeArr} {m : Nat} (h : WellFormed t m) {x z : Row} {S : List Nat} (hS : ∀ s ∈ S, s < m)
    (hz : ∀ ℓ ∈ t.leafIdx, InOpen (t.leafRect ℓ) S x → InOpen (t.leafRect ℓ) S z) : InOpen (t.leafRect (leafAt t z)) S x := by
  classical
  have hw : ∀ w : Row, (∀ s ∈ S, w s = x s) → (∀ s, s ∉ S → w s = z s) → leafAt t z = leafAt t w := by
    intro w h1 h2
    refine (inBox_leaf_iff h z (leafAt_mem h w)).1 fun j hj => ?_
    have hbw := (inBox_leaf_iff h w (leafAt_mem h w)).2 rfl
    by_cases hjS : j ∈ S
    · refine hz _ (leafAt_mem h w) (fun s hs => ?_) j hjS
      have := inOpen_leafAt h w hS s hs
      rwa [h1 s hs] at this
    · have := hbw j hj
      rwa [h2 j hjS] at this
  have he := hw (fun j => if j ∈ S then x j else z j) (fun s hs => if_pos hs) (fun s hs => if_neg hs)
  rw [he]
  intro s hs
  have := inOpen_leafAt h (fun j => if j ∈ S then x j else z j) hS s hs
  simpa [hs] using this

theorem inBox_split {m : Nat} {S : List Nat} (hS : ∀ s ∈ S, s < m) (r : Rect) (z : Row) :
    InBox m r z ↔ InOpen r S z ∧ InOpen r (colsBar m S) z := by
  constructor
  · intro h
    refine ⟨fun s hs => h s (hS s hs), fun s hs => h s ?_⟩
    exact List.mem_range.1 (List.mem_filter.1 hs).1
  · rintro ⟨h1, h2⟩ s hs
    by_cases hsS : s ∈ S
    · exact h1 s hsS
    · exact h2 s (List.mem_filter.2 ⟨List.mem_range.2 hs, decide_eq_true hsS⟩)

theorem sum_count_eq {α : Type} (Z : List Row) (f : Row → Nat) (val : Nat → ℚ) : ∀ (C : List α) (g : α → Nat), (C.map g).Nodup →
    (∀ z ∈ Z, f z ∈ C.map g) →
    (C.map fun a => ((Z.filter fun z => decide (f z = g a)).length : ℚ) * val (g a)).sum = (Z.map fun z => val (f z)).sum := by
  intro C g hnd hZ
  induction Z with
  | nil => simp
  | cons z Z ih =>
    replace ih := ih fun w hw => hZ w (List.mem_cons_of_mem _ hw)
    rw [List.map_cons, List.sum_cons, ← ih]
    have hz := hZ z (List.mem_cons_self ..)
    clear ih hZ
    induction C with
    | nil => simp at hz
    | cons a C ihC =>
      rw [List.map_cons, List.nodup_cons] at hnd
      rw [List.map_cons, List.sum_cons, List.map_cons, List.sum_cons, List.filter_cons]
      by_cases hza : f z = g a
      · have hC : (C.map fun a => (((z :: Z).filter fun z => decide (f z = g a)).length : ℚ) * val (g a)) =
            C.map fun a => ((Z.filter fun z => decide (f z = g a)).length : ℚ) * val (g a) := by
          refine List.map_congr_left fun b hb => ?_
          have : ¬ f z = g b := fun h => hnd.1 (by rw [← hza, h]; exact List.mem_map_of_mem hb)
          rw [List.filter_cons_of_neg (by simpa using this)]
        rw [hC, if_pos (by simpa using hza), hza]
        push_cast [List.length_cons]
        ring
      · have hz' : f z ∈ C.map g := by
          rw [List.map_cons, List.mem_cons] at hz
          exact hz.resolve_left hza
        rw [if_neg (by simpa using hza), ihC hnd.2 hz']
        ring

open Classical in
/-- The rows of a name that lie, on the columns of `S`, in the rectangle of the leaf of `x`. -/
noncomputable def boxRows (t : TreeArr) (S : List Nat) (x : Row) (data : List Row) (keep : Row → Bool) : List Row :=
  data.filter fun z => decide (InOpen (t.leafRect (leafAt t x)) S z) && keep z

/-- **C89, the means.** When the compatible leaves have the same rows of the data in their boxes on `S`, and no row lies on a split, the three
means are those of the values of the tree over the rows in the box of `x` (0 if there is none). -/
theorem C89_tree_mean {t : TreeArr} {m : Nat} (h : WellFormed t m) {S : List Nat} (hS : S ≠ []) (hm : ∀ s ∈ S, s < m) {data : List Row}
    (hoff : ∀ z ∈ data, OffSplits t z) {x : Row}
    (hsame : ∀ ℓ ∈ t.leafIdx, InOpen (t.leafRect ℓ) S x → ∀ z ∈ data, InOpen (t.leafRect ℓ) S z ↔ InOpen (t.leafRect (leafAt t x)) S z)
    (val : Nat → ℚ) (up : Row → Bool) (nm : PartName) :
    treeMean t val m S data up x nm = ((boxRows t S x data (nm.keep up)).map fun z => val (leafAt t z)).sum /
      (boxRows t S x data (nm.keep up)).length := by
  classical
  obtain ⟨hnd, hmem⟩ := C89_compatible h x S
  have hcc : ∀ ℓ ∈ t.leafIdx, ∀ z ∈ data, ∀ T, satCC (t.leafRect ℓ) T z = decide (InOpen (t.leafRect ℓ) T z) := by
    intro ℓ hℓ z hz T
    rw [satCC_eq (offSplits_lo h (hoff z hz) hℓ), Bool.eq_iff_iff, sat_open, decide_eq_true_eq]
  generalize hZ : boxRows t S x data (nm.keep up) = Z
  have hs : ∀ p ∈ compatLeaves t x S, (sOf S data up nm p.2 : ℚ) = Z.length := by
    rintro ⟨ℓ, R⟩ hp
    obtain ⟨h1, rfl, h3⟩ := (hmem ℓ R).1 hp
    have hf : ∀ keep : Row → Bool, (data.filter fun z => satCC (t.leafRect ℓ) S z && keep z) = boxRows t S x data keep := by
      intro keep
      unfold boxRows
      refine List.filter_congr fun z hz => ?_
      rw [hcc ℓ h1 z hz, decide_eq_decide.2 (hsame ℓ h1 h3 z hz)]
    rw [← hZ]
    cases nm with
    | all =>
      unfold sOf sAllCount
      simp only []
      rw [if_neg hS, ← hf]
      unfold cntCC
      simp [PartName.keep]
    | up => unfold sOf sCount; simp only []; rw [hf]
    | down => unfold sOf sCount; simp only []; rw [hf]
  have hpc : ∀ p ∈ compatLeaves t x S, (partCount m S data (nm.keep up) p.2 : ℚ) = (Z.filter fun z => decide (leafAt t z = p.1)).length := by
    rintro ⟨ℓ, R⟩ hp
    obtain ⟨h1, rfl, h3⟩ := (hmem ℓ R).1 hp
    rw [← hZ]
    unfold partCount boxRows
    rw [List.filter_filter]
    congr 2
    refine List.filter_congr fun z hz => ?_
    rw [hcc ℓ h1 z hz, hcc ℓ h1 z hz, Bool.eq_iff_iff]
    simp only [Bool.and_eq_true, decide_eq_true_eq]
    rw [← inBox_leaf_iff h z h1, inBox_split hm, ← hsame ℓ h1 h3 z hz]
    tauto
  have hin : ∀ z ∈ Z, leafAt t z ∈ (compatLeaves t x S).map Prod.fst := by
    intro z hz
    rw [← hZ] at hz
    unfold boxRows at hz
    rw [List.mem_filter, Bool.and_eq_true, decide_eq_true_eq] at hz
    refine List.mem_map.2 ⟨(leafAt t z, t.leafRect (leafAt t z)), (hmem _ _).2 ⟨leafAt_mem h z, rfl, ?_⟩, rfl⟩
    exact leaf_compat h hm fun ℓ hℓ hx => (hsame ℓ hℓ hx z hz.1).2 hz.2.1
  rw [← sum_count_eq Z (leafAt t) val (compatLeaves t x S) Prod.fst hnd hin]
  unfold treeMean probOf
  rw [div_eq_mul_inv, ← List.sum_map_mul_right]
  congr 1
  refine List.map_congr_left fun p hp => ?_
  rw [hs p hp, hpc p hp, guardDiv_eq]
  ring

theorem boxRows_split (t : TreeArr) (S : List Nat) (x : Row) (up : Row → Bool) (g : Row → ℚ) (data : List Row) :
    ((boxRows t S x data (PartName.all.keep up)).map g).sum =
      ((boxRows t S x data (PartName.up.keep up)).map g).sum + ((boxRows t S x data (PartName.down.keep up)).map g).sum := by
  classical
  unfold boxRows PartName.keep
  induction data with
  | nil => simp
  | cons z data ih =>
    rw [List.filter_cons, List.filter_cons, List.filter_cons]
    by_cases h1 : InOpen (t.leafRect (leafAt t x)) S z <;> by_cases h2 : up z = true <;>
      simp only [h1, h2, decide_true, decide_false, Bool.and_true, Bool.true_and, Bool.false_and, Bool.not_true, Bool.false_eq_true, if_true,
        if_false, Bool.not_eq_true, Bool.not_false, List.map_cons, List.sum_cons] at ih ⊢ <;> simp_all <;> ring

/-- The algebra of the quotient. -/
theorem quotient_is_share {U V u v q : ℚ} (hu : 0 ≤ u) (hv : 0 ≤ v) (hU : u = 0 → U = 0) (hV : v = 0 → V = 0)
    (h : npDiv ((U + V) / (u + v) - V / v) (U / u - V / v) = some q) : q = u / (u + v) := by
  unfold npDiv at h
  split at h
  · exact absurd h (by simp)
  · rename_i hne
    rw [Option.some.injEq] at h
    rw [← h]
    rcases hu.eq_or_lt with h0 | hu
    · have hU := hU h0.symm
      subst hU
      rw [← h0]
      simp
    · rcases hv.eq_or_lt with h0 | hv
      · have hV := hV h0.symm
        subst hV
        rw [← h0] at hne ⊢
        simp only [add_zero, div_zero, sub_zero] at hne ⊢
        rw [div_self hne, div_self hu.ne']
      · have h3 : u + v ≠ 0 := (add_pos hu hv).ne'
        have h4 : U * v - u * V ≠ 0 := by
          intro h5
          apply hne
          rw [div_sub_div _ _ hu.ne' hv.ne', h5, zero_div]
        rw [div_sub_div _ _ hu.ne' hv.ne', div_sub_div _ _ h3 hv.ne']
        have h6 : (U + V) * v - (u + v) * V = U * v - u * V := by ring
        rw [h6]
        field_simp

theorem boxRows_card (t : TreeArr) (S : List Nat) (x : Row) (up : Row → Bool) (data : List Row) :
    ((boxRows t S x data (PartName.all.keep up)).length : ℚ) =
      (boxRows t S x data (PartName.up.keep up)).length + (boxRows t S x data (PartName.down.keep up)).length := by
  have h := boxRows_split t S x up (fun _ => 1) data
  simpa using h

theorem clamp01_of_mem {q : ℚ} (h0 : 0 ≤ q) (h1 : q ≤ 1) : clamp01 q = q := by
  unfold clamp01
  rw [if_pos h0, if_pos h1, if_neg (not_lt.2 h1)]
  ring

theorem share_mem {u v : ℚ} (hu : 0 ≤ u) (hv : 0 ≤ v) : 0 ≤ u / (u + v) ∧ u / (u + v) ≤ 1 := by
  refine ⟨div_nonneg hu (add_nonneg hu hv), div_le_one_of_le₀ (by linarith) (add_nonneg hu hv)⟩

/-- **C89, one tree.** Under the same conditions, the same decision probability of a tree, when it is a number, is the share of the rows with the
decision of `x` among those in the box of `x`. -/
theorem C89_tree_frequency_partial {t : TreeArr} {m : Nat} (h : WellFormed t m) {S : List Nat} (hS : S ≠ []) (hm : ∀ s ∈ S, s < m) {data : List Row}
    (hoff : ∀ z ∈ data, OffSplits t z) {x : Row}
    (hsame : ∀ ℓ ∈ t.leafIdx, InOpen (t.leafRect ℓ) S x → ∀ z ∈ data, InOpen (t.leafRect ℓ) S z ↔ InOpen (t.leafRect (leafAt t x)) S z)
    (val : Nat → ℚ) (up : Row → Bool) {q : ℚ} (hq : treeSdp t val m S data up x = some q) :
    q = ((boxRows t S x data up).length : ℚ) / (boxRows t S x data fun _ => true).length := by
  have hA := C89_tree_mean h hS hm hoff hsame val up .all
  have hU := C89_tree_mean h hS hm hoff hsame val up .up
  have hD := C89_tree_mean h hS hm hoff hsame val up .down
  unfold treeSdp clampNan at hq
  rw [hA, hU, hD, boxRows_split, boxRows_card] at hq
  rw [Option.map_eq_some_iff] at hq
  obtain ⟨q', h1, rfl⟩ := hq
  have h2 := quotient_is_share (by positivity) (by positivity) (fun h0 => by
    have : boxRows t S x data (PartName.up.keep up) = [] := List.length_eq_zero_iff.1 (by exact_mod_cast h0)
    simp [this]) (fun h0 => by
    have : boxRows t S x data (PartName.down.keep up) = [] := List.length_eq_zero_iff.1 (by exact_mod_cast h0)
    simp [this]) h1
  rw [← boxRows_card] at h2
  have h3 := share_mem (u := ((boxRows t S x data (PartName.up.keep up)).length : ℚ))
    (v := ((boxRows t S x data (PartName.down.keep up)).length : ℚ)) (by positivity) (by positivity)
  rw [← boxRows_card, ← h2] at h3
  rw [clamp01_of_mem h3.1 h3.2, h2]
  rfl

theorem mapM_option {α : Type} (f : α → Option ℚ) : ∀ {l : List α} {r : List ℚ}, l.mapM f = some r → List.Forall₂ (fun a q => f a = some q) l r
  | [], r, h => by
    rw [List.mapM_nil] at h
    injection h with h
    subst h
    exact List.Forall₂.nil
  | a :: l, r, h => by
    rw [List.mapM_cons] at h
    rcases ha : f a with _ | q
    · rw [ha] at h; exact absurd h (by simp)
    · rcases hl : l.mapM f with _ | r'
      · rw [ha, hl] at h; exact absurd h (by simp)
      · rw [ha, hl] at h
        injection h with h
        subst h
        exact List.Forall₂.cons ha (mapM_option f hl)

/-- **C89, the forest of classifiers.** The result, when it is a number, is the average over the trees of the share of the rows in the box of
`x` to which the tree gives the class of `x`. Without columns it is 0, with all of them 1. -/
theorem C89_clf_frequency_partial {ts : List (TreeArr × (Nat → ℚ) × (Row → Bool))} {m : Nat} {S : List Nat} {data : List Row} {x : Row}
    (hts : ∀ t ∈ ts, WellFormed t.1 m) (hm : ∀ s ∈ S, s < m) (hoff : ∀ t ∈ ts, ∀ z ∈ data, OffSplits t.1 z)
    (hsame : ∀ t ∈ ts, ∀ ℓ ∈ t.1.leafIdx, InOpen (t.1.leafRect ℓ) S x →
      ∀ z ∈ data, InOpen (t.1.leafRect ℓ) S z ↔ InOpen (t.1.leafRect (leafAt t.1 x)) S z) {q : ℚ}
    (hq : condSdpClf ts m S data x = some q) :
    (S.length = m → q = 1) ∧ (S.length ≠ m → S = [] → q = 0) ∧
    (S.length ≠ m → S ≠ [] →
      q = (ts.map fun t => ((boxRows t.1 S x data t.2.2).length : ℚ) / (boxRows t.1 S x data fun _ => true).length).sum / ts.length) := by
  unfold condSdpClf at hq
  refine ⟨fun h => ?_, fun h1 h2 => ?_, fun h1 h2 => ?_⟩
  · rw [if_pos h] at hq; injection hq with hq; exact hq.symm
  · rw [if_neg h1, if_pos h2] at hq; injection hq with hq; exact hq.symm
  · rw [if_neg h1, if_neg h2] at hq
    rcases hM : ts.mapM (fun t => treeSdp t.1 t.2.1 m S data t.2.2 x) with _ | l
    · rw [hM] at hq; exact absurd hq (by simp)
    · rw [hM] at hq
      have hl := mapM_option _ hM
      have hsum : l = ts.map fun t => ((boxRows t.1 S x data t.2.2).length : ℚ) / (boxRows t.1 S x data fun _ => true).length := by
        clear hM hq
        induction hl with
        | nil => rfl
        | cons ha _ ih =>
          rw [List.map_cons, ← ih (fun t ht => hts t (List.mem_cons_of_mem _ ht)) (fun t ht => hoff t (List.mem_cons_of_mem _ ht))
            (fun t ht => hsame t (List.mem_cons_of_mem _ ht))]
          rw [C89_tree_frequency_partial (hts _ (List.mem_cons_self ..)) h2 hm (hoff _ (List.mem_cons_self ..)) (hsame _ (List.mem_cons_self ..)) _ _ ha]
      simp only [npDiv] at hq
      split at hq
      · exact absurd hq (by simp)
      · injection hq with hq
        rw [← hq, hsum]

theorem clampNan_mem {a b q : ℚ} (h : clampNan a b = some q) : 0 ≤ q ∧ q ≤ 1 := by
  unfold clampNan at h
  rw [Option.map_eq_some_iff] at h
  obtain ⟨s, _, rfl⟩ := h
  unfold clamp01
  by_cases h0 : 0 ≤ s
  · by_cases h1 : s ≤ 1
    · rw [if_pos h0, if_pos h1, if_neg (not_lt.2 h1)]
      constructor <;> linarith
    · rw [if_neg h1, if_pos (not_le.1 h1)]
      constructor <;> simp
  · rw [if_neg h0, if_neg (show ¬ (1 : ℚ) < s by intro h; linarith)]
    constructor <;> simp

/-- **C89, range.** Both functions return a number between 0 and 1 or NaN, for all trees, values, data and sets of columns. -/
theorem C89_range (ts : List (TreeArr × (Nat → ℚ) × (Row → Bool))) (fx : ℚ) (m : Nat) (S : List Nat) (data : List Row) (x : Row) :
    (∀ q, condSdpClf ts m S data x = some q → 0 ≤ q ∧ q ≤ 1) ∧ ∀ q, condSdp ts fx m S data x = some q → 0 ≤ q ∧ q ≤ 1 := by
  refine ⟨fun q hq => ?_, fun q hq => clampNan_mem hq⟩
  unfold condSdpClf at hq
  split at hq
  · injection hq with hq; subst hq; constructor <;> norm_num
  · split at hq
    · injection hq with hq; subst hq; constructor <;> norm_num
    · rcases hM : ts.mapM (fun t => treeSdp t.1 t.2.1 m S data t.2.2 x) with _ | l
      · rw [hM] at hq; exact absurd hq (by simp)
      · rw [hM] at hq
        have hl := mapM_option _ hM
        simp only [npDiv] at hq
        split at hq
        · exact absurd hq (by simp)
        · rename_i hne
          injection hq with hq
          rw [← hq]
          have hb : 0 ≤ l.sum ∧ l.sum ≤ ts.length := by
            clear hM hq hne
            induction hl with
            | nil => simp
            | cons ha _ ih =>
              have := clampNan_mem ha
              rw [List.sum_cons, List.length_cons]
              push_cast
              constructor <;> linarith [this.1, this.2, ih.1, ih.2]
          have hpos : (0 : ℚ) < ts.length := lt_of_le_of_ne (by positivity) (Ne.symm hne)
          exact ⟨div_nonneg hb.1 hpos.le, (div_le_iff₀ hpos).2 (by linarith [hb.2])⟩

/-- **C89, one regression tree.** For a set of columns that is not empty, the same conditions make the result the share of the rows whose
output is close to `fx` (those not marked `up`) among those in the box of `x`. -/
theorem C89_reg_frequency_partial {t : TreeArr} {m : Nat} (h : WellFormed t m) {S : List Nat} (hS : S ≠ []) (hm : ∀ s ∈ S, s < m) {data : List Row}
    (hoff : ∀ z ∈ data, OffSplits t z) {x : Row}
    (hsame : ∀ ℓ ∈ t.leafIdx, InOpen (t.leafRect ℓ) S x → ∀ z ∈ data, InOpen (t.leafRect ℓ) S z ↔ InOpen (t.leafRect (leafAt t x)) S z)
    (val : Nat → ℚ) (up : Row → Bool) (fx : ℚ) {q : ℚ} (hq : condSdp [(t, val, up)] fx m S data x = some q) :
    q = ((boxRows t S x data fun z => !up z).length : ℚ) / (boxRows t S x data fun _ => true).length := by
  have hM : ∀ nm, forestMean [(t, val, up)] fx m S data x nm = treeMean t (fun ℓ => val ℓ ^ 2 - 2 * fx * val ℓ) m S data up x nm := by
    intro nm
    unfold forestMean diagTerm treeMean
    simp only [List.zipIdx_cons, List.zipIdx_nil, List.map_cons, List.map_nil, List.sum_cons, List.sum_nil, if_true, List.length_singleton,
      Nat.cast_one, one_pow, div_one, add_zero, zero_add]
    induction compatLeaves t x S with
    | nil => simp
    | cons p l ih =>
      rw [List.map_cons, List.map_cons, List.map_cons, List.sum_cons, List.sum_cons, List.sum_cons, ← ih]
      ring
  unfold condSdp clampNan at hq
  rw [hM, hM, hM, C89_tree_mean h hS hm hoff hsame, C89_tree_mean h hS hm hoff hsame, C89_tree_mean h hS hm hoff hsame, boxRows_split,
    boxRows_card, Option.map_eq_some_iff] at hq
  obtain ⟨q', h1, rfl⟩ := hq
  have hflip : ∀ a b c : ℚ, npDiv (a - b) (a - c) = npDiv (b - a) (c - a) := by
    intro a b c
    unfold npDiv
    by_cases h0 : a - c = 0
    · rw [if_pos h0, if_pos (by linarith)]
    · rw [if_neg h0, if_neg (fun h => h0 (by linarith)), ← neg_sub b a, ← neg_sub c a, neg_div_neg_eq]
  rw [hflip, add_comm (List.sum _), add_comm (((boxRows t S x data (PartName.up.keep up)).length : ℚ))] at h1
  have h2 := quotient_is_share (by positivity) (by positivity) (fun h0 => by
    have : boxRows t S x data (PartName.down.keep up) = [] := List.length_eq_zero_iff.1 (by exact_mod_cast h0)
    simp [this]) (fun h0 => by
    have : boxRows t S x data (PartName.up.keep up) = [] := List.length_eq_zero_iff.1 (by exact_mod_cast h0)
    simp [this]) h1
  have h3 := share_mem (u := ((boxRows t S x data (PartName.down.keep up)).length : ℚ))
    (v := ((boxRows t S x data (PartName.up.keep up)).length : ℚ)) (by positivity) (by positivity)
  rw [← h2] at h3
  rw [clamp01_of_mem h3.1 h3.2, h2, add_comm, ← boxRows_card]
  rfl

/-! ## Several regression trees -/

theorem sum_fiber {α : Type} (Z : List Row) (f : Row → Nat) (g : Row → ℚ) (val : Nat → ℚ) : ∀ (C : List α) (k : α → Nat), (C.map k).Nodup →
    (∀ z ∈ Z, f z ∈ C.map k) →
    (C.map fun a => ((Z.filter fun z => decide (f z = k a)).map g).sum * val (k a)).sum = (Z.map fun z => g z * val (f z)).sum := by
  intro C k hnd hZ
  induction Z with
  | nil => simp
  | cons z Z ih =>
    replace ih := ih fun w hw => hZ w (List.mem_cons_of_mem _ hw)
    rw [List.map_cons, List.sum_cons, ← ih]
    have hz := hZ z (List.mem_cons_self ..)
    clear ih hZ
    induction C with
    | nil => simp at hz
    | cons a C ihC =>
      rw [List.map_cons, List.nodup_cons] at hnd
      rw [List.map_cons, List.sum_cons, List.map_cons, List.sum_cons, List.filter_cons]
      by_cases hza : f z = k a
      · have hC : (C.map fun a => (((z :: Z).filter fun z => decide (f z = k a)).map g).sum * val (k a)) =
            C.map fun a => ((Z.filter fun z => decide (f z = k a)).map g).sum * val (k a) := by
          refine List.map_congr_left fun b hb => ?_
          have : ¬ f z = k b := fun h => hnd.1 (by rw [← hza, h]; exact List.mem_map_of_mem hb)
          rw [List.filter_cons_of_neg (by simpa using this)]
        rw [hC, if_pos (by simpa using hza), hza, List.map_cons, List.sum_cons]
        ring
      · have hz' : f z ∈ C.map k := by
          rw [List.map_cons, List.mem_cons] at hz
          exact hz.resolve_left hza
        rw [if_neg (by simpa using hza), ihC hnd.2 hz']
        ring

/-- The rows of the data in a common box `B`, of a name. -/
def rowsIn (B : Row → Bool) (data : List Row) (keep : Row → Bool) : List Row := data.filter fun z => B z && keep z

/-- All leaves of a tree that are compatible with `x` have, on the columns of `S`, the rows `B` of the data in their boxes. -/
def CommonBox (t : TreeArr) (S : List Nat) (x : Row) (data : List Row) (B : Row → Bool) : Prop :=
  ∀ ℓ ∈ t.leafIdx, InOpen (t.leafRect ℓ) S x → ∀ z ∈ data, InOpen (t.leafRect ℓ) S z ↔ B z = true

theorem boxRows_common {t : TreeArr} {m : Nat} (h : WellFormed t m) {S : List Nat} (hm : ∀ s ∈ S, s < m) {data : List Row} {x : Row}
    {B : Row → Bool} (hB : CommonBox t S x data B) (keep : Row → Bool) : boxRows t S x data keep = rowsIn B data keep := by
  classical
  unfold boxRows rowsIn
  refine List.filter_congr fun z hz => ?_
  congr 1
  rw [Bool.eq_iff_iff, decide_eq_true_eq]
  exact hB _ (leafAt_mem h x) (inOpen_leafAt h x hm) z hz

theorem treeMean_common {t : TreeArr} {m : Nat} (h : WellFormed t m) {S : List Nat} (hS : S ≠ []) (hm : ∀ s ∈ S, s < m) {data : List Row}
    (hoff : ∀ z ∈ data, OffSplits t z) {x : Row} {B : Row → Bool} (hB : CommonBox t S x data B)
    (val : Nat → ℚ) (up : Row → Bool) (nm : PartName) :
    treeMean t val m S data up x nm = ((rowsIn B data (nm.keep up)).map fun z => val (leafAt t z)).sum / (rowsIn B data (nm.keep up)).length := by
  rw [← boxRows_common h hm hB]
  refine C89_tree_mean h hS hm hoff (fun ℓ hℓ hx z hz => ?_) val up nm
  rw [hB ℓ hℓ hx z hz, hB _ (leafAt_mem h x) (inOpen_leafAt h x hm) z hz]

/-- The terms of two trees are the mean of the product of their values. -/
theorem crossTerm_common {t t' : TreeArr} {m : Nat} (h : WellFormed t m) (h' : WellFormed t' m) {S : List Nat} (hS : S ≠ [])
    (hm : ∀ s ∈ S, s < m) {data : List Row} (hoff : ∀ z ∈ data, OffSplits t z) (hoff' : ∀ z ∈ data, OffSplits t' z) {x : Row} {B : Row → Bool}
    (hB : CommonBox t S x data B) (hB' : CommonBox t' S x data B) (val val' : Nat → ℚ) (up : Row → Bool) (n : ℚ) (nm : PartName) :
    crossTerm (t, val, up) (t', val', up) n m S data x nm =
      ((rowsIn B data (nm.keep up)).map fun z => val (leafAt t z) * val' (leafAt t' z)).sum / (rowsIn B data (nm.keep up)).length / n ^ 2 := by
  classical
  obtain ⟨hnd, hmem⟩ := C89_compatible h x S
  obtain ⟨hnd', hmem'⟩ := C89_compatible h' x S
  have hcc : ∀ ℓ ∈ t.leafIdx, ∀ z ∈ data, ∀ T, satCC (t.leafRect ℓ) T z = decide (InOpen (t.leafRect ℓ) T z) := by
    intro ℓ hℓ z hz T
    rw [satCC_eq (offSplits_lo h (hoff z hz) hℓ), Bool.eq_iff_iff, sat_open, decide_eq_true_eq]
  have hcc' : ∀ ℓ ∈ t'.leafIdx, ∀ z ∈ data, ∀ T, satCC (t'.leafRect ℓ) T z = decide (InOpen (t'.leafRect ℓ) T z) := by
    intro ℓ hℓ z hz T
    rw [satCC_eq (offSplits_lo h' (hoff' z hz) hℓ), Bool.eq_iff_iff, sat_open, decide_eq_true_eq]
  have hbS : ∀ p ∈ compatLeaves t x S, ∀ z ∈ data, satCC p.2 S z = B z := by
    rintro ⟨ℓ, R⟩ hp z hz
    obtain ⟨h1, rfl, h3⟩ := (hmem ℓ R).1 hp
    rw [hcc ℓ h1 z hz, Bool.eq_iff_iff, decide_eq_true_eq, hB ℓ h1 h3 z hz]
  have hbS' : ∀ q ∈ compatLeaves t' x S, ∀ z ∈ data, satCC q.2 S z = B z := by
    rintro ⟨ℓ, R⟩ hp z hz
    obtain ⟨h1, rfl, h3⟩ := (hmem' ℓ R).1 hp
    rw [hcc' ℓ h1 z hz, Bool.eq_iff_iff, decide_eq_true_eq, hB' ℓ h1 h3 z hz]
  have hlf : ∀ p ∈ compatLeaves t x S, ∀ z ∈ data, (satCC p.2 S z && satCC p.2 (colsBar m S) z) = decide (leafAt t z = p.1) := by
    rintro ⟨ℓ, R⟩ hp z hz
    obtain ⟨h1, rfl, h3⟩ := (hmem ℓ R).1 hp
    rw [hcc ℓ h1 z hz, hcc ℓ h1 z hz, Bool.eq_iff_iff, Bool.and_eq_true, decide_eq_true_eq, decide_eq_true_eq, decide_eq_true_eq,
      ← inBox_leaf_iff h z h1, inBox_split hm]
  have hlf' : ∀ q ∈ compatLeaves t' x S, ∀ z ∈ data, (satCC q.2 S z && satCC q.2 (colsBar m S) z) = decide (leafAt t' z = q.1) := by
    rintro ⟨ℓ, R⟩ hp z hz
    obtain ⟨h1, rfl, h3⟩ := (hmem' ℓ R).1 hp
    rw [hcc' ℓ h1 z hz, hcc' ℓ h1 z hz, Bool.eq_iff_iff, Bool.and_eq_true, decide_eq_true_eq, decide_eq_true_eq, decide_eq_true_eq,
      ← inBox_leaf_iff h' z h1, inBox_split hm]
  have hin : ∀ z ∈ rowsIn B data (nm.keep up), leafAt t z ∈ (compatLeaves t x S).map Prod.fst := by
    intro z hz
    unfold rowsIn at hz
    rw [List.mem_filter, Bool.and_eq_true] at hz
    refine List.mem_map.2 ⟨(leafAt t z, t.leafRect (leafAt t z)), (hmem _ _).2 ⟨leafAt_mem h z, rfl, ?_⟩, rfl⟩
    exact leaf_compat h hm fun ℓ hℓ hx => (hB ℓ hℓ hx z hz.1).2 hz.2.1
  have hin' : ∀ z ∈ rowsIn B data (nm.keep up), leafAt t' z ∈ (compatLeaves t' x S).map Prod.fst := by
    intro z hz
    unfold rowsIn at hz
    rw [List.mem_filter, Bool.and_eq_true] at hz
    refine List.mem_map.2 ⟨(leafAt t' z, t'.leafRect (leafAt t' z)), (hmem' _ _).2 ⟨leafAt_mem h' z, rfl, ?_⟩, rfl⟩
    exact leaf_compat h' hm fun ℓ hℓ hx => (hB' ℓ hℓ hx z hz.1).2 hz.2.1
  unfold crossTerm
  congr 1
  rw [show (rowsIn B data (nm.keep up)).map (fun z => val (leafAt t z) * val' (leafAt t' z)) =
    (rowsIn B data (nm.keep up)).map fun z => val' (leafAt t' z) * val (leafAt t z) from List.map_congr_left fun z _ => mul_comm _ _,
    ← sum_fiber (rowsIn B data (nm.keep up)) (leafAt t) (fun z => val' (leafAt t' z)) val (compatLeaves t x S) Prod.fst hnd hin,
    div_eq_mul_inv, ← List.sum_map_mul_right]
  congr 1
  refine List.map_congr_left fun p hp => ?_
  have hinner := sum_count_eq ((rowsIn B data (nm.keep up)).filter fun z => decide (leafAt t z = p.1)) (leafAt t') val' (compatLeaves t' x S)
    Prod.fst hnd' fun z hz => hin' z (List.mem_filter.1 hz).1
  rw [← hinner, mul_assoc, ← List.sum_map_mul_right]
  congr 1
  refine List.map_congr_left fun q hq => ?_
  have e1 : (data.filter fun z => (satCC p.2 S z && nm.keep up z && satCC p.2 (colsBar m S) z) &&
      (satCC q.2 S z && nm.keep up z && satCC q.2 (colsBar m S) z)) =
      ((rowsIn B data (nm.keep up)).filter fun z => decide (leafAt t z = p.1)).filter fun z => decide (leafAt t' z = q.1) := by
    unfold rowsIn
    rw [List.filter_filter, List.filter_filter]
    refine List.filter_congr fun z hz => ?_
    rw [← hlf p hp z hz, ← hlf' q hq z hz, hbS p hp z hz, hbS' q hq z hz]
    cases B z <;> cases nm.keep up z <;> cases satCC p.2 (colsBar m S) z <;> cases satCC q.2 (colsBar m S) z <;> rfl
  have e2 : (data.filter fun z => (satCC p.2 S z && nm.keep up z) && (satCC q.2 S z && nm.keep up z)) = rowsIn B data (nm.keep up) := by
    unfold rowsIn
    refine List.filter_congr fun z hz => ?_
    rw [hbS p hp z hz, hbS' q hq z hz, Bool.and_self]
  have e3 : (data.filter fun z => satCC p.2 S z && satCC q.2 S z) = rowsIn B data (PartName.all.keep up) := by
    unfold rowsIn PartName.keep
    refine List.filter_congr fun z hz => ?_
    rw [hbS p hp z hz, hbS' q hq z hz, Bool.and_self, Bool.and_true]
  simp only [e1, guardDiv_eq]
  cases nm with
  | all => simp only []; rw [if_neg hS, e3]; ring
  | up => simp only []; rw [e2]; ring
  | down => simp only []; rw [e2]; ring

theorem sum_ite_idx {α : Type} (c : ℚ) (i : Nat) : ∀ l : List (α × Nat), (l.map Prod.snd).Nodup → i ∈ l.map Prod.snd →
    (l.map fun t => if i = t.2 then c else 0).sum = c
  | [], _, h => by simp at h
  | t :: l, hnd, h => by
    rw [List.map_cons, List.nodup_cons] at hnd
    rw [List.map_cons, List.sum_cons]
    by_cases he : i = t.2
    · rw [if_pos he]
      have : (l.map fun t => if i = t.2 then c else 0) = l.map fun _ => 0 := by
        refine List.map_congr_left fun u hu => if_neg fun h' => hnd.1 ?_
        rw [← he, h']
        exact List.mem_map_of_mem hu
      rw [this]
      simp
    · rw [if_neg he, zero_add]
      rw [List.map_cons, List.mem_cons] at h
      exact sum_ite_idx c i l hnd.2 (h.resolve_left he)

theorem zipIdx_snd_nodup {α : Type} (l : List α) : (l.zipIdx.map Prod.snd).Nodup := by
  rw [List.zipIdx_map_snd]
  exact List.nodup_range'

theorem zipIdx_same {α : Type} {l : List α} {p q : α × Nat} (hp : p ∈ l.zipIdx) (hq : q ∈ l.zipIdx) (h : p.2 = q.2) : p.1 = q.1 := by
  rw [List.mem_zipIdx_iff_getElem?] at hp hq
  rw [h, hq] at hp
  exact (Option.some.inj hp).symm

theorem sum_zipIdx {α : Type} (l : List α) (f : α → ℚ) : (l.zipIdx.map fun t => f t.1).sum = (l.map f).sum := by
  have := List.zipIdx_map_fst 0 l
  conv_rhs => rw [← this, List.map_map]
  rfl

/-- The value of a forest at a row: the mean of the values of its trees. -/
def forestValue (ts : List (TreeArr × (Nat → ℚ))) (z : Row) : ℚ := (ts.map fun t => t.2 (leafAt t.1 z)).sum / ts.length

theorem sum_square {α : Type} (ts : List α) (v : α → Row → ℚ) : ∀ Z : List Row,
    (ts.map fun t => (ts.map fun t' => (Z.map fun z => v t z * v t' z).sum).sum).sum = (Z.map fun z => (ts.map fun t => v t z).sum ^ 2).sum
  | [] => by simp
  | z :: Z => by
    rw [List.map_cons, List.sum_cons, ← sum_square ts v Z]
    simp only [List.map_cons, List.sum_cons, List.sum_map_add, List.sum_map_mul_left, List.sum_map_mul_right]
    ring

theorem sum_swap {α : Type} (ts : List α) (v : α → Row → ℚ) : ∀ Z : List Row,
    (ts.map fun t => (Z.map fun z => v t z).sum).sum = (Z.map fun z => (ts.map fun t => v t z).sum).sum
  | [] => by simp
  | z :: Z => by
    rw [List.map_cons, List.sum_cons, ← sum_swap ts v Z]
    simp only [List.map_cons, List.sum_cons, List.sum_map_add]

/-- **C89, the means of a regression forest.** When the compatible leaves of all trees have the same rows of the data in their boxes on `S`
and no row lies on a split, the three means are those of `(F - fx) ^ 2 - fx ^ 2` over these rows, where `F` is the prediction of the
forest (0 if there is none). -/
theorem C89_forest_mean {ts : List (TreeArr × (Nat → ℚ))} {m : Nat} (hts : ∀ t ∈ ts, WellFormed t.1 m) {S : List Nat} (hS : S ≠ [])
    (hm : ∀ s ∈ S, s < m) {data : List Row} (hoff : ∀ t ∈ ts, ∀ z ∈ data, OffSplits t.1 z) {x : Row} {B : Row → Bool}
    (hB : ∀ t ∈ ts, CommonBox t.1 S x data B) (up : Row → Bool) (fx : ℚ) (nm : PartName) :
    forestMean (ts.map fun t => (t.1, t.2, up)) fx m S data x nm =
      ((rowsIn B data (nm.keep up)).map fun z => (forestValue ts z - fx) ^ 2 - fx ^ 2).sum / (rowsIn B data (nm.keep up)).length := by
  generalize hZ : rowsIn B data (nm.keep up) = Z
  have hidx : (ts.map fun t => ((t.1, t.2, up) : TreeArr × (Nat → ℚ) × (Row → Bool))).zipIdx =
      ts.zipIdx.map fun p => ((p.1.1, p.1.2, up), p.2) := by
    rw [List.zipIdx_map]
    refine List.map_congr_left fun p _ => rfl
  have hmem : ∀ p ∈ ts.zipIdx, p.1 ∈ ts := fun p hp => by
    rw [List.mem_zipIdx_iff_getElem?] at hp
    exact List.mem_of_getElem? hp
  have key : ∀ p ∈ ts.zipIdx, ∀ q ∈ ts.zipIdx,
      (if p.2 = q.2 then diagTerm p.1.1 p.1.2 (ts.length : ℚ) fx m S data up x nm
        else crossTerm (p.1.1, p.1.2, up) (q.1.1, q.1.2, up) (ts.length : ℚ) m S data x nm) =
      (Z.map fun z => p.1.2 (leafAt p.1.1 z) * q.1.2 (leafAt q.1.1 z)).sum / (Z.length * (ts.length : ℚ) ^ 2) -
        (if p.2 = q.2 then 2 * fx * (Z.map fun z => p.1.2 (leafAt p.1.1 z)).sum / (Z.length * ts.length) else 0) := by
    intro p hp q hq
    have hp' := hmem p hp
    have hq' := hmem q hq
    by_cases he : p.2 = q.2
    · rw [if_pos he, if_pos he, ← zipIdx_same hp hq he]
      have h1 := treeMean_common (hts _ hp') hS hm (hoff _ hp') (hB _ hp') (fun ℓ => p.1.2 ℓ ^ 2) up nm
      have h2 := treeMean_common (hts _ hp') hS hm (hoff _ hp') (hB _ hp') p.1.2 up nm
      unfold treeMean at h1 h2
      unfold diagTerm
      rw [h1, h2, hZ]
      have : (Z.map fun z => p.1.2 (leafAt p.1.1 z) * p.1.2 (leafAt p.1.1 z)) = Z.map fun z => p.1.2 (leafAt p.1.1 z) ^ 2 :=
        List.map_congr_left fun z _ => by ring
      rw [this, div_div, mul_div_assoc, div_div, mul_div_assoc]
    · rw [if_neg he, if_neg he, sub_zero, crossTerm_common (hts _ hp') (hts _ hq') hS hm (hoff _ hp') (hoff _ hq') (hB _ hp') (hB _ hq'), hZ,
        div_div]
  unfold forestMean
  rw [hidx, List.map_map, List.length_map]
  have hsum : (ts.zipIdx.map ((fun t : (TreeArr × (Nat → ℚ) × (Row → Bool)) × Nat =>
      ((ts.zipIdx.map fun p => (((p.1.1, p.1.2, up) : TreeArr × (Nat → ℚ) × (Row → Bool)), p.2)).map fun t' =>
        if t.2 = t'.2 then diagTerm t.1.1 t.1.2.1 (ts.length : ℚ) fx m S data t.1.2.2 x nm
        else crossTerm t.1 t'.1 (ts.length : ℚ) m S data x nm).sum) ∘ fun p => ((p.1.1, p.1.2, up), p.2))) =
      ts.zipIdx.map fun p => (fun t : TreeArr × (Nat → ℚ) =>
        (ts.map fun t' => (Z.map fun z => t.2 (leafAt t.1 z) * t'.2 (leafAt t'.1 z)).sum).sum / (Z.length * (ts.length : ℚ) ^ 2) -
          2 * fx * (Z.map fun z => t.2 (leafAt t.1 z)).sum / (Z.length * ts.length)) p.1 := by
    refine List.map_congr_left fun p hp => ?_
    simp only [Function.comp_apply, List.map_map]
    have : (ts.zipIdx.map ((fun t' : (TreeArr × (Nat → ℚ) × (Row → Bool)) × Nat =>
        if p.2 = t'.2 then diagTerm p.1.1 p.1.2 (ts.length : ℚ) fx m S data up x nm
        else crossTerm (p.1.1, p.1.2, up) t'.1 (ts.length : ℚ) m S data x nm) ∘ fun p => ((p.1.1, p.1.2, up), p.2))) =
        ts.zipIdx.map fun q => (fun t' : TreeArr × (Nat → ℚ) =>
          (Z.map fun z => p.1.2 (leafAt p.1.1 z) * t'.2 (leafAt t'.1 z)).sum / (Z.length * (ts.length : ℚ) ^ 2)) q.1 -
          (if p.2 = q.2 then 2 * fx * (Z.map fun z => p.1.2 (leafAt p.1.1 z)).sum / (Z.length * ts.length) else 0) :=
      List.map_congr_left fun q hq => key p hp q hq
    rw [this]
    simp only [sub_eq_add_neg]
    rw [List.sum_map_add, sum_zipIdx ts fun t' : TreeArr × (Nat → ℚ) =>
      (Z.map fun z => p.1.2 (leafAt p.1.1 z) * t'.2 (leafAt t'.1 z)).sum / (Z.length * (ts.length : ℚ) ^ 2)]
    have h2 : (ts.zipIdx.map fun q =>
        -(if p.2 = q.2 then 2 * fx * (Z.map fun z => p.1.2 (leafAt p.1.1 z)).sum / (Z.length * ts.length) else (0 : ℚ))) =
        ts.zipIdx.map fun q => if p.2 = q.2 then -(2 * fx * (Z.map fun z => p.1.2 (leafAt p.1.1 z)).sum / (Z.length * ts.length)) else 0 := by
      refine List.map_congr_left fun q _ => ?_
      split <;> simp
    rw [h2, sum_ite_idx _ _ _ (zipIdx_snd_nodup ts) (List.mem_map_of_mem hp)]
    congr 1
    simp only [div_eq_mul_inv]
    rw [List.sum_map_mul_right]
  rw [hsum, sum_zipIdx ts fun t : TreeArr × (Nat → ℚ) =>
        (ts.map fun t' => (Z.map fun z => t.2 (leafAt t.1 z) * t'.2 (leafAt t'.1 z)).sum).sum / (Z.length * (ts.length : ℚ) ^ 2) -
          2 * fx * (Z.map fun z => t.2 (leafAt t.1 z)).sum / (Z.length * ts.length)]
  simp only [sub_eq_add_neg, div_eq_mul_inv]
  rw [List.sum_map_add, List.sum_map_mul_right, sum_square ts (fun t z => t.2 (leafAt t.1 z)) Z]
  have h3 : (ts.map fun t => -(2 * fx * (Z.map fun z => t.2 (leafAt t.1 z)).sum * ((Z.length : ℚ) * ts.length)⁻¹)) =
      ts.map fun t => (-(2 * fx * ((Z.length : ℚ) * ts.length)⁻¹)) * (Z.map fun z => t.2 (leafAt t.1 z)).sum :=
    List.map_congr_left fun t _ => by ring
  rw [h3, List.sum_map_mul_left, sum_swap ts (fun t z => t.2 (leafAt t.1 z)) Z, ← List.sum_map_mul_right, ← List.sum_map_mul_left,
    ← List.sum_map_add, ← List.sum_map_mul_right]
  congr 1
  refine List.map_congr_left fun z _ => ?_
  unfold forestValue
  rw [mul_inv, mul_inv, ← inv_pow]
  ring

theorem rowsIn_split (B : Row → Bool) (up : Row → Bool) (g : Row → ℚ) (data : List Row) :
    ((rowsIn B data (PartName.all.keep up)).map g).sum =
      ((rowsIn B data (PartName.up.keep up)).map g).sum + ((rowsIn B data (PartName.down.keep up)).map g).sum := by
  unfold rowsIn PartName.keep
  induction data with
  | nil => simp
  | cons z data ih =>
    rw [List.filter_cons, List.filter_cons, List.filter_cons]
    cases h1 : B z <;> cases h2 : up z <;> simp_all <;> ring

theorem rowsIn_card (B : Row → Bool) (up : Row → Bool) (data : List Row) :
    ((rowsIn B data (PartName.all.keep up)).length : ℚ) =
      (rowsIn B data (PartName.up.keep up)).length + (rowsIn B data (PartName.down.keep up)).length := by
  simpa using rowsIn_split B up (fun _ => 1) data

/-- **C89, a regression forest.** The code marks as distant, for each tree, the rows to which *this tree* gives a value far from `fx`
(utils.py:696-700). If all trees mark the same rows, the result, when it is a number, is under the same conditions the share of the rows
that are not marked among the rows in the box. Missing (false, see `C89_forest_false`): trees that mark different rows than the forest. -/
theorem C89_reg_forest_partial {ts : List (TreeArr × (Nat → ℚ))} {m : Nat} (hts : ∀ t ∈ ts, WellFormed t.1 m) {S : List Nat} (hS : S ≠ [])
    (hm : ∀ s ∈ S, s < m) {data : List Row} (hoff : ∀ t ∈ ts, ∀ z ∈ data, OffSplits t.1 z) {x : Row} {B : Row → Bool}
    (hB : ∀ t ∈ ts, CommonBox t.1 S x data B) (up : Row → Bool) (fx : ℚ) {q : ℚ}
    (hq : condSdp (ts.map fun t => (t.1, t.2, up)) fx m S data x = some q) :
    q = ((data.filter fun z => B z && !up z).length : ℚ) / (data.filter B).length := by
  have hall : rowsIn B data (PartName.all.keep up) = data.filter B := by
    unfold rowsIn PartName.keep
    simp
  unfold condSdp clampNan at hq
  rw [C89_forest_mean hts hS hm hoff hB, C89_forest_mean hts hS hm hoff hB, C89_forest_mean hts hS hm hoff hB, rowsIn_split,
    rowsIn_card, Option.map_eq_some_iff] at hq
  obtain ⟨q', h1, rfl⟩ := hq
  have hflip : ∀ a b c : ℚ, npDiv (a - b) (a - c) = npDiv (b - a) (c - a) := by
    intro a b c
    unfold npDiv
    by_cases h0 : a - c = 0
    · rw [if_pos h0, if_pos (by linarith)]
    · rw [if_neg h0, if_neg (fun h => h0 (by linarith)), ← neg_sub b a, ← neg_sub c a, neg_div_neg_eq]
  rw [hflip, add_comm (List.sum _), add_comm (((rowsIn B data (PartName.up.keep up)).length : ℚ))] at h1
  have h2 := quotient_is_share (by positivity) (by positivity) (fun h0 => by
    have : rowsIn B data (PartName.down.keep up) = [] := List.length_eq_zero_iff.1 (by exact_mod_cast h0)
    simp [this]) (fun h0 => by
    have : rowsIn B data (PartName.up.keep up) = [] := List.length_eq_zero_iff.1 (by exact_mod_cast h0)
    simp [this]) h1
  have h3 := share_mem (u := ((rowsIn B data (PartName.down.keep up)).length : ℚ))
    (v := ((rowsIn B data (PartName.up.keep up)).length : ℚ)) (by positivity) (by positivity)
  rw [← h2] at h3
  rw [clamp01_of_mem h3.1 h3.2, h2, add_comm, ← rowsIn_card, hall]
  rfl

theorem mean_lt_of_lt {g : Row → ℚ} {c : ℚ} : ∀ {Z : List Row}, Z ≠ [] → (∀ z ∈ Z, c < g z) → c < (Z.map g).sum / Z.length := by
  intro Z hne h
  have hpos : (0 : ℚ) < Z.length := by exact_mod_cast List.length_pos_iff.2 hne
  rw [lt_div_iff₀ hpos]
  clear hpos
  induction Z with
  | nil => exact absurd rfl hne
  | cons z Z ih =>
    rw [List.map_cons, List.sum_cons, List.length_cons]
    push_cast
    have hz := h z (List.mem_cons_self ..)
    by_cases he : Z = []
    · subst he; simpa using hz
    · have := ih he fun w hw => h w (List.mem_cons_of_mem _ hw)
      linarith

theorem mean_le_of_le {g : Row → ℚ} {c : ℚ} {Z : List Row} (hne : Z ≠ []) (h : ∀ z ∈ Z, g z ≤ c) : (Z.map g).sum / Z.length ≤ c := by
  have hpos : (0 : ℚ) < Z.length := by exact_mod_cast List.length_pos_iff.2 hne
  rw [div_le_iff₀ hpos]
  clear hpos hne
  induction Z with
  | nil => simp
  | cons z Z ih =>
    rw [List.map_cons, List.sum_cons, List.length_cons]
    push_cast
    have hz := h z (List.mem_cons_self ..)
    have := ih fun w hw => h w (List.mem_cons_of_mem _ hw)
    linarith

/-- **C89, a regression forest, existence.** If moreover the marked rows are those to which the forest gives a value far from `fx`, the
result is a number as soon as the box has both close and distant rows. -/
theorem C89_reg_forest_number {ts : List (TreeArr × (Nat → ℚ))} {m : Nat} (hts : ∀ t ∈ ts, WellFormed t.1 m) {S : List Nat} (hS : S ≠ [])
    (hm : ∀ s ∈ S, s < m) {data : List Row} (hoff : ∀ t ∈ ts, ∀ z ∈ data, OffSplits t.1 z) {x : Row} {B : Row → Bool}
    (hB : ∀ t ∈ ts, CommonBox t.1 S x data B) {up : Row → Bool} {tx fx : ℚ}
    (hup : ∀ z ∈ data, B z = true → (up z = true ↔ tx < (forestValue ts z - fx) ^ 2))
    (hc : ∃ z ∈ data, B z = true ∧ up z = false) (hd : ∃ z ∈ data, B z = true ∧ up z = true) :
    condSdp (ts.map fun t => (t.1, t.2, up)) fx m S data x =
      some (((data.filter fun z => B z && !up z).length : ℚ) / (data.filter B).length) := by
  have hsome : ∃ q, condSdp (ts.map fun t => (t.1, t.2, up)) fx m S data x = some q := by
    unfold condSdp clampNan npDiv
    rw [if_neg]
    · exact ⟨_, rfl⟩
    · rw [C89_forest_mean hts hS hm hoff hB, C89_forest_mean hts hS hm hoff hB]
      have h1 := mean_lt_of_lt (g := fun z => (forestValue ts z - fx) ^ 2 - fx ^ 2) (c := tx - fx ^ 2)
        (Z := rowsIn B data (PartName.up.keep up)) (by
          obtain ⟨z, hz, hb, hz2⟩ := hd
          exact List.ne_nil_of_mem (List.mem_filter.2 ⟨hz, by simp [PartName.keep, hb, hz2]⟩)) (by
          intro z hz
          obtain ⟨hz0, this⟩ := List.mem_filter.1 hz
          simp only [PartName.keep, Bool.and_eq_true] at this
          linarith [(hup z hz0 this.1).1 this.2])
      have h2 := mean_le_of_le (g := fun z => (forestValue ts z - fx) ^ 2 - fx ^ 2) (c := tx - fx ^ 2)
        (Z := rowsIn B data (PartName.down.keep up)) (by
          obtain ⟨z, hz, hb, hz2⟩ := hc
          exact List.ne_nil_of_mem (List.mem_filter.2 ⟨hz, by simp [PartName.keep, hb, hz2]⟩)) (by
          intro z hz
          obtain ⟨hz0, this⟩ := List.mem_filter.1 hz
          simp only [PartName.keep, Bool.and_eq_true, Bool.not_eq_true'] at this
          have h3 : ¬ tx < (forestValue ts z - fx) ^ 2 := fun h => by
            rw [(hup z hz0 this.1).2 h] at this
            exact absurd this.2 (by simp)
          linarith [not_lt.1 h3])
      intro h
      linarith
  obtain ⟨q, hq⟩ := hsome
  rw [hq, C89_reg_forest_partial hts hS hm hoff hB _ fx hq]

/-- **C89, false for a forest.** Two trees give `fx + 1` and `fx - 1` on all rows, so the forest gives `fx` everywhere; each tree marks
every row as distant for the threshold 1/2, and the result is 0 instead of 1. -/
theorem C89_forest_false : WellFormed sdpTree 2 ∧ (∀ z ∈ [row2 0 1, row2 2 1, row2 0 0], OffSplits sdpTree z) ∧
    CommonBox sdpTree [1] (row2 0 1) [row2 0 1, row2 2 1, row2 0 0] (fun z => decide (1/2 < z 1)) ∧
    (∀ z, forestValue [(sdpTree, fun _ => 4), (sdpTree, fun _ => 2)] z = 3) ∧
    condSdp [(sdpTree, fun _ => 4, fun _ => decide ((1/2 : ℚ) < (4 - 3) ^ 2)), (sdpTree, fun _ => 2, fun _ => decide ((1/2 : ℚ) < (2 - 3) ^ 2))]
      3 2 [1] [row2 0 1, row2 2 1, row2 0 0] (row2 0 1) = some 0 := by
  refine ⟨sdpTree_wf, ?_, ?_, fun z => by simp [forestValue]; norm_num, by decide +kernel⟩
  · have h : ∀ z ∈ [row2 0 1, row2 2 1, row2 0 0], ∀ n < 5, 0 ≤ sdpTree.left n → z (sdpTree.feature n).toNat ≠ sdpTree.threshold n := by
      decide +kernel
    exact fun z hz n hn hl => h z hz n hn hl
  · unfold CommonBox
    simp only [← sat_open]
    decide +kernel

/-- Two trees and a common box on column 1: of the two rows above 1/2, one is close to `x`. -/
example : let ts := [(sdpTree, fun n => sdpTree.value n 1), (sdpTree, fun n => sdpTree.value n 1)]
    let data := [row2 0 1, row2 2 1, row2 0 0]
    (∀ t ∈ ts, WellFormed t.1 2) ∧ (∀ t ∈ ts, ∀ z ∈ data, OffSplits t.1 z) ∧
    (∀ t ∈ ts, CommonBox t.1 [1] (row2 0 1) data fun z => decide (1/2 < z 1)) ∧
    (∃ z ∈ data, (decide (1/2 < z 1)) = true ∧ decide (1/10 < (forestValue ts z - 9/10) ^ 2) = false) ∧
    (∃ z ∈ data, (decide (1/2 < z 1)) = true ∧ decide (1/10 < (forestValue ts z - 9/10) ^ 2) = true) ∧
    condSdp (ts.map fun t => (t.1, t.2, fun z => decide (1/10 < (forestValue ts z - 9/10) ^ 2))) (9/10) 2 [1] data (row2 0 1) = some (1/2) := by
  refine ⟨?_, ?_, ?_, ?_, ?_, ?_⟩
  · simp [sdpTree_wf]
  · have h : ∀ z ∈ [row2 0 1, row2 2 1, row2 0 0], ∀ n < 5, 0 ≤ sdpTree.left n → z (sdpTree.feature n).toNat ≠ sdpTree.threshold n := by
      decide +kernel
    intro t ht z hz
    have : t.1 = sdpTree := by
      simp only [List.mem_cons, List.not_mem_nil, or_false, or_self] at ht
      rw [ht]
    rw [this]
    exact fun n hn hl => h z hz n hn hl
  · intro t ht
    have : t.1 = sdpTree := by
      simp only [List.mem_cons, List.not_mem_nil, or_false, or_self] at ht
      rw [ht]
    rw [this]
    unfold CommonBox
    simp only [← sat_open]
    decide +kernel
  · decide +kernel
  · decide +kernel
  · decide +kernel

/-- **C89, false without columns.** `cond_sdp_forest` with no column should return the share of all rows whose output is close. The empty product
makes it divide the counts by 1: half of the rows are close, and 1 is returned. -/
theorem C89_empty_false : WellFormed (stumpAt 0 0 0 1) 1 ∧ (∀ z ∈ [row2 (-1) 0, row2 1 0], OffSplits (stumpAt 0 0 0 1) z) ∧
    condSdp [(stumpAt 0 0 0 1, fun n => (stumpAt 0 0 0 1).value n 0, fun z => decide (z 0 ≤ 0))] 1 1 [] [row2 (-1) 0, row2 1 0] (row2 1 0) =
      some 1 := by
  refine ⟨stumpAt_wf (by decide) _ _ _, fun z hz => ?_, by decide +kernel⟩
  simp only [List.mem_cons, List.not_mem_nil, or_false] at hz
  rcases hz with rfl | rfl <;> exact stumpAt_off (by norm_num [row2])

/-- **C89, false for boxes that differ.** The compatible leaves are conditioned on different boxes. Of the two rows in the box of `x`, which are
also the two that agree with `x`, one has the class of `x`, and the result is 23/42. -/
theorem C89_boxes_false : WellFormed sdpTree 2 ∧ (∀ z ∈ [row2 0 1, row2 2 1, row2 0 0], OffSplits sdpTree z) ∧
    condSdpClf [(sdpTree, fun n => sdpTree.value n 1, fun z => decide (sdpLab z = 1))] 2 [0] [row2 0 1, row2 2 1, row2 0 0] (row2 0 1) =
      some (23 / 42) ∧
    ((boxRows sdpTree [0] (row2 0 1) [row2 0 1, row2 2 1, row2 0 0] fun z => decide (sdpLab z = 1)).length : ℚ) /
      (boxRows sdpTree [0] (row2 0 1) [row2 0 1, row2 2 1, row2 0 0] fun _ => true).length = 1 / 2 := by
  refine ⟨sdpTree_wf, ?_, by decide +kernel, ?_⟩
  · have h : ∀ z ∈ [row2 0 1, row2 2 1, row2 0 0], ∀ n < 5, 0 ≤ sdpTree.left n → z (sdpTree.feature n).toNat ≠ sdpTree.threshold n := by
      decide +kernel
    exact fun z hz n hn hl => h z hz n hn hl
  · classical
    have he : ∀ keep data, boxRows sdpTree [0] (row2 0 1) data keep =
        data.filter fun z => sat (sdpTree.leafRect (leafAt sdpTree (row2 0 1))) [0] z && keep z := by
      intro keep data
      unfold boxRows
      refine List.filter_congr fun z _ => ?_
      rw [Bool.eq_iff_iff, Bool.and_eq_true, Bool.and_eq_true, decide_eq_true_eq, sat_open]
    rw [he, he]
    decide +kernel

/-- A tree, a set of columns and rows that meet the conditions: half of the rows with the second entry above 1/2 have the class of `x`. -/
example : WellFormed sdpTree 2 ∧ (∀ z ∈ [row2 0 1, row2 2 1, row2 0 0], OffSplits sdpTree z) ∧
    (∀ ℓ ∈ sdpTree.leafIdx, InOpen (sdpTree.leafRect ℓ) [1] (row2 0 1) → ∀ z ∈ [row2 0 1, row2 2 1, row2 0 0],
      InOpen (sdpTree.leafRect ℓ) [1] z ↔ InOpen (sdpTree.leafRect (leafAt sdpTree (row2 0 1))) [1] z) ∧
    treeSdp sdpTree (fun n => sdpTree.value n 1) 2 [1] [row2 0 1, row2 2 1, row2 0 0] (fun z => decide (sdpLab z = 1)) (row2 0 1) = some (1 / 2) ∧
    condSdpClf [(sdpTree, fun n => sdpTree.value n 1, fun z => decide (sdpLab z = 1))] 2 [1] [row2 0 1, row2 2 1, row2 0 0] (row2 0 1) =
      some (1 / 2) := by
  refine ⟨sdpTree_wf, ?_, ?_, by decide +kernel, by decide +kernel⟩
  · have h : ∀ z ∈ [row2 0 1, row2 2 1, row2 0 0], ∀ n < 5, 0 ≤ sdpTree.left n → z (sdpTree.feature n).toNat ≠ sdpTree.threshold n := by
      decide +kernel
    exact fun z hz n hn hl => h z hz n hn hl
  · simp only [← sat_open]
    decide +kernel

end Acv

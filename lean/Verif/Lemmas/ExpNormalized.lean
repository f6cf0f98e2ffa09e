import Verif.Lemmas.ShapEnum
import Verif.Props.LeafCache
import Verif.Props.TreeSdp

namespace Acv

/-- a finite upper bound of a leaf rectangle is the threshold of a test on that column -/
theorem foldl_narrow_hi {t : TreeArr} : ∀ (c : List (Nat × Bool)) (part : Rect) (s : Nat) (l : ℚ),
    ((c.foldl t.narrow part) s).hi = some l → (part s).hi = some l ∨
      ∃ ps ∈ c, (t.feature ps.1).toNat = s ∧ t.threshold ps.1 = l
  | [], part, s, l, h => Or.inl h
  | ps :: c, part, s, l, h => by
    rcases foldl_narrow_hi c _ s l h with h1 | ⟨qs, hq, h2⟩
    · unfold TreeArr.narrow Rect.set at h1
      by_cases hs : s = (t.feature ps.1).toNat
      · rw [if_pos hs] at h1
        cases hps : ps.2
        · rw [hps] at h1
          simp only [Bool.false_eq_true, if_false, Ival.below] at h1
          split at h1
          · right; exact ⟨ps, by simp, hs.symm, Option.some.inj h1⟩
          · rename_i l' hl'
            have h1 := Option.some.inj h1
            rcases min_choice l' (t.threshold ps.1) with h3 | h3
            · left; rw [hs, hl', ← h1, h3]
            · right; exact ⟨ps, by simp, hs.symm, by rw [← h1, h3]⟩
        · rw [hps] at h1; simp [Ival.above] at h1; left; rw [hs]; exact h1
      · rw [if_neg hs] at h1; exact Or.inl h1
    · exact Or.inr ⟨qs, List.mem_cons_of_mem _ hq, h2⟩

theorem offSplits_hi {t : TreeArr} {d} (h : WellFormed t d) {z : Row} (hz : OffSplits t z) {ℓ : Nat}
    (hℓ : ℓ ∈ t.leafIdx) (s : Nat) : (t.leafRect ℓ s).hi ≠ some (z s) := by
  intro he
  obtain ⟨b, hb⟩ := h
  have hm := (leafIdx_iff hb _).mp hℓ
  obtain ⟨c, hc, hl, hfd⟩ := leaf_chain hb hm
  unfold TreeArr.leafRect at he
  rw [getPartition_chain hb hc _ _ _ (by omega)] at he
  rcases foldl_narrow_hi c _ s _ he with h1 | ⟨ps, hps, h1, h2⟩
  · simp [Ival.all] at h1
  · obtain ⟨k, hk, ha⟩ := hc.above ps hps
    obtain ⟨h3, h4, h5⟩ := above_internal ⟨b, hb⟩ hk ha
    exact hz _ h3 h4 (by rw [h1, h2])

theorem memCO_eq {i : Ival} {v : ℚ} (hl : i.lo ≠ some v) (hh : i.hi ≠ some v) : i.memCO v = i.memOC v := by
  have e1 : ∀ l, i.lo = some l → ((l ≤ v) ↔ l < v) := fun l hl' =>
    ⟨fun h => lt_of_le_of_ne h (fun e => hl (by rw [hl', e])), le_of_lt⟩
  have e2 : ∀ h, i.hi = some h → ((v < h) ↔ v ≤ h) := fun h hh' =>
    ⟨le_of_lt, fun h' => lt_of_le_of_ne h' (fun e => hh (by rw [hh', e]))⟩
  rcases i with ⟨_ | l, _ | h⟩ <;> simp only [Ival.memCO, Ival.memOC] <;> simp_all

theorem satCO_eq {r : Rect} {S : List Nat} {z : Row} (hl : ∀ s, (r s).lo ≠ some (z s)) (hh : ∀ s, (r s).hi ≠ some (z s)) :
    satCO r S z = sat r S z := by
  unfold satCO sat
  congr 1
  funext s
  exact memCO_eq (hl s) (hh s)

theorem cacheNorm_count (ts : List TreeArr) (m : Nat) (data : List Row) (C : List (List Nat))
    (hit : Rect → List Nat → List Nat → Row → Bool) {t : TreeArr} {b ℓ lf ℓ' ln va counter : Nat} {g : List Nat}
    (ht : (t, b) ∈ ts.zipIdx) (hℓ : (ℓ, lf) ∈ t.leafIdx.zipIdx) (hg : (g, va) ∈ (playersCy m C).zipIdx)
    (hgn : g ∈ leafPlayersCy m C (t.leafCols ℓ))
    (hc : counter < 2 ^ ((leafPlayersCy m C (t.leafCols ℓ)).erase g).length) (hln : (ℓ', ln) ∈ t.leafIdx.zipIdx) :
    (cacheNorm ts m data C hit).count (b, va, lf, ln, counter) =
      (data.filter fun z => hit (t.leafRect ℓ') (maskSel ((leafPlayersCy m C (t.leafCols ℓ)).erase g) counter).flatten g z).length := by
  unfold cacheNorm
  simp only
  rw [count_flatMap_zipIdx ts (fun t b => t.leafIdx.zipIdx.flatMap fun lf =>
    (playersCy m C).zipIdx.flatMap fun gv =>
      if gv.1 ∈ leafPlayersCy m C (t.leafCols lf.1) then
        (List.range (2 ^ ((leafPlayersCy m C (t.leafCols lf.1)).erase gv.1).length)).flatMap fun counter =>
          t.leafIdx.zipIdx.flatMap fun ln =>
          (data.filter fun z => hit (t.leafRect ln.1) (maskSel ((leafPlayersCy m C (t.leafCols lf.1)).erase gv.1) counter).flatten gv.1 z).map
            fun _ => (b, gv.2, lf.2, ln.2, counter)
      else []) _ 0 ht]
  · rw [count_flatMap_zipIdx t.leafIdx (fun ℓ lf =>
      (playersCy m C).zipIdx.flatMap fun gv =>
      if gv.1 ∈ leafPlayersCy m C (t.leafCols ℓ) then
        (List.range (2 ^ ((leafPlayersCy m C (t.leafCols ℓ)).erase gv.1).length)).flatMap fun counter =>
          t.leafIdx.zipIdx.flatMap fun ln =>
          (data.filter fun z => hit (t.leafRect ln.1) (maskSel ((leafPlayersCy m C (t.leafCols ℓ)).erase gv.1) counter).flatten gv.1 z).map
            fun _ => (b, gv.2, lf, ln.2, counter)
      else []) _ 0 hℓ]
    · rw [count_flatMap_zipIdx (playersCy m C) (fun g va =>
        if g ∈ leafPlayersCy m C (t.leafCols ℓ) then
          (List.range (2 ^ ((leafPlayersCy m C (t.leafCols ℓ)).erase g).length)).flatMap fun counter =>
            t.leafIdx.zipIdx.flatMap fun ln =>
            (data.filter fun z => hit (t.leafRect ln.1) (maskSel ((leafPlayersCy m C (t.leafCols ℓ)).erase g) counter).flatten g z).map
              fun _ => (b, va, lf, ln.2, counter)
        else []) _ 0 hg]
      · rw [if_pos hgn, count_flatMap_range _ _ _ hc]
        · rw [count_flatMap_zipIdx t.leafIdx (fun ℓ' ln =>
            (data.filter fun z => hit (t.leafRect ℓ') (maskSel ((leafPlayersCy m C (t.leafCols ℓ)).erase g) counter).flatten g z).map
              fun _ => (b, va, lf, ln, counter)) _ 0 hln, count_map_const]
          intro a i hi hmem
          obtain ⟨_, _, he⟩ := List.mem_map.mp hmem
          simp only [Prod.mk.injEq] at he
          exact hi he.2.2.2.1
        · intro i hi hmem
          obtain ⟨_, _, hmem⟩ := List.mem_flatMap.mp hmem
          obtain ⟨_, _, he⟩ := List.mem_map.mp hmem
          simp only [Prod.mk.injEq] at he
          exact hi he.2.2.2.2
      · intro a i hi hmem
        split at hmem
        · obtain ⟨_, _, hmem⟩ := List.mem_flatMap.mp hmem
          obtain ⟨_, _, hmem⟩ := List.mem_flatMap.mp hmem
          obtain ⟨_, _, he⟩ := List.mem_map.mp hmem
          simp only [Prod.mk.injEq] at he
          exact hi he.2.1
        · simp at hmem
    · intro a i hi hmem
      obtain ⟨_, _, hmem⟩ := List.mem_flatMap.mp hmem
      split at hmem
      · obtain ⟨_, _, hmem⟩ := List.mem_flatMap.mp hmem
        obtain ⟨_, _, hmem⟩ := List.mem_flatMap.mp hmem
        obtain ⟨_, _, he⟩ := List.mem_map.mp hmem
        simp only [Prod.mk.injEq] at he
        exact hi he.2.2.1
      · simp at hmem
  · intro a i hi hmem
    obtain ⟨_, _, hmem⟩ := List.mem_flatMap.mp hmem
    obtain ⟨_, _, hmem⟩ := List.mem_flatMap.mp hmem
    split at hmem
    · obtain ⟨_, _, hmem⟩ := List.mem_flatMap.mp hmem
      obtain ⟨_, _, hmem⟩ := List.mem_flatMap.mp hmem
      obtain ⟨_, _, he⟩ := List.mem_map.mp hmem
      simp only [Prod.mk.injEq] at he
      exact hi he.1
    · simp at hmem

theorem map_zipIdx_congr' {α β : Type} (l : List α) (f : α × Nat → β) (g : α → β) (h : ∀ a i, (a, i) ∈ l.zipIdx → f (a, i) = g a) :
    l.zipIdx.map f = l.map g := by
  have : l.map g = l.zipIdx.map (fun p => g p.1) := by
    conv_lhs => rw [← List.zipIdx_map_fst 0 l, List.map_map]
    rfl
  rw [this]
  apply List.map_congr_left
  intro p hp
  exact h p.1 p.2 hp

/-- the cached values are the uncached ones of an observation that passes the half-open tests the other way round -/
theorem cachedNorm_eq' {ts : List TreeArr} {m : Nat} (data : List Row) (C : List (List Nat)) {x x' : Row}
    (hx : ∀ t ∈ ts, ∀ ℓ ∈ t.leafIdx, ∀ S, satCO (t.leafRect ℓ) S x = sat (t.leafRect ℓ) S x') (j k : Nat) :
    acvTreeCachedNorm ts m data C C x j k = shapNorm ts m data C x' j k := by
  unfold acvTreeCachedNorm shapNormCached shapNorm
  congr 2
  apply map_zipIdx_congr
  intro t b ht
  have htm : t ∈ ts := by
    have := List.mem_map_of_mem (f := Prod.fst) ht
    rwa [List.zipIdx_map_fst] at this
  congr 1
  apply map_zipIdx_congr
  intro ℓ lf hℓ
  have hmem : ∀ {a i}, (a, i) ∈ t.leafIdx.zipIdx → a ∈ t.leafIdx := by
    intro a i h
    have := List.mem_map_of_mem (f := Prod.fst) h
    rwa [List.zipIdx_map_fst] at this
  simp only
  congr 1
  unfold normLeafPhi
  simp only
  congr 1
  apply map_zipIdx_congr
  intro g va hg
  simp only
  split
  · rename_i hgn
    congr 1
    apply List.map_congr_left
    intro counter hc
    congr 1
    have hc := List.mem_range.mp hc
    have hco := hx t htm
    unfold normTermCached normTerm leavesCacheNorm
    simp only
    have key := fun hit {ℓ' ln} (hln : (ℓ', ln) ∈ t.leafIdx.zipIdx) => cacheNorm_count ts m data C hit ht hℓ hg hgn hc hln
    simp only [List.map_map]
    have e1 := map_zipIdx_congr' t.leafIdx (g := fun ℓ' => (fun q : Rect => ((if sat q (maskSel ((leafPlayersCy m C (t.leafCols ℓ)).erase g) counter).flatten x' then 1 else 0 : ℚ),
        (cnt data q (List.range m) : ℚ), (cnt data q (maskSel ((leafPlayersCy m C (t.leafCols ℓ)).erase g) counter).flatten : ℚ))) (t.leafRect ℓ'))
      (f := (fun q : Rect × Nat => ((if satCO q.1 (maskSel ((leafPlayersCy m C (t.leafCols ℓ)).erase g) counter).flatten x then 1 else 0 : ℚ),
        ((cacheNorm ts m data C fun q _ _ z => sat q (List.range m) z).count (b, va, lf, q.2, counter) : ℚ),
        ((cacheNorm ts m data C fun q S _ z => sat q S z).count (b, va, lf, q.2, counter) : ℚ))) ∘ fun q => (t.leafRect q.1, q.2)) (by
      intro ℓ' ln hln
      simp only [Function.comp]
      rw [hco ℓ' (hmem hln), key _ hln, key _ hln]
      rfl)
    have e2 := map_zipIdx_congr' t.leafIdx (g := fun ℓ' => (fun q : Rect => ((if sat q (maskSel ((leafPlayersCy m C (t.leafCols ℓ)).erase g) counter).flatten x' && sat q g x' then 1 else 0 : ℚ),
        (cnt data q (List.range m) : ℚ), ((data.filter fun z => sat q (maskSel ((leafPlayersCy m C (t.leafCols ℓ)).erase g) counter).flatten z && sat q g z).length : ℚ))) (t.leafRect ℓ'))
      (f := (fun q : Rect × Nat => ((if satCO q.1 (maskSel ((leafPlayersCy m C (t.leafCols ℓ)).erase g) counter).flatten x && satCO q.1 g x then 1 else 0 : ℚ),
        ((cacheNorm ts m data C fun q _ _ z => sat q (List.range m) z).count (b, va, lf, q.2, counter) : ℚ),
        ((cacheNorm ts m data C fun q S va z => sat q S z && sat q va z).count (b, va, lf, q.2, counter) : ℚ))) ∘ fun q => (t.leafRect q.1, q.2)) (by
      intro ℓ' ln hln
      simp only [Function.comp]
      rw [hco ℓ' (hmem hln), hco ℓ' (hmem hln), key _ hln, key _ hln]
      rfl)
    rw [e1, e2, hco ℓ (hmem hℓ), hco ℓ (hmem hℓ), key _ hℓ, key _ hℓ, key _ hℓ]
    rfl
  · rfl

/-- the cached values are the uncached ones, off the thresholds -/
theorem cachedNorm_eq {ts : List TreeArr} {m : Nat} (hts : ∀ t ∈ ts, WellFormed t m) (data : List Row) (C : List (List Nat)) {x : Row}
    (hx : ∀ t ∈ ts, OffSplits t x) (j k : Nat) : acvTreeCachedNorm ts m data C C x j k = shapNorm ts m data C x j k :=
  cachedNorm_eq' data C (fun t htm _ h' _ =>
    satCO_eq (offSplits_lo (hts t htm) (hx t htm) h') (offSplits_hi (hts t htm) (hx t htm) h')) j k

theorem lo_is_threshold {t : TreeArr} {d} (h : WellFormed t d) {ℓ : Nat} (hℓ : ℓ ∈ t.leafIdx) {s : Nat} {l : ℚ}
    (he : (t.leafRect ℓ s).lo = some l) : ∃ n < t.size, (t.feature n).toNat = s ∧ t.threshold n = l := by
  obtain ⟨b, hb⟩ := h
  have hm := (leafIdx_iff hb _).mp hℓ
  obtain ⟨c, hc, hl, hfd⟩ := leaf_chain hb hm
  unfold TreeArr.leafRect at he
  rw [getPartition_chain hb hc _ _ _ (by omega)] at he
  rcases foldl_narrow_lo c _ s _ he with h1 | ⟨ps, hps, h1, h2⟩
  · simp [Ival.all] at h1
  · obtain ⟨k, hk, ha⟩ := hc.above ps hps
    obtain ⟨h3, _, _⟩ := above_internal ⟨b, hb⟩ hk ha
    exact ⟨_, h3, h1, h2⟩

theorem hi_is_threshold {t : TreeArr} {d} (h : WellFormed t d) {ℓ : Nat} (hℓ : ℓ ∈ t.leafIdx) {s : Nat} {l : ℚ}
    (he : (t.leafRect ℓ s).hi = some l) : ∃ n < t.size, (t.feature n).toNat = s ∧ t.threshold n = l := by
  obtain ⟨b, hb⟩ := h
  have hm := (leafIdx_iff hb _).mp hℓ
  obtain ⟨c, hc, hl, hfd⟩ := leaf_chain hb hm
  unfold TreeArr.leafRect at he
  rw [getPartition_chain hb hc _ _ _ (by omega)] at he
  rcases foldl_narrow_hi c _ s _ he with h1 | ⟨ps, hps, h1, h2⟩
  · simp [Ival.all] at h1
  · obtain ⟨k, hk, ha⟩ := hc.above ps hps
    obtain ⟨h3, _, _⟩ := above_internal ⟨b, hb⟩ hk ha
    exact ⟨_, h3, h1, h2⟩

theorem exists_below_gaps : ∀ L : List ℚ, ∃ e : ℚ, 0 < e ∧ ∀ g ∈ L, 0 < g → e < g
  | [] => ⟨1, one_pos, by simp⟩
  | a :: L => by
    obtain ⟨e, he, h⟩ := exists_below_gaps L
    by_cases ha : 0 < a
    · refine ⟨min e (a / 2), lt_min he (by linarith), fun g hg hp => ?_⟩
      rcases List.mem_cons.1 hg with rfl | hg
      · exact lt_of_le_of_lt (min_le_right _ _) (by linarith)
      · exact lt_of_le_of_lt (min_le_left _ _) (h g hg hp)
    · refine ⟨e, he, fun g hg hp => ?_⟩
      rcases List.mem_cons.1 hg with rfl | hg
      · exact absurd hp ha
      · exact h g hg hp

/-- the tests of the cached version are the usual ones of an observation moved up a little -/
theorem satCO_nudge {ts : List TreeArr} {m : Nat} (hts : ∀ t ∈ ts, WellFormed t m) (x : Row) :
    ∃ e : ℚ, 0 < e ∧ ∀ d, 0 < d → d ≤ e → ∀ t ∈ ts, ∀ ℓ ∈ t.leafIdx, ∀ S,
      satCO (t.leafRect ℓ) S x = sat (t.leafRect ℓ) S fun j => x j + d := by
  obtain ⟨e, he, hg⟩ := exists_below_gaps (ts.flatMap fun t => (List.range t.size).map fun n => t.threshold n - x (t.feature n).toNat)
  refine ⟨e, he, fun d hd hde t ht ℓ hℓ S => ?_⟩
  have key : ∀ n < t.size, (t.threshold n ≤ x (t.feature n).toNat ↔ t.threshold n < x (t.feature n).toNat + d) := by
    intro n hn
    constructor
    · intro h; linarith
    · intro h
      by_contra h2
      have := hg (t.threshold n - x (t.feature n).toNat)
        (List.mem_flatMap.2 ⟨t, ht, List.mem_map.2 ⟨n, List.mem_range.2 hn, rfl⟩⟩) (by linarith [not_le.1 h2])
      linarith
  have hlo : ∀ s l, (t.leafRect ℓ s).lo = some l → (l ≤ x s ↔ l < x s + d) := by
    intro s l h
    obtain ⟨n, hn, rfl, rfl⟩ := lo_is_threshold (hts t ht) hℓ h
    exact key n hn
  have hhi : ∀ s l, (t.leafRect ℓ s).hi = some l → (x s < l ↔ x s + d ≤ l) := by
    intro s l h
    obtain ⟨n, hn, rfl, rfl⟩ := hi_is_threshold (hts t ht) hℓ h
    exact not_le.symm.trans ((not_congr (key n hn)).trans not_lt)
  unfold satCO sat
  congr 1
  funext s
  unfold Ival.memCO Ival.memOC
  rcases h1 : (t.leafRect ℓ s).lo with _ | l <;> rcases h2 : (t.leafRect ℓ s).hi with _ | u <;> simp only []
  · rw [decide_eq_decide.2 (hhi s u h2)]
  · rw [decide_eq_decide.2 (hlo s l h1)]
  · rw [decide_eq_decide.2 (hhi s u h2), decide_eq_decide.2 (hlo s l h1)]

/-! ### conditional expectations -/

theorem sum_filter_map {α : Type} (l : List α) (p : α → Bool) (f : α → ℚ) :
    ((l.filter p).map f).sum = (l.map fun a => if p a then f a else 0).sum := by
  induction l with
  | nil => rfl
  | cons a l ih =>
    rw [List.filter_cons]
    by_cases h : p a = true <;> simp [h, ih]

/-- the tree's value when no fitting leaf has an empty neighbourhood -/
theorem expNormTree_pos {t : TreeArr} {m : Nat} {data : List Row} {S : List Nat} {x : Row} (k : Nat)
    (h : ∀ ℓ ∈ t.leafIdx, satCC (t.leafRect ℓ) S x = true → cnt data (t.leafRect ℓ) S ≠ 0) :
    expNormTree t m data S x k = some ((t.leafIdx.map fun ℓ => t.value ℓ k *
      ((if satCC (t.leafRect ℓ) S x then (cntCC data (t.leafRect ℓ) (List.range m) : ℚ) / cnt data (t.leafRect ℓ) S else 0) /
        (t.leafIdx.map fun ℓ => if satCC (t.leafRect ℓ) S x then (cntCC data (t.leafRect ℓ) (List.range m) : ℚ) / cnt data (t.leafRect ℓ) S else 0).sum)).sum) := by
  unfold expNormTree
  simp only
  rw [if_neg, if_neg]
  · rw [sum_filter_map, sum_filter_map]
    congr 2
    apply List.map_congr_left
    intro ℓ _
    rw [guardDiv_eq, guardDiv_eq]
    split
    · ring
    · simp
  · simp only [List.any_eq_true, List.mem_filter, decide_eq_true_eq, not_exists, not_and, and_imp]
    intro ℓ hℓ hs h0
    exact h ℓ hℓ hs h0
  · simp only [List.any_eq_true, List.mem_filter, decide_eq_true_eq, not_exists, not_and, and_imp]
    intro ℓ hℓ hs h0
    exact absurd h0 (h ℓ hℓ hs)

theorem leafShare_single {m : Nat} (data : List Row) (r : Rect) (x : Row) (S : List Nat) :
    leafShare m data r x (S.map ([·])).toFinset
      = if sat r S x then (cnt data r (List.range m) : ℚ) / cnt data r S else 0 := by
  have hS : (S.map ([·])).flatten = S := by induction S <;> simp_all
  have := share_eq (m := m) data r x (S.map ([·]))
  rw [hS] at this
  rw [← this]
  split <;> simp

theorem osum_map_some {ι : Type} (l : List ι) (f : ι → ℚ) : osum (l.map fun a => some (f a)) = some (l.map f).sum :=
  osum_of_forall l _ f (fun _ _ => rfl)

theorem osum_congr {ι : Type} {l : List ι} {f : ι → Option ℚ} {g : ι → ℚ} (h : ∀ a ∈ l, f a = some (g a)) :
    osum (l.map f) = some (l.map g).sum := osum_of_forall l f g h

/-- off the thresholds, and if no fitting leaf has an empty neighbourhood, the value is the normalised game -/
theorem expNormCy_eq {ts : List TreeArr} {m : Nat} (hts : ∀ t ∈ ts, WellFormed t m) {data : List Row} (S : List Nat)
    {x : Row} (k : Nat) (hx : ∀ t ∈ ts, OffSplits t x) (hd : ∀ t ∈ ts, ∀ z ∈ data, OffSplits t z)
    (h : ∀ t ∈ ts, ∀ ℓ ∈ t.leafIdx, sat (t.leafRect ℓ) S x = true → cnt data (t.leafRect ℓ) S ≠ 0) :
    expNormCy ts m data S x k = some (normGame ts m data x k (S.map ([·])).toFinset) := by
  unfold expNormCy normGame
  apply osum_congr
  intro t ht
  have hcc : ∀ ℓ ∈ t.leafIdx, satCC (t.leafRect ℓ) S x = sat (t.leafRect ℓ) S x := fun ℓ hℓ =>
    satCC_eq (offSplits_lo (hts t ht) (hx t ht) hℓ)
  rw [expNormTree_pos k (fun ℓ hℓ hs => h t ht ℓ hℓ (by rw [← hcc ℓ hℓ]; exact hs))]
  have e : ∀ ℓ ∈ t.leafIdx, (if satCC (t.leafRect ℓ) S x then (cntCC data (t.leafRect ℓ) (List.range m) : ℚ) / cnt data (t.leafRect ℓ) S else 0)
      = leafShare m data (t.leafRect ℓ) x (S.map ([·])).toFinset := by
    intro ℓ hℓ
    rw [leafShare_single, hcc ℓ hℓ, cntCC_eq fun z hz => offSplits_lo (hts t ht) (hd t ht z hz) hℓ]
  rw [List.map_congr_left e]
  congr 2
  apply List.map_congr_left
  intro ℓ hℓ
  rw [e ℓ hℓ]
  rfl

theorem satCC_of_sat {r : Rect} {S : List Nat} {z : Row} (h : sat r S z = true) : satCC r S z = true := by
  unfold satCC
  unfold sat at h
  rw [List.all_eq_true] at h ⊢
  intro s hs
  have := h s hs
  rcases hr : r s with ⟨_ | l, _ | u⟩ <;> simp only [hr, Ival.memCC, Ival.memOC, Bool.and_eq_true, decide_eq_true_eq] at this ⊢ <;>
    grind

theorem cntCC_ge {data : List Row} {r : Rect} {S : List Nat} : cnt data r S ≤ cntCC data r S := by
  unfold cnt cntCC
  exact (List.monotone_filter_right _ fun z hz => satCC_of_sat hz).length_le

end Acv

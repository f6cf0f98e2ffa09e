import Verif.Spec.Rules
import Mathlib.Algebra.Order.Ring.Rat
import Mathlib.Tactic.NormNum

/-!
# C38: removal of nested rules
-/

namespace Acv

theorem boxIn_iff {m : Nat} {a b : Box} : boxIn m a b = true ↔ BoxIncl m a b := by
  unfold boxIn BoxIncl
  simp only [List.all_eq_true, List.mem_range, Bool.and_eq_true, decide_eq_true_eq]
  exact forall₂_congr fun _ _ => and_comm

theorem BoxIncl.refl (m : Nat) (a : Box) : BoxIncl m a a := fun _ _ => ⟨le_rfl, le_rfl⟩

theorem BoxIncl.trans {m : Nat} {a b c : Box} (h : BoxIncl m a b) (h' : BoxIncl m b c) : BoxIncl m a c :=
  fun s hs => ⟨le_trans (h' s hs).1 (h s hs).1, le_trans (h s hs).2 (h' s hs).2⟩

theorem BoxIncl.antisymm {m : Nat} {a b : Box} (ha : a.length = m) (hb : b.length = m) (h : BoxIncl m a b) (h' : BoxIncl m b a) :
    a = b := by
  apply List.ext_getElem (by omega)
  intro s h1 h2
  have e := h s (by omega)
  have e' := h' s (by omega)
  simp only [List.getD_eq_getElem?_getD, List.getElem?_eq_getElem h1, List.getElem?_eq_getElem h2, Option.getD_some] at e e'
  exact Prod.ext (le_antisymm e'.1 e.1) (le_antisymm e.2 e'.2)

theorem BoxIncl.inBox {m : Nat} {a b : Box} (h : BoxIncl m a b) {z : Row} (hz : InBoxM m a z) : InBoxM m b z :=
  fun s hs => ⟨le_trans (h s hs).1 (hz s hs).1, le_trans (hz s hs).2 (h s hs).2⟩

theorem mem_npUnique {l : List Box} {b : Box} : b ∈ npUnique l ↔ b ∈ l := by
  unfold npUnique
  rw [List.mem_insertionSort, List.mem_dedup]

theorem npUnique_nodup (l : List Box) : (npUnique l).Nodup := by
  unfold npUnique
  exact ((List.perm_insertionSort _ _).nodup_iff).2 (List.nodup_dedup _)

/-- The values are among the former ones and cover them. -/
structure Shrinks (m : Nat) (l l' : List Box) : Prop where
  len : l'.length = l.length
  sub : ∀ r ∈ l', r ∈ l
  cov : ∀ r ∈ l, ∃ r' ∈ l', BoxIncl m r r'

theorem Shrinks.refl (m : Nat) (l : List Box) : Shrinks m l l := ⟨rfl, fun _ h => h, fun r h => ⟨r, h, BoxIncl.refl _ _⟩⟩

theorem Shrinks.trans {m : Nat} {a b c : List Box} (h : Shrinks m a b) (h' : Shrinks m b c) : Shrinks m a c where
  len := h'.len.trans h.len
  sub := fun r hr => h.sub r (h'.sub r hr)
  cov := fun r hr => by
    obtain ⟨r', hr', h1⟩ := h.cov r hr
    obtain ⟨r'', hr'', h2⟩ := h'.cov r' hr'
    exact ⟨r'', hr'', h1.trans h2⟩

theorem getD_mem {l : List Box} {j : Nat} (h : j < l.length) : l.getD j [] ∈ l := by
  rw [List.getD_eq_getElem?_getD, List.getElem?_eq_getElem h]
  exact List.getElem_mem h

theorem exists_getD {l : List Box} {r : Box} (h : r ∈ l) : ∃ j < l.length, l.getD j [] = r := by
  obtain ⟨j, hj, rfl⟩ := List.getElem_of_mem h
  exact ⟨j, hj, by rw [List.getD_eq_getElem?_getD, List.getElem?_eq_getElem hj]; rfl⟩

theorem getD_set_self {l : List Box} {i : Nat} (h : i < l.length) (b : Box) : (l.set i b).getD i [] = b := by
  simp [List.getD_eq_getElem?_getD, h]

theorem getD_set_ne {l : List Box} {i j : Nat} (h : i ≠ j) (b : Box) : (l.set i b).getD j [] = l.getD j [] := by
  simp [List.getD_eq_getElem?_getD, List.getElem?_set, h]

theorem set_shrinks {m : Nat} {l : List Box} {i j : Nat} (hi : i < l.length) (hj : j < l.length) (hne : i ≠ j)
    (hin : BoxIncl m (l.getD i []) (l.getD j [])) : Shrinks m l (l.set i (l.getD j [])) where
  len := by simp
  sub := fun r hr => by
    rcases List.mem_or_eq_of_mem_set hr with h | h
    · exact h
    · rw [h]; exact getD_mem hj
  cov := fun r hr => by
    obtain ⟨k, hk, rfl⟩ := exists_getD hr
    by_cases hki : k = i
    · subst hki
      refine ⟨l.getD j [], ?_, hin⟩
      have := getD_mem (l := l.set k (l.getD j [])) (j := k) (by simpa using hk)
      rwa [getD_set_self hk] at this
    · refine ⟨l.getD k [], ?_, BoxIncl.refl _ _⟩
      have := getD_mem (l := l.set i (l.getD j [])) (j := k) (by simpa using hk)
      rwa [getD_set_ne (Ne.symm hki)] at this

/-- The inner loop. -/
theorem removeInRow_aux {m i n : Nat} : ∀ (js done : List Nat) (l : List Box), l.length = n → i < n → (∀ j ∈ js, j < n) →
    (∀ r ∈ l, r.length = m) → (∀ j ∈ done, j < n) →
    (∀ j ∈ done, BoxIncl m (l.getD i []) (l.getD j []) → l.getD j [] = l.getD i []) →
    let l' := js.foldl (fun ra j => if i ≠ j ∧ boxIn m (ra.getD i []) (ra.getD j []) = true then ra.set i (ra.getD j []) else ra) l
    Shrinks m l l' ∧ (∀ k, k ≠ i → l'.getD k [] = l.getD k []) ∧
    ∀ j ∈ done ++ js, BoxIncl m (l'.getD i []) (l'.getD j []) → l'.getD j [] = l'.getD i []
  | [], done, l, _, _, _, _, _, hinv => by
    refine ⟨Shrinks.refl _ _, fun _ _ => rfl, ?_⟩
    simpa using hinv
  | j :: js, done, l, hn, hi, hjs, hlen, hd, hinv => by
    have hj : j < n := hjs j (by simp)
    simp only [List.foldl_cons]
    by_cases hc : i ≠ j ∧ boxIn m (l.getD i []) (l.getD j []) = true
    · rw [if_pos hc]
      have hin := boxIn_iff.1 hc.2
      have hs := set_shrinks (m := m) (hn ▸ hi) (hn ▸ hj) hc.1 hin
      have gi : (l.set i (l.getD j [])).getD i [] = l.getD j [] := getD_set_self (hn ▸ hi) _
      have lm : ∀ k < n, (l.getD k []).length = m := fun k hk => hlen _ (getD_mem (hn ▸ hk))
      obtain ⟨h1, h2, h3⟩ := removeInRow_aux (m := m) (i := i) (n := n) js (done ++ [j]) (l.set i (l.getD j [])) (by simpa using hn) hi
        (fun k hk => hjs k (by simp [hk])) (fun r hr => hlen r (hs.sub r hr))
        (fun k hk => by
          rcases List.mem_append.1 hk with hk | hk
          · exact hd k hk
          · rw [List.mem_singleton.1 hk]; exact hj)
        (fun k hk hincl => by
          rw [gi] at hincl ⊢
          by_cases hki : k = i
          · subst hki; exact gi
          · rw [getD_set_ne (Ne.symm hki)] at hincl ⊢
            rcases List.mem_append.1 hk with hk | hk
            · have e := hinv k hk (hin.trans hincl)
              rw [e] at hincl
              rw [e]
              exact BoxIncl.antisymm (lm i hi) (lm j hj) hin hincl
            · rw [List.mem_singleton.1 hk])
      refine ⟨hs.trans h1, fun k hk => (h2 k hk).trans (getD_set_ne (Ne.symm hk) _), ?_⟩
      simpa using h3
    · rw [if_neg hc]
      obtain ⟨h1, h2, h3⟩ := removeInRow_aux (m := m) (i := i) (n := n) js (done ++ [j]) l hn hi
        (fun k hk => hjs k (by simp [hk])) hlen
        (fun k hk => by
          rcases List.mem_append.1 hk with hk | hk
          · exact hd k hk
          · rw [List.mem_singleton.1 hk]; exact hj)
        (fun k hk hincl => by
          rcases List.mem_append.1 hk with hk | hk
          · exact hinv k hk hincl
          · rw [List.mem_singleton.1 hk] at hincl ⊢
            by_cases hij : i = j
            · rw [hij]
            · exact absurd ⟨hij, boxIn_iff.2 hincl⟩ hc)
      refine ⟨h1, h2, ?_⟩
      simpa using h3

/-- No element of `l` strictly contains `r`. -/
def MaximalIn (m : Nat) (l : List Box) (r : Box) : Prop := ∀ r' ∈ l, BoxIncl m r r' → r' = r

theorem removeInRow_spec {m i : Nat} {l : List Box} (hi : i < l.length) (hlen : ∀ r ∈ l, r.length = m) :
    Shrinks m l (removeInRow m i l) ∧ (∀ k, k ≠ i → (removeInRow m i l).getD k [] = l.getD k []) ∧
      MaximalIn m (removeInRow m i l) ((removeInRow m i l).getD i []) := by
  obtain ⟨h1, h2, h3⟩ := removeInRow_aux (m := m) (i := i) (n := l.length) (List.range l.length) [] l rfl hi
    (fun j hj => List.mem_range.1 hj) hlen (by simp) (by simp)
  refine ⟨h1, h2, ?_⟩
  intro r' hr' hincl
  obtain ⟨k, hk, rfl⟩ := exists_getD hr'
  have hlen' := h1.len
  exact h3 k (by simp only [List.nil_append, List.mem_range]; unfold removeInRow at hk; omega) hincl

theorem removeIn_aux {m n : Nat} : ∀ (is done : List Nat) (l : List Box), l.length = n → (∀ i ∈ is, i < n) →
    (∀ r ∈ l, r.length = m) → (∀ i ∈ done, MaximalIn m l (l.getD i [])) →
    let l' := is.foldl (fun ra i => removeInRow m i ra) l
    Shrinks m l l' ∧ ∀ i ∈ done ++ is, MaximalIn m l' (l'.getD i [])
  | [], done, l, _, _, _, hd => by
    refine ⟨Shrinks.refl _ _, ?_⟩
    simpa using hd
  | i :: is, done, l, hn, his, hlen, hd => by
    have hi : i < l.length := hn ▸ his i (by simp)
    obtain ⟨h1, h2, h3⟩ := removeInRow_spec (m := m) hi hlen
    obtain ⟨g1, g2⟩ := removeIn_aux (m := m) (n := n) is (done ++ [i]) (removeInRow m i l) (h1.len.trans hn)
      (fun k hk => his k (by simp [hk])) (fun r hr => hlen r (h1.sub r hr))
      (fun k hk => by
        by_cases hki : k = i
        · rw [hki]; exact h3
        · rw [h2 k hki]
          intro r' hr' hincl
          rcases List.mem_append.1 hk with hk | hk
          · exact hd k hk r' (h1.sub r' hr') hincl
          · exact absurd (List.mem_singleton.1 hk) hki)
    refine ⟨h1.trans g1, ?_⟩
    simpa using g2

/-- **C38, `remove_in`.** For every list of rules (with duplicates or not): the kept rules are distinct; a rule is kept exactly when it
is in the list and no other rule of the list strictly contains it; every rule is included in a kept one, so that exactly the same
observations are covered. -/
theorem C38_remove_in {m : Nat} {ra : List Box} (hlen : ∀ r ∈ ra, r.length = m) :
    (removeIn m ra).Nodup ∧
    (∀ r, r ∈ removeIn m ra ↔ r ∈ ra ∧ ∀ r' ∈ ra, BoxIncl m r r' → r' = r) ∧
    (∀ r ∈ ra, ∃ r' ∈ removeIn m ra, BoxIncl m r r') ∧
    (∀ z, (∃ r ∈ ra, InBoxM m r z) ↔ ∃ r ∈ removeIn m ra, InBoxM m r z) := by
  obtain ⟨hs, hmax⟩ := removeIn_aux (m := m) (n := ra.length) (List.range ra.length) [] ra rfl
    (fun i hi => List.mem_range.1 hi) hlen (by simp)
  have hmem : ∀ r, r ∈ removeIn m ra ↔ r ∈ (List.range ra.length).foldl (fun ra i => removeInRow m i ra) ra :=
    fun r => mem_npUnique
  have hcov : ∀ r ∈ ra, ∃ r' ∈ removeIn m ra, BoxIncl m r r' := by
    intro r hr
    obtain ⟨r', hr', h⟩ := hs.cov r hr
    exact ⟨r', (hmem r').2 hr', h⟩
  have hmx : ∀ r ∈ removeIn m ra, ∀ r' ∈ removeIn m ra, BoxIncl m r r' → r' = r := by
    intro r hr r' hr' hincl
    obtain ⟨i, hi, rfl⟩ := exists_getD ((hmem r).1 hr)
    exact hmax i (by simp only [List.nil_append, List.mem_range]; have := hs.len; omega) r' ((hmem r').1 hr') hincl
  refine ⟨npUnique_nodup _, ?_, hcov, ?_⟩
  · intro r
    constructor
    · intro hr
      have hra := hs.sub r ((hmem r).1 hr)
      refine ⟨hra, fun r' hr' hincl => ?_⟩
      obtain ⟨r'', hr'', h2⟩ := hcov r' hr'
      have e := hmx r hr r'' hr'' (hincl.trans h2)
      rw [e] at h2
      exact BoxIncl.antisymm (hlen r' hr') (hlen r hra) h2 hincl
    · rintro ⟨hra, hall⟩
      obtain ⟨r', hr', h⟩ := hcov r hra
      rw [← hall r' (hs.sub r' ((hmem r').1 hr')) h]
      exact hr'
  · intro z
    constructor
    · rintro ⟨r, hr, hz⟩
      obtain ⟨r', hr', h⟩ := hcov r hr
      exact ⟨r', hr', h.inBox hz⟩
    · rintro ⟨r, hr, hz⟩
      exact ⟨r, hs.sub r ((hmem r).1 hr), hz⟩

example : removeIn 2 [[(0, 1), (0, 1)], [(0, 2), (0, 1)], [(0, 1), (0, 3)], [(0, 2), (0, 1)], [(1/2, 1), (1, 2)]] =
    [[(0, 1), (0, 3)], [(0, 2), (0, 1)]] := by decide +kernel

/-! ## `remove_in_wsdp` -/

theorem npDelete_eq {α : Type} (d : α) (l : List α) (rm : List Nat) :
    npDelete l rm = ((List.range l.length).filter fun j => decide (j ∉ rm)).map fun j => l.getD j d := by
  unfold npDelete
  rw [List.zipIdx_eq_zip_range', List.range_eq_range']
  have : ∀ (l : List α) (a : Nat) (g : Nat → α), (∀ j, j < l.length → g (a + j) = l.getD j d) →
      (((l.zip (List.range' a l.length)).filter fun p => decide (p.2 ∉ rm)).map Prod.fst) =
        ((List.range' a l.length).filter fun j => decide (j ∉ rm)).map g := by
    intro l
    induction l with
    | nil => intro a g _; rfl
    | cons b l ih =>
      intro a g hg
      rw [List.length_cons, List.range'_succ, List.zip_cons_cons, List.filter_cons, List.filter_cons]
      have h0 := hg 0 (by simp)
      have ih' := ih (a + 1) g (fun j hj => by
        have := hg (j + 1) (by simpa using hj)
        rw [show a + 1 + j = a + (j + 1) by omega, this]
        simp)
      by_cases hc : a ∉ rm
      · simp only [hc, not_false_eq_true, decide_true, if_true, List.map_cons, ih']
        congr 1
        simpa using h0.symm
      · simp only [hc, decide_false, if_false, Bool.false_eq_true, ih']
  exact this l 0 _ (fun j _ => by simp)

theorem mem_removeList {m : Nat} {ra : List Box} {j : Nat} (hj : j < ra.length) :
    j ∈ removeList m ra ↔ ∃ i < ra.length, i ≠ j ∧ BoxIncl m (ra.getD i []) (ra.getD j []) := by
  unfold removeList
  simp only [List.mem_flatMap, List.mem_filter, List.mem_range, Bool.and_eq_true, decide_eq_true_eq, boxIn_iff]
  exact ⟨fun ⟨i, hi, _, h⟩ => ⟨i, hi, h⟩, fun ⟨i, hi, h⟩ => ⟨i, hi, hj, h⟩⟩

/-- What C38 asks of `remove_in_wsdp`: the same observations are covered. -/
def C38_wsdp_claim : Prop :=
  ∀ (m : Nat) (ra : List Box) (sa : List ℚ) (wa : List Nat), (∀ r ∈ ra, r.length = m) → sa.length = ra.length → wa.length = ra.length →
    ∀ z, (∃ r ∈ ra, InBoxM m r z) → ∃ r ∈ (removeInWsdp m ra sa wa).1, InBoxM m r z

/-- **C38, partial, `remove_in_wsdp`.** For every list of rules: the rules, probabilities and weights of the same positions are
kept (each kept rule keeps its own probability and weights); a position is kept exactly when no other rule is included in its rule;
no kept rule is included in another kept rule. Missing (false): the coverage; the *larger* rule of a nested pair is removed. -/
theorem C38_wsdp_partial {α : Type} (d : α) {m : Nat} {ra : List Box} {sa : List ℚ} {wa : List α} (hs : sa.length = ra.length)
    (hw : wa.length = ra.length) :
    ∃ keep : List Nat, keep.Sublist (List.range ra.length) ∧
      (removeInWsdp m ra sa wa).1 = keep.map (fun j => ra.getD j []) ∧
      (removeInWsdp m ra sa wa).2.1 = keep.map (fun j => sa.getD j 0) ∧
      (removeInWsdp m ra sa wa).2.2 = keep.map (fun j => wa.getD j d) ∧
      (∀ j < ra.length, j ∈ keep ↔ ∀ i < ra.length, i ≠ j → ¬ BoxIncl m (ra.getD i []) (ra.getD j [])) ∧
      ∀ i ∈ keep, ∀ j ∈ keep, i ≠ j → ¬ BoxIncl m (ra.getD i []) (ra.getD j []) := by
  have hk : ∀ j < ra.length, j ∈ ((List.range ra.length).filter fun j => decide (j ∉ removeList m ra)) ↔
      ∀ i < ra.length, i ≠ j → ¬ BoxIncl m (ra.getD i []) (ra.getD j []) := by
    intro j hj
    rw [List.mem_filter, decide_eq_true_eq, mem_removeList hj]
    simp only [List.mem_range, hj, true_and, not_exists, not_and]
  refine ⟨(List.range ra.length).filter fun j => decide (j ∉ removeList m ra), List.filter_sublist, npDelete_eq _ _ _, ?_, ?_, hk, ?_⟩
  · have := npDelete_eq (0 : ℚ) sa (removeList m ra)
    rw [hs] at this
    exact this
  · have := npDelete_eq d wa (removeList m ra)
    rw [hw] at this
    exact this
  · intro i hi j hj hne
    have hjl := List.mem_range.1 (List.mem_filter.1 hj).1
    exact (hk j hjl).1 hj i (List.mem_range.1 (List.mem_filter.1 hi).1) hne

example : removeInWsdp 1 [[(0, 2)], [(3, 4)], [(0, 1)]] [9/10, 8/10, 7/10] [10, 20, 30] = ([[(3, 4)], [(0, 1)]], [8/10, 7/10], [20, 30]) := by
  decide +kernel

/-- **C38, the coverage claim of `remove_in_wsdp` is false**: of `[0, 1]` and `[0, 2]` it keeps `[0, 1]`. -/
theorem C38_wsdp_coverage_false : ¬ C38_wsdp_claim := by
  intro h
  have hin : InBoxM 1 [(0, 2)] (fun _ => 2) := by
    intro s hs
    obtain rfl : s = 0 := by omega
    norm_num
  obtain ⟨r, hr, hz⟩ := h 1 [[(0, 1)], [(0, 2)]] [9/10, 1] [0, 0] (by decide) rfl rfl (fun _ => 2) ⟨[(0, 2)], by simp, hin⟩
  have e : (removeInWsdp 1 [[(0, 1)], [(0, 2)]] [9/10, 1] [0, 0]).1 = [[(0, 1)]] := by decide +kernel
  rw [e] at hr
  rw [List.mem_singleton.1 hr] at hz
  have := (hz 0 (by decide)).2
  norm_num at this

/-- **C38, duplicates.** A rule present twice disappears entirely; a list of at least two equal rules becomes empty. -/
theorem C38_wsdp_duplicates_vanish {α : Type} {m : Nat} (b : Box) (n : Nat) (sa : List ℚ) (wa : List α) :
    (removeInWsdp m (List.replicate (n + 2) b) sa wa).1 = [] := by
  show npDelete _ _ = []
  rw [npDelete_eq ([] : Box), List.map_eq_nil_iff, List.filter_eq_nil_iff]
  intro j hj
  have hj' : j < (List.replicate (n + 2) b).length := List.mem_range.1 hj
  rw [decide_eq_true_eq, not_not, mem_removeList hj']
  rw [List.length_replicate] at hj'
  have hg : ∀ i < n + 2, (List.replicate (n + 2) b).getD i [] = b := by
    intro i hi
    simp [List.getD_eq_getElem?_getD, hi]
  by_cases h0 : j = 0
  · refine ⟨1, by simp, by omega, ?_⟩
    rw [hg 1 (by omega), hg j hj']
    exact BoxIncl.refl _ _
  · refine ⟨0, by simp, by omega, ?_⟩
    rw [hg 0 (by omega), hg j hj']
    exact BoxIncl.refl _ _

/-- **C38, the older `remove_in_wsdp(ra, sa)` is false too**: rules and probabilities are sorted separately, so that the rule
`[0, 1]` of probability 9/10 is reported with 8/10, and equal probabilities collapse. -/
theorem C38_old_wsdp_pairing_false :
    removeInWsdpOld 1 [[(0, 1)], [(2, 3)]] [9/10, 8/10] = ([[(0, 1)], [(2, 3)]], [8/10, 9/10]) ∧
    removeInWsdpOld 1 [[(0, 1)], [(2, 3)]] [9/10, 9/10] = ([[(0, 1)], [(2, 3)]], [9/10]) := by
  decide +kernel

/-- A rule as one row of numbers. -/
def flatBox (b : Box) : List ℚ := b.flatMap fun p => [p.1, p.2]

theorem boxLe_iff : ∀ (a b : Box), boxLe a b = true ↔ flatBox a ≤ flatBox b
  | [], b => by simp [boxLe, flatBox]
  | p :: a, [] => by simp [boxLe, flatBox]
  | p :: a, q :: b => by
    have ih := boxLe_iff a b
    have e : ∀ (p : ℚ × ℚ) (a : Box), flatBox (p :: a) = p.1 :: p.2 :: flatBox a := fun p a => rfl
    rw [e, e, boxLe, List.cons_le_cons_iff, List.cons_le_cons_iff, ← ih]
    rcases lt_trichotomy p.1 q.1 with h1 | h1 | h1
    · simp [h1]
    · rw [h1]
      rcases lt_trichotomy p.2 q.2 with h2 | h2 | h2
      · simp [h2]
      · simp [h2]
      · simp [h2, h2.ne', not_lt.2 h2.le]
    · simp [h1, h1.ne', not_lt.2 h1.le]

theorem flatBox_inj : ∀ {a b : Box}, flatBox a = flatBox b → a = b
  | [], [], _ => rfl
  | [], _ :: _, h => by simp [flatBox] at h
  | _ :: _, [], h => by simp [flatBox] at h
  | p :: a, q :: b, h => by
    have e : ∀ (p : ℚ × ℚ) (a : Box), flatBox (p :: a) = p.1 :: p.2 :: flatBox a := fun p a => rfl
    rw [e, e] at h
    obtain ⟨h1, h⟩ := List.cons.inj h
    obtain ⟨h2, h⟩ := List.cons.inj h
    rw [flatBox_inj h, Prod.ext h1 h2]

/-- **C38**: `np.unique(axis=0)` gives the distinct rows, in strictly increasing lexicographic order. -/
theorem C38_unique_sorted (l : List Box) : (npUnique l).Pairwise (fun a b => flatBox a < flatBox b) ∧ ∀ b, b ∈ npUnique l ↔ b ∈ l := by
  have hmem : ∀ b, b ∈ npUnique l ↔ b ∈ l := by
    intro b
    unfold npUnique
    rw [List.mem_insertionSort, List.mem_dedup]
  refine ⟨?_, hmem⟩
  have : Std.Total (fun a b : Box => boxLe a b = true) := ⟨fun a b => by rw [boxLe_iff, boxLe_iff]; exact List.le_total _ _⟩
  have : IsTrans Box (fun a b : Box => boxLe a b = true) := ⟨fun a b c => by rw [boxLe_iff, boxLe_iff, boxLe_iff]; exact List.le_trans⟩
  have hs : (npUnique l).Pairwise (fun a b => boxLe a b = true) := List.pairwise_insertionSort _ _
  have hn : (npUnique l).Nodup := (List.perm_insertionSort _ _).nodup_iff.2 (List.nodup_dedup l)
  refine (hs.and hn).imp ?_
  intro a b ⟨h1, h2⟩
  exact (List.le_iff_lt_or_eq.1 ((boxLe_iff a b).1 h1)).resolve_right fun h => h2 (flatBox_inj h)

end Acv

import Verif.Model.LeafCache
import Verif.Props.Shapley

/-!
# C12: cached and uncached Shapley values
-/

namespace Acv

theorem count_flatMap_zipIdx {α κ : Type} [BEq κ] [LawfulBEq κ] (l : List α) (f : α → Nat → List κ) (key : κ) {i0 : Nat}
    {a0 : α} (s : Nat) (h0 : (a0, i0) ∈ l.zipIdx s) (h : ∀ a i, i ≠ i0 → key ∉ f a i) :
    ((l.zipIdx s).flatMap fun p => f p.1 p.2).count key = (f a0 i0).count key := by
  induction l generalizing s with
  | nil => simp at h0
  | cons a l ih =>
    rw [List.zipIdx_cons, List.flatMap_cons, List.count_append]
    rw [List.zipIdx_cons] at h0
    rcases List.mem_cons.mp h0 with he | hm
    · cases he
      have : ((l.zipIdx (i0 + 1)).flatMap fun p => f p.1 p.2).count key = 0 := by
        apply List.count_eq_zero_of_not_mem
        intro hk
        obtain ⟨p, hp, hpk⟩ := List.mem_flatMap.mp hk
        refine h p.1 p.2 ?_ hpk
        have := List.le_snd_of_mem_zipIdx hp
        omega
      rw [this, Nat.add_zero]
    · rw [ih (s + 1) hm, List.count_eq_zero_of_not_mem, Nat.zero_add]
      apply h
      have := List.le_snd_of_mem_zipIdx hm
      simp only at this
      omega

theorem count_flatMap_range {κ : Type} [BEq κ] [LawfulBEq κ] (n : Nat) (f : Nat → List κ) (key : κ) {i0 : Nat} (h0 : i0 < n)
    (h : ∀ i, i ≠ i0 → key ∉ f i) : ((List.range n).flatMap f).count key = (f i0).count key := by
  induction n with
  | zero => omega
  | succ n ih =>
    rw [List.range_succ, List.flatMap_append, List.count_append]
    simp only [List.flatMap_cons, List.flatMap_nil, List.append_nil]
    by_cases he : i0 = n
    · subst he
      have : ((List.range i0).flatMap f).count key = 0 := by
        apply List.count_eq_zero_of_not_mem
        intro hk
        obtain ⟨p, hp, hpk⟩ := List.mem_flatMap.mp hk
        exact h p (by have := List.mem_range.mp hp; omega) hpk
      rw [this, Nat.zero_add]
    · rw [ih (by omega), List.count_eq_zero_of_not_mem (h n (Ne.symm he)), Nat.add_zero]

theorem count_map_const {α κ : Type} [BEq κ] [LawfulBEq κ] (l : List α) (key : κ) : (l.map fun _ => key).count key = l.length := by
  induction l with
  | nil => rfl
  | cons a l ih => simp [ih]

theorem cacheLm_count (ts : List TreeArr) (m : Nat) (data : List Row) {t : TreeArr} {b ℓ lf : Nat}
    (ht : (t, b) ∈ ts.zipIdx) (hℓ : (ℓ, lf) ∈ t.leafIdx.zipIdx) :
    (cacheLm ts m data).count (b, lf) = cnt data (t.leafRect ℓ) (List.range m) := by
  unfold cacheLm
  rw [count_flatMap_zipIdx ts (fun t b => t.leafIdx.zipIdx.flatMap fun lf =>
    (data.filter (sat (t.leafRect lf.1) (List.range m))).map fun _ => (b, lf.2)) (b, lf) 0 ht]
  · rw [count_flatMap_zipIdx t.leafIdx (fun l i =>
      (data.filter (sat (t.leafRect l) (List.range m))).map fun _ => (b, i)) (b, lf) 0 hℓ]
    · rw [count_map_const]; rfl
    · intro a i hi hmem
      obtain ⟨_, _, he⟩ := List.mem_map.mp hmem
      simp only [Prod.mk.injEq] at he
      exact hi he.2
  · intro a i hi hmem
    obtain ⟨_, _, hmem⟩ := List.mem_flatMap.mp hmem
    obtain ⟨_, _, he⟩ := List.mem_map.mp hmem
    simp only [Prod.mk.injEq] at he
    exact hi he.1

theorem cacheLmS_count (ts : List TreeArr) (m : Nat) (data : List Row) (C : List (List Nat)) (w : Bool) {t : TreeArr}
    {b ℓ lf va counter : Nat} {g : List Nat}
    (ht : (t, b) ∈ ts.zipIdx) (hℓ : (ℓ, lf) ∈ t.leafIdx.zipIdx) (hg : (g, va) ∈ (playersCy m C).zipIdx)
    (hgn : g ∈ leafPlayersCy m C (t.leafCols ℓ))
    (hc : counter < 2 ^ ((leafPlayersCy m C (t.leafCols ℓ)).erase g).length) :
    (cacheLmS ts m data C w).count (b, va, lf, counter) =
      (data.filter fun z => sat (t.leafRect ℓ) (maskSel ((leafPlayersCy m C (t.leafCols ℓ)).erase g) counter).flatten z &&
            (!w || sat (t.leafRect ℓ) g z)).length := by
  unfold cacheLmS
  simp only
  rw [count_flatMap_zipIdx ts (fun t b => t.leafIdx.zipIdx.flatMap fun lf =>
    (playersCy m C).zipIdx.flatMap fun gv =>
      if gv.1 ∈ leafPlayersCy m C (t.leafCols lf.1) then
        (List.range (2 ^ ((leafPlayersCy m C (t.leafCols lf.1)).erase gv.1).length)).flatMap fun counter =>
          (data.filter fun z => sat (t.leafRect lf.1) (maskSel ((leafPlayersCy m C (t.leafCols lf.1)).erase gv.1) counter).flatten z &&
            (!w || sat (t.leafRect lf.1) gv.1 z)).map fun _ => (b, gv.2, lf.2, counter)
      else []) _ 0 ht]
  · rw [count_flatMap_zipIdx t.leafIdx (fun ℓ lf =>
      (playersCy m C).zipIdx.flatMap fun gv =>
      if gv.1 ∈ leafPlayersCy m C (t.leafCols ℓ) then
        (List.range (2 ^ ((leafPlayersCy m C (t.leafCols ℓ)).erase gv.1).length)).flatMap fun counter =>
          (data.filter fun z => sat (t.leafRect ℓ) (maskSel ((leafPlayersCy m C (t.leafCols ℓ)).erase gv.1) counter).flatten z &&
            (!w || sat (t.leafRect ℓ) gv.1 z)).map fun _ => (b, gv.2, lf, counter)
      else []) _ 0 hℓ]
    · rw [count_flatMap_zipIdx (playersCy m C) (fun g va =>
        if g ∈ leafPlayersCy m C (t.leafCols ℓ) then
          (List.range (2 ^ ((leafPlayersCy m C (t.leafCols ℓ)).erase g).length)).flatMap fun counter =>
            (data.filter fun z => sat (t.leafRect ℓ) (maskSel ((leafPlayersCy m C (t.leafCols ℓ)).erase g) counter).flatten z &&
              (!w || sat (t.leafRect ℓ) g z)).map fun _ => (b, va, lf, counter)
        else []) _ 0 hg]
      · rw [if_pos hgn, count_flatMap_range _ _ _ hc]
        · rw [count_map_const]
        · intro i hi hmem
          obtain ⟨_, _, he⟩ := List.mem_map.mp hmem
          simp only [Prod.mk.injEq] at he
          exact hi he.2.2.2
      · intro a i hi hmem
        split at hmem
        · obtain ⟨_, _, hmem⟩ := List.mem_flatMap.mp hmem
          obtain ⟨_, _, he⟩ := List.mem_map.mp hmem
          simp only [Prod.mk.injEq] at he
          exact hi he.2.1
        · simp at hmem
    · intro a i hi hmem
      obtain ⟨_, _, hmem⟩ := List.mem_flatMap.mp hmem
      split at hmem
      · obtain ⟨_, _, hmem⟩ := List.mem_flatMap.mp hmem
        obtain ⟨_, _, he⟩ := List.mem_map.mp hmem
        simp only [Prod.mk.injEq] at he
        exact hi he.2.2.1
      · simp at hmem
  · intro a i hi hmem
    obtain ⟨_, _, hmem⟩ := List.mem_flatMap.mp hmem
    obtain ⟨_, _, hmem⟩ := List.mem_flatMap.mp hmem
    split at hmem
    · obtain ⟨_, _, hmem⟩ := List.mem_flatMap.mp hmem
      obtain ⟨_, _, he⟩ := List.mem_map.mp hmem
      simp only [Prod.mk.injEq] at he
      exact hi he.1
    · simp at hmem

theorem map_zipIdx_congr {α : Type} (l : List α) (f : α × Nat → ℚ) (g : α → ℚ) (h : ∀ a i, (a, i) ∈ l.zipIdx → f (a, i) = g a) :
    l.zipIdx.map f = l.map g := by
  have : l.map g = l.zipIdx.map (fun p => g p.1) := by
    conv_lhs => rw [← List.zipIdx_map_fst 0 l, List.map_map]
    rfl
  rw [this]
  apply List.map_congr_left
  intro p hp
  exact h p.1 p.2 hp

/-- **C12.** An explainer built with `cache=True` and coalitions `C` returns, when asked with the same coalitions, exactly
what an explainer without cache returns, for every ensemble, dataset, coalition argument, observation, column and output. -/
theorem C12_cache_agrees (ts : List TreeArr) (m : Nat) (data : List Row) (C : List (List Nat)) (x : Row) (j k : Nat) :
    acvTreeCachedShap ts m data C C x j k = shapCy ts m data C x j k := by
  unfold acvTreeCachedShap shapCached shapCy
  congr 2
  apply map_zipIdx_congr
  intro t b ht
  congr 1
  apply map_zipIdx_congr
  intro ℓ lf hℓ
  simp only
  congr 1
  unfold cyLeafPhi
  simp only
  congr 1
  apply map_zipIdx_congr
  intro g va hg
  simp only
  split
  · rename_i hgn
    congr 1
    apply List.map_congr_left
    intro counter hc
    congr 1
    unfold cacheTerm cyTerm leavesCache
    simp only
    rw [cacheLm_count ts m data ht hℓ, cacheLmS_count ts m data C false ht hℓ hg hgn (List.mem_range.mp hc),
      cacheLmS_count ts m data C true ht hℓ hg hgn (List.mem_range.mp hc)]
    simp only [Bool.not_false, Bool.true_or, Bool.and_true, Bool.not_true, Bool.false_or]
    rfl
  · rfl

example : acvTreeCachedShap [exTree] 3 exData [[2, 1]] [[2, 1]] (fun _ => 2) 2 0 = -65 / 12 := by decide +kernel

/-- The condition "same coalitions" cannot be dropped: the tables are those of the coalitions given at construction. -/
theorem C12_other_coalitions_differ :
    acvTreeCachedShap [exTree] 3 exData [[]] [[0, 1]] (fun _ => 2) 0 0 ≠ shapCy [exTree] 3 exData [[0, 1]] (fun _ => 2) 0 0 := by
  decide +kernel

end Acv

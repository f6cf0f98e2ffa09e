import Verif.Model.MaxVar
import Verif.Props.Shapley

/-!
# C15: are the scratch buffers large enough?
-/

namespace Acv

/-- The claim: for every ensemble, every subset number used for any leaf of any tree is below `2 ** max_var`, the size of
the buffers. -/
def C15_claim : Prop :=
  ∀ (ts : List TreeArr) (m : Nat), (∀ t ∈ ts, WellFormed t m) → ∀ C, ValidGroups m C → ∀ s, maxVar ts = some s →
    ∀ t ∈ ts, ∀ ℓ ∈ t.leafIdx, ∀ counter ∈ leafCounters m C (t.leafCols ℓ), counter < 2 ^ s

/-- A tree with a leaf below three different variables. -/
def deepTree : TreeArr where
  size := 7
  left := fun n => ([1, -1, 3, -1, 5, -1, -1] : List Int).getD n (-1)
  right := fun n => ([2, -1, 4, -1, 6, -1, -1] : List Int).getD n (-1)
  dflt := fun n => ([1, -1, 3, -1, 5, -1, -1] : List Int).getD n (-1)
  feature := fun n => ([0, -2, 1, -2, 2, -2, -2] : List Int).getD n (-2)
  threshold := fun _ => 0
  value := fun n _ => n
  weight := fun _ => 1

theorem deepTree_wf : WellFormed deepTree 3 :=
  ⟨.node 0 0 0 (.leaf 1) (.node 2 1 0 (.leaf 3) (.node 4 2 0 (.leaf 5) (.leaf 6))), rfl,
    by simp [Encodes, deepTree, BTree.id], by decide,
    by intro n; simp [BTree.ids, deepTree]; omega, by simp [BTree.vars]⟩

/-- A stump. -/
def stump : TreeArr where
  size := 3
  left := fun n => ([1, -1, -1] : List Int).getD n (-1)
  right := fun n => ([2, -1, -1] : List Int).getD n (-1)
  dflt := fun n => ([1, -1, -1] : List Int).getD n (-1)
  feature := fun n => ([0, -2, -2] : List Int).getD n (-2)
  threshold := fun _ => 0
  value := fun n _ => n
  weight := fun _ => 1

theorem stump_wf : WellFormed stump 3 :=
  ⟨.node 0 0 0 (.leaf 1) (.leaf 2), rfl, by simp [Encodes, stump, BTree.id], by decide,
    by intro n; simp [BTree.ids, stump]; omega, by simp [BTree.vars]⟩

/-- **C15 is false of the code**: a deep tree followed by a stump. -/
theorem C15_buffers_too_small : ¬ C15_claim := by
  intro h
  have := h [deepTree, stump] 3 (by simp [deepTree_wf, stump_wf]) [[]] (Or.inl rfl) 1 (by decide +kernel) deepTree (by simp)
    6 (by decide +kernel) 2 (by decide +kernel)
  omega

theorem foldl_append_map {α β : Type} (l : List α) (f : α → β) (acc : List β) :
    l.foldl (fun acc a => acc ++ [f a]) acc = acc ++ l.map f := by
  induction l generalizing acc with
  | nil => simp
  | cons a l ih => rw [List.foldl_cons, ih]; simp

/-- what `max_var` ends up being: the largest number of variables of a leaf of the *last* tree -/
theorem maxVarLoop_last (ts : List TreeArr) (t : TreeArr) :
    maxVarLoop (ts ++ [t]) = t.leafIdx.map fun ℓ => (t.leafVars ℓ).length := by
  unfold maxVarLoop
  rw [List.foldl_append, List.foldl_cons, List.foldl_nil, foldl_append_map]
  rfl

theorem foldl_max_ge (l : List Nat) (a : Nat) : a ≤ l.foldl max a ∧ ∀ b ∈ l, b ≤ l.foldl max a := by
  induction l generalizing a with
  | nil => simp
  | cons c l ih =>
    obtain ⟨h1, h2⟩ := ih (max a c)
    refine ⟨le_trans (le_max_left _ _) h1, ?_⟩
    intro b hb
    rcases List.mem_cons.mp hb with rfl | hb
    · exact le_trans (le_max_right _ _) h1
    · exact h2 b hb

theorem foldl_max_mem (l : List Nat) (a : Nat) : l.foldl max a = a ∨ l.foldl max a ∈ l := by
  induction l generalizing a with
  | nil => simp
  | cons c l ih =>
    rcases ih (max a c) with h | h
    · rw [List.foldl_cons, h]
      rcases max_choice a c with h' | h'
      · left; exact h'
      · right; rw [h']; simp
    · right; exact List.mem_cons_of_mem _ h

/-- `max_var` is the maximum over the last tree: an upper bound of its leaves' numbers of variables, attained. -/
theorem C15_max_var_is_last_tree (ts : List TreeArr) (t : TreeArr) {s : Nat} (h : maxVar (ts ++ [t]) = some s) :
    (∀ ℓ ∈ t.leafIdx, (t.leafVars ℓ).length ≤ s) ∧ ∃ ℓ ∈ t.leafIdx, (t.leafVars ℓ).length = s := by
  unfold maxVar at h
  rw [maxVarLoop_last] at h
  split at h
  · simp at h
  · rename_i a l he
    have hs := Option.some.inj h
    subst hs
    constructor
    · intro ℓ hℓ
      have : (t.leafVars ℓ).length ∈ a :: l := he ▸ List.mem_map_of_mem hℓ
      rcases List.mem_cons.mp this with h | h
      · rw [h]; exact (foldl_max_ge l a).1
      · exact (foldl_max_ge l a).2 _ h
    · have : l.foldl max a ∈ a :: l := by
        rcases foldl_max_mem l a with h | h
        · rw [h]; simp
        · exact List.mem_cons_of_mem _ h
      rw [← he] at this
      obtain ⟨ℓ, hℓ, h⟩ := List.mem_map.mp this
      exact ⟨ℓ, hℓ, h⟩

theorem leafPlayers_length {m : Nat} {C : List (List Nat)} : ∀ (vars : List Nat), (leafPlayersCy m C vars).length ≤ vars.length := by
  intro vars
  unfold leafPlayersCy
  split
  · have : ∀ (is : List Nat) (b : List (List Nat)), (groupUp (freeCols m C) is b).length ≤ is.length := by
      intro is
      induction is with
      | nil => intro b; simp [groupUp]
      | cons i is ih =>
        intro b
        unfold groupUp
        split
        · simp [ih]
        · split
          · exact le_trans (ih _) (Nat.le_succ _)
          · simp [ih]
    exact this _ _
  · simp

theorem counters_fit {ts : List TreeArr} {m : Nat} {C : List (List Nat)} {s : Nat}
    (hfit : ∀ t ∈ ts, ∀ ℓ ∈ t.leafIdx, (t.leafVars ℓ).length ≤ s + 1) :
    ∀ t ∈ ts, ∀ ℓ ∈ t.leafIdx, ∀ counter ∈ leafCounters m C (t.leafCols ℓ), counter < 2 ^ s := by
  intro t ht ℓ hℓ counter hc
  unfold leafCounters at hc
  obtain ⟨va, _, hc⟩ := List.mem_flatMap.mp hc
  split at hc
  · rename_i hva
    refine lt_of_lt_of_le (List.mem_range.mp hc) (Nat.pow_le_pow_right (by decide) ?_)
    rw [List.length_erase_of_mem hva]
    have h1 := leafPlayers_length (m := m) (C := C) (t.leafCols ℓ)
    have h2 : (t.leafCols ℓ).length = (t.leafVars ℓ).length := by simp [TreeArr.leafCols]
    have h3 := hfit t ht ℓ hℓ
    omega
  · simp at hc

/-- **C15, partial**: the buffers are large enough whenever each leaf of the other trees has at most one variable
more than some leaf of the last tree; in particular for one-tree models and when the last tree attains the maximum. Missing (false): ensembles
whose last tree is narrower by two or more. -/
theorem C15_buffers_large_enough_partial {ts : List TreeArr} {t : TreeArr} {m : Nat} {C : List (List Nat)} {s : Nat}
    (hs : maxVar (ts ++ [t]) = some s)
    (hwide : ∀ t' ∈ ts, ∀ ℓ' ∈ t'.leafIdx, ∃ ℓ ∈ t.leafIdx, (t'.leafVars ℓ').length ≤ (t.leafVars ℓ).length + 1) :
    ∀ t' ∈ ts ++ [t], ∀ ℓ ∈ t'.leafIdx, ∀ counter ∈ leafCounters m C (t'.leafCols ℓ), counter < 2 ^ s := by
  have hmax := (C15_max_var_is_last_tree ts t hs).1
  apply counters_fit
  intro t' ht' ℓ' hℓ'
  rcases List.mem_append.mp ht' with h | h
  · obtain ⟨ℓ, hℓ, hle⟩ := hwide t' h ℓ' hℓ'
    have := hmax ℓ hℓ
    omega
  · rw [List.mem_singleton.mp h] at hℓ' ⊢
    have := hmax ℓ' hℓ'
    omega

/-- Without coalitions the condition is exact: the buffers are large enough if and only if every leaf has at most one
variable more than `max_var`. -/
theorem C15_fits_iff {ts : List TreeArr} {m : Nat} (hts : ∀ t ∈ ts, WellFormed t m) {s : Nat} :
    (∀ t ∈ ts, ∀ ℓ ∈ t.leafIdx, ∀ counter ∈ leafCounters m [[]] (t.leafCols ℓ), counter < 2 ^ s) ↔
      ∀ t ∈ ts, ∀ ℓ ∈ t.leafIdx, (t.leafVars ℓ).length ≤ s + 1 := by
  refine ⟨?_, counters_fit⟩
  intro h t ht ℓ hℓ
  obtain ⟨hn, hlt, _⟩ := leafCols_spec (hts t ht) hℓ
  have hlen : (t.leafCols ℓ).length = (t.leafVars ℓ).length := by simp [TreeArr.leafCols]
  by_contra hc
  have hne : t.leafCols ℓ ≠ [] := by
    intro he; rw [he] at hlen; simp at hlen; omega
  obtain ⟨a, l, hal⟩ := List.exists_cons_of_ne_nil hne
  have ha : a ∈ t.leafCols ℓ := by rw [hal]; simp
  have : 2 ^ s ∈ leafCounters m [[]] (t.leafCols ℓ) := by
    unfold leafCounters
    refine List.mem_flatMap.mpr ⟨[a], ?_, ?_⟩
    · simp [playersCy, hasGroups, hlt a ha]
    · have hmem : [a] ∈ leafPlayersCy m [[]] (t.leafCols ℓ) := by
        simp only [leafPlayersCy, hasGroups]
        simp [ha]
      rw [if_pos hmem, List.mem_range, List.length_erase_of_mem hmem]
      apply Nat.pow_lt_pow_right (by decide)
      have : (leafPlayersCy m [[]] (t.leafCols ℓ)).length = (t.leafCols ℓ).length := by
        simp [leafPlayersCy, hasGroups]
      omega
  exact absurd (h t ht ℓ hℓ _ this) (lt_irrefl _)

/-- the partial theorem covers non-trivial ensembles (stump first) -/
example : maxVar ([stump] ++ [deepTree]) = some 3 ∧
    ∀ t' ∈ [stump], ∀ ℓ' ∈ t'.leafIdx, ∃ ℓ ∈ deepTree.leafIdx, (t'.leafVars ℓ').length ≤ (deepTree.leafVars ℓ).length + 1 := by
  refine ⟨by decide +kernel, ?_⟩
  intro t ht
  rw [List.mem_singleton.mp ht]
  decide +kernel

end Acv

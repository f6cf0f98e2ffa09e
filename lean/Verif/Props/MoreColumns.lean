import Verif.Props.Projected

/-!
# C125: fixing more columns
-/

namespace Acv

/-- In the tree, no split on a column of `S` lies below a split on a column that is in `S'` and not in `S`. -/
def OuterFirst (t : TreeArr) (S S' : List Nat) : Prop :=
  ∀ k n q, n < t.size → 0 ≤ t.left n → (t.feature n).toNat ∈ S' → (t.feature n).toNat ∉ S → Above t (k + 1) n q → 0 ≤ t.left q →
    (t.feature q).toNat ∉ S

/-- A node visited with `S` is visited with `S'`, or lies below a split on a new column. -/
theorem projVisits_more {t : TreeArr} {S S' : List Nat} {x : Row} {n : Nat} (h : ProjVisits t S x n) :
    ProjVisits t S' x n ∨ ∃ k p, p < t.size ∧ 0 ≤ t.left p ∧ (t.feature p).toNat ∈ S' ∧ (t.feature p).toNat ∉ S ∧ Above t (k + 1) p n ∨
      (p < t.size ∧ 0 ≤ t.right p ∧ (t.feature p).toNat ∈ S' ∧ (t.feature p).toNat ∉ S ∧ Above t (k + 1) p n) := by
  induction h with
  | root => exact Or.inl ProjVisits.root
  | @left n c _ hn hc hx ih =>
    rcases ih with ih | ⟨k, p, hp⟩
    · by_cases hS' : (t.feature n).toNat ∈ S'
      · by_cases hS : (t.feature n).toNat ∈ S
        · exact Or.inl (ProjVisits.left ih hn hc fun _ => hx hS)
        · exact Or.inr ⟨0, n, Or.inl ⟨hn, by omega, hS', hS, Above.step ⟨hn, Or.inl hc⟩ (Above.refl _)⟩⟩
      · exact Or.inl (ProjVisits.left ih hn hc fun h => absurd h hS')
    · refine Or.inr ⟨k + 1, p, hp.imp ?_ ?_⟩ <;>
        exact fun ⟨h1, h2, h3, h4, h5⟩ => ⟨h1, h2, h3, h4, h5.trans_step ⟨hn, Or.inl hc⟩⟩
  | @right n c _ hn hc hx ih =>
    rcases ih with ih | ⟨k, p, hp⟩
    · by_cases hS' : (t.feature n).toNat ∈ S'
      · by_cases hS : (t.feature n).toNat ∈ S
        · exact Or.inl (ProjVisits.right ih hn hc fun _ => hx hS)
        · exact Or.inr ⟨0, n, Or.inr ⟨hn, by omega, hS', hS, Above.step ⟨hn, Or.inr hc⟩ (Above.refl _)⟩⟩
      · exact Or.inl (ProjVisits.right ih hn hc fun h => absurd h hS')
    · refine Or.inr ⟨k + 1, p, hp.imp ?_ ?_⟩ <;>
        exact fun ⟨h1, h2, h3, h4, h5⟩ => ⟨h1, h2, h3, h4, h5.trans_step ⟨hn, Or.inr hc⟩⟩

/-- A row that travels like `x` with `S'` travels like `x` with `S`. -/
theorem sameRoute_more {t : TreeArr} {d b} (h : IsTree t d b) {S S' : List Nat} (hS : S ⊆ S') (ho : OuterFirst t S S') {x z : Row}
    (hr : SameRoute t S' x z) : SameRoute t S x z := by
  intro n hv hl hf
  rcases projVisits_more (S' := S') hv with hv' | ⟨k, p, ⟨h1, h2, h3, h4, h5⟩ | ⟨h1, h2, h3, h4, h5⟩⟩
  · exact hr n hv' hl (hS hf)
  · exact absurd hf (ho k p n h1 h2 h3 h4 h5 hl)
  · have : 0 ≤ t.left p := by
      rcases node_cases h h1 with hh | hh
      · omega
      · exact hh.1
    exact absurd hf (ho k p n h1 this h3 h4 h5 hl)

/-- **C125, partial.** If no split on a column of `S` lies below a split on a new column and at least `min_node_size` rows travel like `x` with the larger set
`S'`, the rows used with `S'` are among those used with `S`, tree by tree. Missing (false): trees with other orders of splits, see `C125_false`. -/
theorem C125_rows_partial {S S' : List Nat} (hS : S ⊆ S') {m : Nat} {x : Row} {data : Nat → Row} {minSize maxDepth N : Nat}
    {ts : List TreeArr} {mems : List Mem} (hf : List.Forall₂ (TreeIn S m) ts mems) (hf' : List.Forall₂ (TreeIn S' m) ts mems)
    (ho : ∀ t ∈ ts, OuterFirst t S S') (hdepth : ∀ t ∈ ts, t.maxDepth ≤ maxDepth)
    (hstop : ∀ t ∈ ts, ∃ L : List Nat, L.Nodup ∧ minSize ≤ L.length ∧
      ∀ i ∈ L, i < N ∧ ∀ n, ProjVisits t S' x n ↔ ProjVisits t S' (data i) n) :
    List.Forall₂ (fun c c' => c' ⊆ c) (cellsSet mems S x data minSize maxDepth N) (cellsSet mems S' x data minSize maxDepth N) := by
  have hwf : ∀ t ∈ ts, WellFormed t m := by
    intro t ht
    clear ho hdepth hstop hf'
    induction hf with
    | nil => cases ht
    | cons h1 _ ih =>
      rcases List.mem_cons.1 ht with rfl | ht
      · exact h1.wf
      · exact ih ht
  have htr : ∀ t ∈ ts, ∀ z : Row, (∀ n, ProjVisits t S' x n ↔ ProjVisits t S' z n) → ∀ n, ProjVisits t S x n ↔ ProjVisits t S z n := by
    intro t ht z hz
    obtain ⟨b, hb⟩ := hwf t ht
    rw [← sameRoute_iff hb] at hz ⊢
    exact sameRoute_more hb hS (ho t ht) hz
  have hstop' : ∀ t ∈ ts, ∃ L : List Nat, L.Nodup ∧ minSize ≤ L.length ∧ ∀ i ∈ L, i < N ∧ ∀ n, ProjVisits t S x n ↔ ProjVisits t S (data i) n := by
    intro t ht
    obtain ⟨L, l1, l2, l3⟩ := hstop t ht
    exact ⟨L, l1, l2, fun i hi => ⟨(l3 i hi).1, htr t ht _ (l3 i hi).2⟩⟩
  have h1 := (C22_cell_is_same_route hf hdepth hstop').1
  have h2 := (C22_cell_is_same_route hf' hdepth hstop).1
  generalize cellsSet mems S x data minSize maxDepth N = cs at h1 ⊢
  generalize cellsSet mems S' x data minSize maxDepth N = cs' at h2 ⊢
  clear hf hf' ho hdepth hstop hstop' hwf
  induction h1 generalizing cs' with
  | nil => cases h2; exact List.Forall₂.nil
  | @cons t c ts cs h1 _ ih =>
    cases h2 with
    | cons h2 h2' =>
      refine List.Forall₂.cons (fun i hi => ?_) (ih (fun t ht => htr t (List.mem_cons_of_mem _ ht)) _ h2')
      obtain ⟨i1, i2⟩ := (h2.2 i).1 hi
      exact (h1.2 i).2 ⟨i1, htr t (by simp) _ i2⟩

/-- **C125, agreeing rows.** A background row with the entries of `x` on the larger set is used with both sets, in every tree. -/
theorem C125_agree {mems : List Mem} {S S' : List Nat} (hS : S ⊆ S') {x : Row} {data : Nat → Row} {minSize maxDepth N i : Nat} (hi : i < N)
    (h : SameOn S' x (data i)) :
    (∀ c ∈ cellsSet mems S x data minSize maxDepth N, i ∈ c) ∧ ∀ c ∈ cellsSet mems S' x data minSize maxDepth N, i ∈ c :=
  ⟨fun _ hc => forestRun_keeps hi (fun s hs => h s (hS hs)) hc, fun _ hc => forestRun_keeps hi h hc⟩

/-- The claim: fixing more columns only removes rows. -/
def C125_claim : Prop :=
  ∀ (t : TreeArr) (mem : Mem) (S S' : List Nat) (m : Nat), S ⊆ S' → TreeIn S m t mem → TreeIn S' m t mem →
    ∀ (x : Row) (data : Nat → Row) (N : Nat), ∀ c ∈ cellsSet [mem] S x data 0 t.maxDepth N, ∀ c' ∈ cellsSet [mem] S' x data 0 t.maxDepth N, c' ⊆ c

/-- Two rows: the observation and one that differs from it in column 1. -/
def forkRows : Nat → Row := fun i c => if i = 1 ∧ c = 1 then 9 else 0

/-- **C125 is false**: with column 1 alone the split on column 1 behind the split on column 0 is visited and the second row is dropped; with columns 0 and 1 that
split is never reached and the second row is used. The rule of columns 0 and 1 does not restrict column 1, the rule of column 1 does. -/
theorem C125_false : ¬ C125_claim := by
  intro h
  have := h ladderTree (Mem.ofTree ladderTree leafJunk) [1] [0, 1] 3 (by decide) (ladderTree_in _) (ladderTree_in _) (forkRows 0) forkRows 2 [0]
    (by decide +kernel) [0, 1] (by decide +kernel)
  revert this
  decide

/-- The rules of the same two sets at the observation: the second one is not inside the first one on column 1. -/
theorem C125_rules :
    (sdpRule [Mem.ofTree ladderTree leafJunk] [1] (forkRows 0) 1 forkRows (fun _ => 1) 0 3 2 true (0, 0)).2 1 =
      ((Rule.init 1).1, 3) ∧
    (sdpRule [Mem.ofTree ladderTree leafJunk] [0, 1] (forkRows 0) 1 forkRows (fun _ => 1) 0 3 2 true (0, 0)).2 1 = Rule.init 1 := by
  decide +kernel

/-- Columns 0 and then 0 and 1 on the ladder, which tests column 1 below column 0 only. -/
example : OuterFirst ladderTree [0] [0, 1] ∧ cellsSet [Mem.ofTree ladderTree leafJunk] [0] (diag 2) diag 1 3 10 = [[2, 3, 4, 5, 6, 7, 8, 9]] ∧
    cellsSet [Mem.ofTree ladderTree leafJunk] [0, 1] (diag 2) diag 1 3 10 = [[2, 3]] := by
  refine ⟨?_, by decide +kernel, by decide +kernel⟩
  intro k n q hn hl h1 h2 ha hq hf
  have hroot : ∀ q : Nat, (0 : Int) ≤ ladderTree.left q → (ladderTree.feature q).toNat ∈ [0] → q = 0 := by
    intro q h1 h2
    match q with
    | 0 => rfl
    | 1 | 2 | 3 | 4 | 5 | 6 => revert h1 h2; decide
    | q + 7 => exact absurd h1 (by simp [ladderTree])
  have h0 := hroot q hq hf
  subst h0
  obtain ⟨p, _, hp, hc⟩ := ha.last
  match p with
  | 0 | 1 | 2 | 3 | 4 | 5 | 6 => revert hc; decide
  | p + 7 => exact absurd hp (by simp [ladderTree])

end Acv

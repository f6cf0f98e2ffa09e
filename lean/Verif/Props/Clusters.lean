import Verif.Model.Clusters
import Verif.Spec.Clusters
import Verif.Lemmas.LeafShapPy
import Mathlib.Tactic.Ring
import Mathlib.Tactic.FieldSimp
import Mathlib.Tactic.Linarith

/-! # C82, C83: clusters of variables and their importance -/

namespace Acv

/-! ## One size -/

theorem bestFold (f : List Nat → Option ℚ) (p : ℚ) (l : List (List (List Nat))) (b0 : Option (ℚ × List Nat)) :
    let r := l.foldl (fun best c =>
      if c = [] then best
      else
        match f c.flatten with
        | none => best
        | some v => if decide (p ≤ v) && geBest best v then some (v, c.flatten) else best) b0
    (r = none → b0 = none ∧ ∀ c ∈ l, c ≠ [] → ¬ ReachesLevel f p c.flatten) ∧
    (∀ b, r = some b → (b0 = some b ∨ ∃ c ∈ l, c ≠ [] ∧ b.2 = c.flatten ∧ f b.2 = some b.1 ∧ p ≤ b.1) ∧
      (∀ b', b0 = some b' → b'.1 ≤ b.1) ∧ ∀ c ∈ l, c ≠ [] → ∀ u, f c.flatten = some u → p ≤ u → u ≤ b.1) := by
  induction l generalizing b0 with
  | nil =>
    refine ⟨fun h => ⟨h, fun c hc => absurd hc (List.not_mem_nil)⟩, fun b h => ⟨Or.inl h, fun b' hb' => ?_, fun c hc => absurd hc (List.not_mem_nil)⟩⟩
    have h : b0 = some b := h
    rw [h] at hb'; cases hb'; exact le_refl _
  | cons c l ih =>
    rw [List.foldl_cons]
    by_cases hc : c = []
    · rw [if_pos hc]
      have := ih b0
      simp only [List.mem_cons, forall_eq_or_imp] at this ⊢
      refine ⟨fun h => ⟨(this.1 h).1, fun h' => absurd hc h', (this.1 h).2⟩, fun b h => ?_⟩
      obtain ⟨h1, h2, h3⟩ := this.2 b h
      exact ⟨h1.imp id fun ⟨c, hm, h⟩ => ⟨c, Or.inr hm, h⟩, h2, fun h' => absurd hc h', h3⟩
    · rw [if_neg hc]
      cases hf : f c.flatten with
      | none =>
        have := ih b0
        simp only [List.mem_cons, forall_eq_or_imp] at this ⊢
        refine ⟨fun h => ⟨(this.1 h).1, fun _ => ?_, (this.1 h).2⟩, fun b h => ?_⟩
        · rintro ⟨v, hv, _⟩; rw [hf] at hv; cases hv
        · obtain ⟨h1, h2, h3⟩ := this.2 b h
          exact ⟨h1.imp id fun ⟨c, hm, h⟩ => ⟨c, Or.inr hm, h⟩, h2, ⟨fun _ u hu => (by rw [hf] at hu; exact nomatch hu), h3⟩⟩
      | some v =>
        simp only
        by_cases hp : p ≤ v ∧ ∀ b, b0 = some b → b.1 ≤ v
        · have hcond : (decide (p ≤ v) && geBest b0 v) = true := by
            rw [Bool.and_eq_true, decide_eq_true_eq]
            refine ⟨hp.1, ?_⟩
            cases b0 with
            | none => rfl
            | some b => exact decide_eq_true (hp.2 b rfl)
          rw [if_pos hcond]
          have := ih (some (v, c.flatten))
          simp only [List.mem_cons, forall_eq_or_imp] at this ⊢
          refine ⟨fun h => absurd (this.1 h).1 (by simp), fun b h => ?_⟩
          obtain ⟨h1, h2, h3⟩ := this.2 b h
          have hv := h2 _ rfl
          simp only at hv
          refine ⟨Or.inr ?_, fun b' hb' => (hp.2 b' hb').trans hv, fun _ u hu _ => ?_, h3⟩
          · rcases h1 with h1 | ⟨d, hd, h1⟩
            · cases h1
              exact ⟨c, Or.inl rfl, hc, rfl, hf, hp.1⟩
            · exact ⟨d, Or.inr hd, h1⟩
          · rw [hf] at hu; cases hu; exact hv
        · have hcond : ¬ (decide (p ≤ v) && geBest b0 v) = true := by
            rw [Bool.and_eq_true, decide_eq_true_eq]
            rintro ⟨h1, h2⟩
            refine hp ⟨h1, fun b hb => ?_⟩
            subst hb
            exact of_decide_eq_true h2
          rw [if_neg hcond]
          have := ih b0
          simp only [List.mem_cons, forall_eq_or_imp] at this ⊢
          refine ⟨fun h => ⟨(this.1 h).1, fun _ => ?_, (this.1 h).2⟩, fun b h => ?_⟩
          · rintro ⟨u, hu, hpu⟩
            rw [hf] at hu; cases hu
            exact hp ⟨hpu, fun b hb => by rw [(this.1 h).1] at hb; cases hb⟩
          · obtain ⟨h1, h2, h3⟩ := this.2 b h
            refine ⟨h1.imp id fun ⟨c, hm, h⟩ => ⟨c, Or.inr hm, h⟩, h2, fun _ u hu hpu => ?_, h3⟩
            rw [hf] at hu; cases hu
            by_contra hlt
            refine hp ⟨hpu, fun b' hb' => (h2 b' hb').trans ?_⟩
            exact (not_le.1 hlt).le

theorem bestOfSize_none {f : List Nat → Option ℚ} {p : ℚ} {va : List (List Nat)} {size : Nat} (h : bestOfSize f p va size = none) :
    ∀ c, c.Sublist va → c.length = size → c ≠ [] → ¬ ReachesLevel f p c.flatten := fun c hc hl =>
  ((bestFold f p (combos size va) none).1 h).2 c (mem_combos.2 ⟨hc, hl⟩)

theorem bestOfSize_some {f : List Nat → Option ℚ} {p : ℚ} {va : List (List Nat)} {size : Nat} {b : ℚ × List Nat}
    (h : bestOfSize f p va size = some b) :
    (∃ c, c.Sublist va ∧ c.length = size ∧ c ≠ [] ∧ b.2 = c.flatten ∧ f b.2 = some b.1 ∧ p ≤ b.1) ∧
      ∀ c, c.Sublist va → c.length = size → c ≠ [] → ∀ u, f c.flatten = some u → p ≤ u → u ≤ b.1 := by
  obtain ⟨h1, _, h3⟩ := (bestFold f p (combos size va) none).2 b h
  refine ⟨?_, fun c hc hl => h3 c (mem_combos.2 ⟨hc, hl⟩)⟩
  rcases h1 with h1 | ⟨c, hc, h1⟩
  · cases h1
  · exact ⟨c, (mem_combos.1 hc).1, (mem_combos.1 hc).2, h1⟩

/-! ## Without groups -/

theorem clusterPlayers_nil (index : List Nat) : clusterPlayers [[]] index = index.map ([·]) := by
  unfold clusterPlayers
  simp

theorem flatten_singletons (l : List Nat) : (l.map ([·])).flatten = l := by
  induction l with
  | nil => rfl
  | cons a l ih => rw [List.map_cons, List.flatten_cons, ih]; rfl

theorem sublist_singletons {c : List (List Nat)} {l : List Nat} (h : c.Sublist (l.map ([·]))) : ∃ T : List Nat, T.Sublist l ∧ c = T.map ([·]) :=
  List.sublist_map_iff.1 h

/-- The loop over the sizes when every player is one column. -/
theorem sizeLoop_single (f : List Nat → Option ℚ) (p : ℚ) (R : List Nat) : ∀ (j k : Nat), k + j = R.length + 1 → 0 < j →
    (∀ T, T.Sublist R → T ≠ [] → T.length < k → ¬ ReachesLevel f p T) →
    (∃ S, BestSet f p R S ∧ sizeLoop f p (R.map ([·])) (List.range' k j) [] = ([S], true)) ∨
    ((∀ T, T.Sublist R → T ≠ [] → ¬ ReachesLevel f p T) ∧ sizeLoop f p (R.map ([·])) (List.range' k j) [] = ([R], false)) := by
  intro j
  induction j with
  | zero => intro k _ h; exact absurd h (lt_irrefl 0)
  | succ j ih =>
    intro k hk _ hsmall
    rw [List.range'_succ]
    unfold sizeLoop
    cases hb : bestOfSize f p (R.map ([·])) k with
    | some b =>
      left
      obtain ⟨⟨c, hc, hlen, hne, hbc, hfb, hpb⟩, hmax⟩ := bestOfSize_some hb
      obtain ⟨T, hT, rfl⟩ := sublist_singletons hc
      rw [flatten_singletons] at hbc
      rw [List.length_map] at hlen
      refine ⟨b.2, ⟨hbc ▸ hT, ?_, ⟨b.1, hfb, hpb, ?_⟩, ?_⟩, rfl⟩
      · rw [hbc]; intro h; exact hne (by rw [h]; rfl)
      · intro U hU hl u hu
        rcases le_total p u with hpu | hpu
        · refine hmax (U.map ([·])) (hU.map _) (by rw [List.length_map, hl, hbc, hlen]) ?_ u (by rw [flatten_singletons, hu]) hpu
          intro h
          have : U = [] := by simpa using h
          rw [this] at hl
          have hT0 : T = [] := by rw [hbc] at hl; exact List.length_eq_zero_iff.1 hl.symm
          exact hne (by rw [hT0]; rfl)
        · exact hpu.trans hpb
      · intro U hU hUne hl
        exact hsmall U hU hUne (by rw [hbc, hlen] at hl; exact hl)
    | none =>
      have hk' : ∀ T, T.Sublist R → T ≠ [] → T.length < k + 1 → ¬ ReachesLevel f p T := by
        intro T hT hne hl
        rcases Nat.lt_succ_iff_lt_or_eq.1 hl with h | h
        · exact hsmall T hT hne h
        · have := bestOfSize_none hb (T.map ([·])) (hT.map _) (by simpa using h) (by simpa using hne)
          rwa [flatten_singletons] at this
      have hdrop : (List.drop ((R.map ([·])).length - k) (R.map ([·]))).flatten.length = k := by
        rw [← List.map_drop, flatten_singletons]
        simp; omega
      rw [hdrop, List.length_map]
      simp only
      by_cases hkl : k = R.length
      · rw [if_pos hkl]
        have hj : j = 0 := by omega
        subst hj
        right
        refine ⟨fun T hT hne => hk' T hT hne (by have := hT.length_le; omega), ?_⟩
        simp [sizeLoop, flatten_singletons]
      · rw [if_neg hkl]
        exact ih (k + 1) (by omega) (by omega) hk'

theorem clusters_single (f : ℚ → List Nat → Option ℚ) (p decay : ℚ) : ∀ (fuel : Nat) (thr : ℚ) (R : List Nat) (final : List (List Nat)),
    R.length < fuel → ∃ cs, clusters f p decay [[]] fuel thr R final = (final ++ cs, true) ∧ Clustering f p decay thr R cs := by
  intro fuel
  induction fuel with
  | zero => intro _ _ _ h; exact absurd h (Nat.not_lt_zero _)
  | succ fuel ih =>
    intro thr R final hlen
    unfold clusters
    rw [clusterPlayers_nil]
    by_cases hR : R = []
    · subst hR
      exact ⟨[], by simp, rfl⟩
    · have hl : ¬ (R.map ([·])).length = 0 := by simpa using hR
      simp only [if_neg hl]
      have hrange : List.range ((R.map ([·])).length + 1) = List.range' 0 (R.length + 1) := by rw [List.length_map, List.range_eq_range']
      rw [hrange]
      rcases sizeLoop_single (f thr) p R (R.length + 1) 0 (by omega) (by omega) (fun _ _ _ h => absurd h (Nat.not_lt_zero _)) with
        ⟨S, hS, e⟩ | ⟨hno, e⟩
      · rw [e]
        simp only [List.getLast?_singleton, if_true]
        have hlt : (R.filter fun i => decide (i ∉ S)).length < R.length := by
          obtain ⟨a, ha⟩ := List.exists_mem_of_ne_nil S hS.ne
          rw [List.length_filter_lt_length_iff_exists]
          exact ⟨a, hS.sub.subset ha, by simpa using ha⟩
        obtain ⟨cs, h1, h2⟩ := ih (thr * decay) (R.filter fun i => decide (i ∉ S)) (final ++ [S]) (by omega)
        exact ⟨S :: cs, by rw [h1, List.append_assoc]; rfl, Or.inl ⟨hS, h2⟩⟩
      · rw [e]
        simp only [List.getLast?_singleton]
        have h0 : (R.filter fun i => decide (i ∉ R)) = [] := by simp
        rw [h0]
        have hf : 0 < fuel := by have := List.length_pos_iff.2 hR; omega
        obtain ⟨k, rfl⟩ : ∃ k, fuel = k + 1 := ⟨fuel - 1, by omega⟩
        refine ⟨[R], ?_, Or.inr ⟨rfl, hR, rfl, hno⟩⟩
        unfold clusters
        rw [clusterPlayers_nil]
        simp

/-- **C82, the clusters.** Without groups `local_sdp` returns, whatever the value function, and the clusters are: a smallest set that reaches
`proba`, of largest value for its size; then a smallest set of the other columns for the threshold multiplied by `decay`, and so on; when no
set of the remaining columns reaches `proba`, the last cluster is all of them. (The documentation says that `proba` decays; it is the
threshold.) -/
theorem C82_clusters (f : ℚ → List Nat → Option ℚ) (proba decay thr : ℚ) (index : List Nat) :
    (localClusters f proba decay thr [[]] index).2 = true ∧
      Clustering f proba decay thr index (localClusters f proba decay thr [[]] index).1 := by
  obtain ⟨cs, h1, h2⟩ := clusters_single f proba decay (index.length + 1) thr index [] (Nat.lt_succ_self _)
  unfold localClusters
  rw [h1]
  exact ⟨rfl, h2⟩

theorem Clustering.perm {f : ℚ → List Nat → Option ℚ} {p decay : ℚ} : ∀ {cs : List (List Nat)} {thr : ℚ} {R : List Nat}, R.Nodup →
    Clustering f p decay thr R cs → cs.flatten.Perm R ∧ ∀ c ∈ cs, c ≠ [] := by
  intro cs
  induction cs with
  | nil => intro thr R _ h; rw [show R = [] from h]; simp
  | cons S cs ih =>
    intro thr R hnd h
    rcases h with ⟨hS, h⟩ | ⟨rfl, hne, rfl, _⟩
    · obtain ⟨h1, h2⟩ := ih (hnd.filter _) h
      refine ⟨?_, by simpa using ⟨hS.ne, h2⟩⟩
      rw [List.flatten_cons]
      refine (h1.append_left S).trans ?_
      have e : (R.filter fun i => decide (i ∈ S)).Perm S :=
        (List.perm_ext_iff_of_nodup (hnd.filter _) (hnd.sublist hS.sub)).2 fun a => by
          simp only [List.mem_filter, decide_eq_true_eq]
          exact ⟨fun h => h.2, fun h => ⟨hS.sub.subset h, h⟩⟩
      refine (e.symm.append_right _).trans ?_
      have := List.filter_append_perm (fun i => decide (i ∈ S)) R
      have e2 : (R.filter fun i => !decide (i ∈ S)) = R.filter fun i => decide (i ∉ S) := List.filter_congr fun i _ => by simp
      rwa [e2] at this
    · simp [hne]

/-- **C82, partition.** Without groups every column of the observation is in exactly one cluster, and no cluster is empty. -/
theorem C82_partition (f : ℚ → List Nat → Option ℚ) (proba decay thr : ℚ) {index : List Nat} (hnd : index.Nodup) :
    (localClusters f proba decay thr [[]] index).1.flatten.Perm index ∧ ∀ c ∈ (localClusters f proba decay thr [[]] index).1, c ≠ [] :=
  (C82_clusters f proba decay thr index).2.perm hnd

/-- A value function: 1 for a set with both columns 0 and 1, or with column 2; one half otherwise. The threshold must stay above 1/4. -/
def exValue (thr : ℚ) (S : List Nat) : Option ℚ := if 1 / 4 < thr ∧ ((0 ∈ S ∧ 1 ∈ S) ∨ 2 ∈ S) then some 1 else some (1 / 2)

/-- Three clusters: `{2}`, `{0, 1}` and the rest. -/
example : localClusters exValue (9 / 10) (1 / 2) 1 [[]] [0, 1, 2, 3, 4] = ([[2], [0, 1], [3, 4]], true) := by decide +kernel

/-- The claim with groups: the call returns and every column is in exactly one cluster. -/
def C82_claim : Prop :=
  ∀ (f : ℚ → List Nat → Option ℚ) (proba decay thr : ℚ) (C : List (List Nat)) (index : List Nat), index.Nodup → C.flatten.Nodup →
    (∀ c ∈ C, 2 ≤ c.length) → (localClusters f proba decay thr C index).2 = true ∧
      (localClusters f proba decay thr C index).1.flatten.Perm index

/-- **C82 with groups is false**: the test for the last size counts columns on one side and players on the other. With one group of all
the columns the function returns `None`. -/
theorem C82_groups_false : ¬ C82_claim := by
  intro h
  have := (h (fun _ _ => some 0) 1 1 1 [[0, 1, 2]] [0, 1, 2] (by decide) (by decide) (by decide)).1
  revert this
  decide +kernel

/-- **C82 with groups, duplicates**: with the group `{0, 1}` beside column 2 the set of all the columns is a cluster twice. -/
theorem C82_groups_twice : localClusters (fun _ S => if S.length = 3 then some 1 else some 0) 1 1 1 [[0, 1]] [0, 1, 2] =
    ([[2, 0, 1], [2, 0, 1]], true) := by decide +kernel

theorem clusterPlayers_mem {C : List (List Nat)} {index : List Nat} {i : Nat} : i ∈ (clusterPlayers C index).flatten ↔ i ∈ index := by
  unfold clusterPlayers
  simp only [List.flatten_append, List.mem_append]
  rw [flatten_singletons, List.mem_filter, List.mem_flatten]
  constructor
  · rintro (h | ⟨c, hc, hi⟩)
    · exact h.1
    · rw [List.mem_filter, Bool.and_eq_true, List.all_eq_true] at hc
      exact of_decide_eq_true (hc.2.2 i hi)
  · intro hi
    by_cases h : ∃ c ∈ C.filter (fun c => decide (c ≠ []) && c.all fun i => decide (i ∈ index)), i ∈ c
    · exact Or.inr h
    · left
      refine ⟨hi, ?_⟩
      rw [Bool.not_eq_true', List.any_eq_false]
      intro c hc hd
      exact h ⟨c, hc, of_decide_eq_true hd⟩

theorem sizeLoop_sub (f : List Nat → Option ℚ) (p : ℚ) (va : List (List Nat)) (sizes : List Nat) (found : List (List Nat))
    (h : ∀ c ∈ found, ∀ i ∈ c, i ∈ va.flatten) : ∀ c ∈ (sizeLoop f p va sizes found).1, ∀ i ∈ c, i ∈ va.flatten := by
  induction sizes generalizing found with
  | nil => exact h
  | cons k sizes ih =>
    unfold sizeLoop
    cases hb : bestOfSize f p va k with
    | some b =>
      simp only [List.mem_append, List.mem_singleton]
      rintro c (hc | rfl) i hi
      · exact h c hc i hi
      · obtain ⟨⟨d, hd, _, _, hbd, _⟩, _⟩ := bestOfSize_some hb
        rw [hbd] at hi
        exact hd.flatten.subset hi
    | none =>
      simp only
      split
      · apply ih
        simp only [List.mem_append, List.mem_singleton]
        rintro c (hc | rfl) i hi
        · exact h c hc i hi
        · exact hi
      · exact ih found h

/-- **C82 with groups, partial**: the clusters are made of the columns, and when the call returns every column is in a cluster. -/
theorem C82_groups_partial (f : ℚ → List Nat → Option ℚ) (proba decay thr : ℚ) (C : List (List Nat)) (index : List Nat) :
    (∀ c ∈ (localClusters f proba decay thr C index).1, ∀ i ∈ c, i ∈ index) ∧
    ((localClusters f proba decay thr C index).2 = true → ∀ i ∈ index, ∃ c ∈ (localClusters f proba decay thr C index).1, i ∈ c) := by
  have key : ∀ (fuel : Nat) (thr : ℚ) (R : List Nat) (final : List (List Nat)),
      (∀ c ∈ final, c ∈ (clusters f proba decay C fuel thr R final).1) ∧
      (∀ c ∈ (clusters f proba decay C fuel thr R final).1, c ∈ final ∨ ∀ i ∈ c, i ∈ R) ∧
      ((clusters f proba decay C fuel thr R final).2 = true → ∀ i ∈ R, ∃ c ∈ (clusters f proba decay C fuel thr R final).1, i ∈ c) := by
    intro fuel
    induction fuel with
    | zero => intro thr R final; simp only [clusters]; exact ⟨fun _ h => h, fun _ h => Or.inl h, fun h => nomatch h⟩
    | succ fuel ih =>
      intro thr R final
      unfold clusters
      by_cases h0 : (clusterPlayers C R).length = 0
      · simp only [h0, if_true]
        refine ⟨fun c hc => hc, fun c hc => Or.inl hc, fun _ i hi => ?_⟩
        rw [← clusterPlayers_mem (C := C), List.length_eq_zero_iff.1 h0] at hi
        simp at hi
      · simp only [h0, if_false]
        have hsub := sizeLoop_sub (f thr) proba (clusterPlayers C R) (List.range ((clusterPlayers C R).length + 1)) [] (by simp)
        generalize sizeLoop (f thr) proba (clusterPlayers C R) (List.range ((clusterPlayers C R).length + 1)) [] = r at hsub ⊢
        cases hl : r.1.getLast? with
        | none => exact ⟨fun _ h => h, fun _ h => Or.inl h, fun h => nomatch h⟩
        | some c =>
          simp only
          obtain ⟨i1, i2, i3⟩ := ih (if r.2 then thr * decay else thr) (R.filter fun i => decide (i ∉ c)) (final ++ r.1)
          refine ⟨fun d hd => i1 d (by simp [hd]), fun d hd => ?_, fun ht i hi => ?_⟩
          · rcases i2 d hd with h | h
            · rcases List.mem_append.1 h with h | h
              · exact Or.inl h
              · exact Or.inr fun i hi => clusterPlayers_mem.1 (hsub d h i hi)
            · exact Or.inr fun i hi => (List.mem_filter.1 (h i hi)).1
          · by_cases hic : i ∈ c
            · exact ⟨c, i1 c (List.mem_append.2 (Or.inr (List.mem_of_getLast? hl))), hic⟩
            · exact i3 ht i (by simp [hi, hic])
  obtain ⟨_, h2, h3⟩ := key (index.length + 1) thr index []
  refine ⟨fun c hc => ?_, h3⟩
  rcases h2 c hc with h | h
  · cases h
  · exact h

/-- A group that works. -/
example : localClusters exValue (9 / 10) (1 / 2) 1 [[0, 1]] [0, 1, 2, 3] = ([[0, 1], [2], [3]], true) := by decide +kernel

/-! ## Global importance -/

theorem keptClusters_cons (val : List Nat → Option ℚ) (pi : ℚ) (c : List Nat) (coal : List (List Nat)) :
    (∃ v, val c = some v ∧ pi ≤ v ∧ keptClusters val pi (c :: coal) = (c, v) :: keptClusters val pi coal) ∨
    (¬ ReachesLevel val pi c ∧ keptClusters val pi (c :: coal) = keptClusters val pi coal) := by
  unfold keptClusters ReachesLevel
  rw [List.filterMap_cons]
  cases h : val c with
  | none => right; simp
  | some v =>
    by_cases hv : pi ≤ v
    · left; exact ⟨v, rfl, hv, by simp [hv]⟩
    · right; simp [hv]

open Classical in
/-- The cluster of the column, if its value reaches the level. -/
noncomputable def keptOf (val : List Nat → Option ℚ) (pi : ℚ) (coal : List (List Nat)) (j : Nat) : List (List Nat) :=
  coal.filter fun c => j ∈ c ∧ ReachesLevel val pi c

theorem kept_entries {val : List Nat → Option ℚ} {pi : ℚ} {coal : List (List Nat)} (h : ∀ c ∈ coal, c.Nodup) (j : Nat) :
    sdpEntries (keptClusters val pi coal) j = (keptOf val pi coal j).map fun c => (val c).getD 0 := by
  classical
  induction coal with
  | nil => rfl
  | cons c coal ih =>
    have ih := ih fun d hd => h d (by simp [hd])
    unfold keptOf at ih ⊢
    rw [List.filter_cons]
    have hc : j ∈ c → c.count j = 1 := fun hj => List.count_eq_one_of_mem (h c (by simp)) hj
    have hc' : j ∉ c → c.count j = 0 := fun hj => List.count_eq_zero_of_not_mem hj
    rcases keptClusters_cons val pi c coal with ⟨v, hv, hp, e⟩ | ⟨hn, e⟩
    · rw [e]
      unfold sdpEntries at ih ⊢
      rw [List.flatMap_cons, ih]
      by_cases hj : j ∈ c
      · rw [if_pos (decide_eq_true ⟨hj, v, hv, hp⟩)]
        simp [hc hj, hv]
      · rw [if_neg (by simp [hj])]
        simp [hc' hj]
    · rw [e, ih, if_neg (by simp [hn])]

theorem keptOf_length {val : List Nat → Option ℚ} {pi : ℚ} {coal : List (List Nat)} (h : coal.flatten.Nodup) (j : Nat) :
    (keptOf val pi coal j).length = (open Classical in if ∃ c ∈ coal, j ∈ c ∧ ReachesLevel val pi c then 1 else 0) := by
  classical
  induction coal with
  | nil => simp [keptOf]
  | cons c coal ih =>
    rw [List.flatten_cons, List.nodup_append] at h
    have ih := ih h.2.1
    unfold keptOf at ih ⊢
    rw [List.filter_cons]
    by_cases hc : j ∈ c ∧ ReachesLevel val pi c
    · rw [if_pos (decide_eq_true hc), List.length_cons, ih, if_neg, if_pos ⟨c, by simp, hc⟩]
      rintro ⟨d, hd, hj, _⟩
      exact h.2.2 j hc.1 j (List.mem_flatten.2 ⟨d, hd, hj⟩) rfl
    · rw [if_neg (by simpa using hc), ih]
      congr 1
      simp [hc]

theorem nodup_of_flatten {coal : List (List Nat)} (h : coal.flatten.Nodup) : ∀ c ∈ coal, c.Nodup := fun _ hc =>
  (List.nodup_flatten.1 h).1 _ hc

theorem sdpEntries_append (a b : List (List Nat × ℚ)) (j : Nat) : sdpEntries (a ++ b) j = sdpEntries a j ++ sdpEntries b j := by
  unfold sdpEntries; rw [List.flatMap_append]

theorem allKept_succ (n : Nat) (obs : Nat → List (List Nat) × (List Nat → Option ℚ)) (pi : ℚ) :
    allKept (n + 1) obs pi = allKept n obs pi ++ keptClusters (obs n).2 pi (obs n).1 := by
  unfold allKept
  rw [List.range_succ, List.flatMap_append]
  simp

open Classical in
/-- The observations whose cluster of `j` has a value of at least the level. -/
noncomputable def keptRows (n : Nat) (obs : Nat → List (List Nat) × (List Nat → Option ℚ)) (pi : ℚ) (j : Nat) : Finset Nat :=
  (Finset.range n).filter fun i => ∃ c ∈ (obs i).1, j ∈ c ∧ ReachesLevel (obs i).2 pi c

theorem entries_eq (n : Nat) (obs : Nat → List (List Nat) × (List Nat → Option ℚ)) (pi : ℚ) (j : Nat) (h : ∀ i < n, (obs i).1.flatten.Nodup) :
    (sdpEntries (allKept n obs pi) j).length = (keptRows n obs pi j).card ∧
    (sdpEntries (allKept n obs pi) j).sum = ∑ i ∈ Finset.range n, ((keptOf (obs i).2 pi (obs i).1 j).map fun c => ((obs i).2 c).getD 0).sum := by
  classical
  induction n with
  | zero => simp [allKept, sdpEntries, keptRows]
  | succ n ih =>
    obtain ⟨h1, h2⟩ := ih fun i hi => h i (by omega)
    have hn := h n (by omega)
    rw [allKept_succ, sdpEntries_append, List.length_append, List.sum_append, h1, h2, kept_entries (nodup_of_flatten hn), List.length_map,
      keptOf_length hn, Finset.sum_range_succ]
    refine ⟨?_, rfl⟩
    unfold keptRows
    rw [Finset.range_add_one, Finset.filter_insert]
    split
    · rw [Finset.card_insert_of_notMem (by simp)]
    · rfl

theorem variableCount_entries (n : Nat) (kept : List (List Nat × ℚ)) (j : Nat) : variableCount n kept j = (sdpEntries kept j).length / n := by
  unfold variableCount
  rw [List.sum_map_mul_right]
  have : (kept.map fun p => (p.1.count j : ℚ)).sum = ((sdpEntries kept j).length : ℚ) := by
    induction kept with
    | nil => simp [sdpEntries]
    | cons p kept ih =>
      have e : sdpEntries (p :: kept) j = List.replicate (p.1.count j) p.2 ++ sdpEntries kept j := rfl
      rw [List.map_cons, List.sum_cons, ih, e, List.length_append, List.length_replicate]
      push_cast
      rfl
  rw [this]
  ring

theorem entries_ge (n : Nat) (obs : Nat → List (List Nat) × (List Nat → Option ℚ)) (pi : ℚ) (j : Nat) :
    ∀ v ∈ sdpEntries (allKept n obs pi) j, pi ≤ v := by
  intro v hv
  unfold sdpEntries at hv
  obtain ⟨p, hp, hv⟩ := List.mem_flatMap.1 hv
  obtain ⟨i, _, hp⟩ := List.mem_flatMap.1 hp
  obtain ⟨c, _, hp⟩ := List.mem_filterMap.1 hp
  rw [List.eq_of_mem_replicate hv]
  cases h : (obs i).2 c with
  | none => rw [h] at hp; cases hp
  | some u =>
    rw [h] at hp
    simp only at hp
    split at hp
    · cases hp; assumption
    · cases hp

theorem sum_ge_mul {l : List ℚ} {p : ℚ} (h : ∀ v ∈ l, p ≤ v) : p * l.length ≤ l.sum := by
  induction l with
  | nil => simp
  | cons a l ih =>
    have := ih fun v hv => h v (by simp [hv])
    have ha := h a (by simp)
    rw [List.length_cons, List.sum_cons]
    push_cast
    linarith

/-- **C83, variables.** Without groups `global_sdp_importance` gives every column the proportion of observations whose cluster of the column
has a value of at least `pi_level` (a number of [0, 1]) and the mean of these values, at least `pi_level`; NaN if there is no such
observation. -/
theorem C83_variables {n m : Nat} (hn : 0 < n) (f : Nat → ℚ → List Nat → Option ℚ) (val : Nat → List Nat → Option ℚ)
    (proba decay thr pi : ℚ) (j : Nat) :
    let cl := fun i => (localClusters (f i) proba decay thr [[]] (List.range m)).1
    let R := keptRows n (fun i => (cl i, val i)) pi j
    let kept := globalKept n m f val proba decay thr pi [[]]
    variableCount n kept j = R.card / n ∧ 0 ≤ variableCount n kept j ∧ variableCount n kept j ≤ 1 ∧
    (R = ∅ → sdpMean kept j = none) ∧
    (R ≠ ∅ → ∃ v, sdpMean kept j = some v ∧ pi ≤ v ∧
      v = (∑ i ∈ Finset.range n, ((keptOf (val i) pi (cl i) j).map fun c => (val i c).getD 0).sum) / R.card) := by
  classical
  intro cl R kept
  have hnd : ∀ i < n, (cl i).flatten.Nodup := fun i _ =>
    (C82_partition (f i) proba decay thr List.nodup_range).1.nodup_iff.2 List.nodup_range
  obtain ⟨h1, h2⟩ := entries_eq n (fun i => (cl i, val i)) pi j hnd
  have hk : kept = allKept n (fun i => (cl i, val i)) pi := rfl
  have hv : variableCount n kept j = R.card / n := by rw [variableCount_entries, hk, h1]
  have hn' : (0 : ℚ) < n := by exact_mod_cast hn
  have hcard : R.card ≤ n := by
    have := Finset.card_filter_le (Finset.range n) fun i => ∃ c ∈ cl i, j ∈ c ∧ ReachesLevel (val i) pi c
    rw [Finset.card_range] at this
    exact this
  refine ⟨hv, ?_, ?_, fun hR => ?_, fun hR => ?_⟩
  · rw [hv]; exact div_nonneg (Nat.cast_nonneg _) hn'.le
  · rw [hv, div_le_iff₀ hn', one_mul]; exact_mod_cast hcard
  · unfold sdpMean npDiv
    rw [hk, h1, show keptRows n (fun i => (cl i, val i)) pi j = ∅ from hR]
    simp
  · have hpos : (R.card : ℚ) ≠ 0 := by
      have := Finset.card_pos.2 (Finset.nonempty_iff_ne_empty.2 hR)
      exact_mod_cast this.ne'
    refine ⟨(sdpEntries kept j).sum / R.card, ?_, ?_, ?_⟩
    · unfold sdpMean npDiv
      rw [hk, h1, if_neg hpos]
    · rw [le_div_iff₀ (lt_of_le_of_ne (by positivity) hpos.symm)]
      have := sum_ge_mul (entries_ge n (fun i => (cl i, val i)) pi j)
      rw [h1] at this
      exact this
    · rw [hk, h2]

theorem kept_coalition {val : List Nat → Option ℚ} {pi : ℚ} {coal : List (List Nat)} (hnd : coal.Nodup) (c : List Nat) :
    ((keptClusters val pi coal).filter fun p => decide (p.1 = c)).length =
      (open Classical in if c ∈ coal ∧ ReachesLevel val pi c then 1 else 0) := by
  classical
  induction coal with
  | nil => simp [keptClusters]
  | cons d coal ih =>
    have hd := List.nodup_cons.1 hnd
    have ih := ih hd.2
    rcases keptClusters_cons val pi d coal with ⟨v, hv, hp, e⟩ | ⟨hn, e⟩
    · rw [e, List.filter_cons]
      by_cases hdc : d = c
      · subst hdc
        simp only [decide_true, if_true, List.length_cons, ih]
        rw [if_neg (fun h => hd.1 h.1), if_pos ⟨by simp, v, hv, hp⟩]
      · simp only [hdc, decide_false, Bool.false_eq_true, if_false, ih]
        congr 1
        simp [Ne.symm hdc]
    · rw [e, ih]
      congr 1
      rw [List.mem_cons, eq_iff_iff]
      constructor
      · exact fun h => ⟨Or.inr h.1, h.2⟩
      · rintro ⟨rfl | h, h'⟩
        · exact absurd h' hn
        · exact ⟨h, h'⟩

/-- **C83, coalitions.** Without groups `global_sdp_importance` gives every coalition the proportion of observations that have it as a cluster
with a value of at least `pi_level`. -/
theorem C83_coalitions {n m : Nat} (f : Nat → ℚ → List Nat → Option ℚ) (val : Nat → List Nat → Option ℚ)
    (proba decay thr pi : ℚ) (c : List Nat) :
    coalitionCount n (globalKept n m f val proba decay thr pi [[]]) c =
      (open Classical in ((Finset.range n).filter fun i => c ∈ (localClusters (f i) proba decay thr [[]] (List.range m)).1 ∧
        ReachesLevel (val i) pi c).card / n : ℚ) := by
  classical
  have hlen : ∀ k, ((globalKept k m f val proba decay thr pi [[]]).filter fun p => decide (p.1 = c)).length =
      ((Finset.range k).filter fun i => c ∈ (localClusters (f i) proba decay thr [[]] (List.range m)).1 ∧ ReachesLevel (val i) pi c).card := by
    intro k
    induction k with
    | zero => simp [globalKept, allKept]
    | succ k ih =>
      have hp := C82_partition (f k) proba decay thr (index := List.range m) List.nodup_range
      have hnd : (localClusters (f k) proba decay thr [[]] (List.range m)).1.Nodup := by
        have := List.nodup_flatten.1 (hp.1.nodup_iff.2 List.nodup_range)
        refine this.2.imp_of_mem fun {a b} ha _ hab he => ?_
        subst he
        obtain ⟨i, hi⟩ := List.exists_mem_of_ne_nil a (hp.2 a ha)
        exact hab hi hi
      unfold globalKept at ih ⊢
      rw [allKept_succ, List.filter_append, List.length_append, ih, kept_coalition hnd, Finset.range_add_one, Finset.filter_insert]
      split
      · rw [Finset.card_insert_of_notMem (by simp)]
      · rfl
  unfold coalitionCount
  rw [List.map_const', List.sum_replicate, hlen]
  simp [div_eq_mul_inv]

theorem clusters_nodup (f : ℚ → List Nat → Option ℚ) (proba decay thr : ℚ) (m : Nat) :
    (localClusters f proba decay thr [[]] (List.range m)).1.Nodup := by
  have hp := C82_partition f proba decay thr (index := List.range m) List.nodup_range
  have := List.nodup_flatten.1 (hp.1.nodup_iff.2 List.nodup_range)
  refine this.2.imp_of_mem fun {a b} ha _ hab he => ?_
  subst he
  obtain ⟨i, hi⟩ := List.exists_mem_of_ne_nil a (hp.2 a ha)
  exact hab hi hi

theorem kept_coalition_sum {val : List Nat → Option ℚ} {pi : ℚ} {coal : List (List Nat)} (hnd : coal.Nodup) (c : List Nat) :
    (((keptClusters val pi coal).filter fun p => decide (p.1 = c)).map Prod.snd).sum =
      (open Classical in if c ∈ coal ∧ ReachesLevel val pi c then (val c).getD 0 else 0) := by
  have hval : ∀ v ∈ ((keptClusters val pi coal).filter fun p => decide (p.1 = c)).map Prod.snd, v = (val c).getD 0 := by
    intro v hv
    obtain ⟨p, hp, rfl⟩ := List.mem_map.1 hv
    obtain ⟨hp, hpc⟩ := List.mem_filter.1 hp
    obtain ⟨d, _, hd⟩ := List.mem_filterMap.1 hp
    have hpc := of_decide_eq_true hpc
    cases h : val d with
    | none => rw [h] at hd; cases hd
    | some u =>
      rw [h] at hd
      simp only at hd
      split at hd
      · cases hd
        rw [← hpc, h]; rfl
      · cases hd
  rw [List.eq_replicate_of_mem hval, List.sum_replicate, List.length_map, kept_coalition hnd]
  split <;> simp

/-- **C83, value of a coalition.** Without groups the value of a coalition is the mean, over the observations that have it as a cluster with a
value of at least `pi_level`, of this value. -/
theorem C83_coalition_value {n m : Nat} (f : Nat → ℚ → List Nat → Option ℚ) (val : Nat → List Nat → Option ℚ)
    (proba decay thr pi : ℚ) (c : List Nat) {R : Finset Nat}
    (hR : ∀ i, i ∈ R ↔ i < n ∧ c ∈ (localClusters (f i) proba decay thr [[]] (List.range m)).1 ∧ ReachesLevel (val i) pi c) (hne : R.Nonempty) :
    coalitionMean (globalKept n m f val proba decay thr pi [[]]) c = some ((∑ i ∈ R, (val i c).getD 0) / R.card) := by
  classical
  have key : ∀ k, let R := (Finset.range k).filter fun i => c ∈ (localClusters (f i) proba decay thr [[]] (List.range m)).1 ∧ ReachesLevel (val i) pi c
      ((globalKept k m f val proba decay thr pi [[]]).filter fun p => decide (p.1 = c)).length = R.card ∧
      (((globalKept k m f val proba decay thr pi [[]]).filter fun p => decide (p.1 = c)).map Prod.snd).sum = ∑ i ∈ R, (val i c).getD 0 := by
    intro k
    induction k with
    | zero => simp [globalKept, allKept]
    | succ k ih =>
      unfold globalKept at ih ⊢
      intro R
      have hnd := clusters_nodup (f k) proba decay thr m
      rw [allKept_succ, List.filter_append, List.length_append, List.map_append, List.sum_append, ih.1, ih.2, kept_coalition hnd,
        kept_coalition_sum hnd]
      simp only [R]
      rw [Finset.range_add_one, Finset.filter_insert]
      split
      · rw [Finset.card_insert_of_notMem (by simp), Finset.sum_insert (by simp)]
        exact ⟨rfl, add_comm _ _⟩
      · simp
  have e : R = (Finset.range n).filter fun i => c ∈ (localClusters (f i) proba decay thr [[]] (List.range m)).1 ∧ ReachesLevel (val i) pi c := by
    ext i; rw [hR, Finset.mem_filter, Finset.mem_range]
  obtain ⟨h1, h2⟩ := key n
  rw [← e] at h1 h2
  unfold coalitionMean npDiv
  rw [h1, h2, if_neg]
  exact_mod_cast (Finset.card_pos.2 hne).ne'

/-- Two observations: the clusters of the first reach the level for columns 0, 1, 2, those of the second for column 2. -/
example : globalKept 2 4 (fun _ => exValue) (fun i S => if i = 0 then exValue 1 S else if S = [2] then some 1 else none) (9 / 10) (1 / 2) 1 1
    [[]] = [([2], 1), ([0, 1], 1), ([2], 1)] := by decide +kernel

end Acv

import Verif.Lemmas.Rounded

/-!
# The rounding error of the Shapley values: sums over the tables
-/

namespace Acv

/-- All additions to a cell of the table: leaf and (player, player number, subset number). -/
def cellAdds (t : TreeArr) (m : Nat) (C : List (List Nat)) (j leaf c : Nat) : List (Nat × List Nat × Nat × Nat) :=
  match t.leafIdx[leaf]? with
  | none => []
  | some ℓ => (leafBlocks m C (leafPlayersCy m C (t.leafCols ℓ))).flatMap fun b => if c = b.2.2 then List.replicate (b.1.count j) (ℓ, b) else []

theorem cell_rnd {rnd : ℚ → ℚ} (hk : KeepsIntegers rnd) (t : TreeArr) (m : Nat) (data : List Row) (hd : data.length ≤ 2 ^ 53) (C : List (List Nat)) (x : Row)
    (j k leaf c : Nat) (mem : LCell → ℚ) :
    seqLoop (leafProgM (roundMachine rnd) (coefZeroRnd rnd) (coefLoopRnd rnd) t (fun ℓ => t.value ℓ k) m data C x) t.leafIdx.length
      (resetPhiM (roundMachine rnd) mem) (.phi leaf c j) =
    (cellAdds t m C j leaf c).foldl (fun p b => rnd (p + termRnd rnd m data (t.leafRect b.1) x b.2.1
      ((leafPlayersCy m C (t.leafCols b.1)).erase b.2.1) b.2.2.2 (t.value b.1 k))) 0 := by
  have k0 : rnd 0 = 0 := by have := hk 0 (by norm_num); simpa using this
  set P := leafProgM (roundMachine rnd) (coefZeroRnd rnd) (coefLoopRnd rnd) t (fun ℓ => t.value ℓ k) m data C x with hPdef
  have hP : RaceFree P := raceFree_of_owner LCell.leaf fun i s hs => leafProgM_owner hs
  have hq : Quiet P leaf (.phi leaf c j) := fun i hi s hs he => hi (by
    have := (leafProgM_owner hs).1
    rw [he] at this
    exact this.symm)
  have hr : resetPhiM (roundMachine rnd) mem (.phi leaf c j) = 0 := by simp [resetPhiM, roundMachine, k0]
  unfold seqLoop
  by_cases hl : leaf < t.leafIdx.length
  · rw [seq_solo hP (List.range _) List.nodup_range (List.mem_range.mpr hl) (fun _ _ => rfl) _ hq]
    have hg : t.leafIdx[leaf]? = some t.leafIdx[leaf] := List.getElem?_eq_getElem hl
    unfold cellAdds
    rw [hg, hPdef, leafProgM_blocks hg]
    simp only
    have hb := solo_blocksM (fun a b => rnd (a + b)) (leafBlocks m C (leafPlayersCy m C (t.leafCols t.leafIdx[leaf])))
      (fun b => leafCounterProgM (roundMachine rnd) (coefZeroRnd rnd) (coefLoopRnd rnd) m data (t.leafRect t.leafIdx[leaf]) (t.value t.leafIdx[leaf] k) x leaf
        b.2.1 b.1 ((leafPlayersCy m C (t.leafCols t.leafIdx[leaf])).erase b.1) b.2.2)
      (fun b => termRnd rnd m data (t.leafRect t.leafIdx[leaf]) x b.1
        ((leafPlayersCy m C (t.leafCols t.leafIdx[leaf])).erase b.1) b.2.2 (t.value t.leafIdx[leaf] k)) (fun b => b.1.count j) (fun b => (leaf, b.2.2)) leaf c j
      (by
        intro b _ mem
        have h := solo_blockRnd hk m data hd (t.leafRect t.leafIdx[leaf]) (t.value t.leafIdx[leaf] k) x leaf b.2.1 b.1
          ((leafPlayersCy m C (t.leafCols t.leafIdx[leaf])).erase b.1) b.2.2 mem leaf c j
        refine h.trans ?_
        by_cases hcc : leaf = leaf ∧ c = b.2.2
        · rw [if_pos hcc]
        · rw [if_neg hcc]) (resetPhiM (roundMachine rnd) mem)
    simp only at hb
    rw [hb, hr]
    simp only [true_and]
    generalize leafBlocks m C (leafPlayersCy m C (t.leafCols t.leafIdx[leaf])) = bs
    generalize (0 : ℚ) = p
    induction bs generalizing p with
    | nil => rfl
    | cons b bs ih =>
      rw [List.flatMap_cons, List.flatMap_cons, List.foldl_append, List.foldl_append, ih]
      congr 1
      split
      · generalize b.1.count j = n
        induction n generalizing p with
        | zero => rfl
        | succ n ihn => rw [List.replicate_succ, List.replicate_succ, List.foldl_cons, List.foldl_cons, ihn]
      · rfl
  · rw [seq_quiet hP hq _ (by simpa using hl), hr]
    unfold cellAdds
    rw [List.getElem?_eq_none (by omega)]
    rfl

theorem leafBlocks_sum_gen (m : Nat) (C node : List (List Nat)) (j : Nat) (F : List Nat → Nat → ℚ) :
    ((leafBlocks m C node).map fun b => (b.1.count j : ℚ) * F b.1 b.2.2).sum =
    ((playersCy m C).map fun va => if va ∈ node then ((List.range (2 ^ (node.erase va).length)).map fun c => (va.count j : ℚ) * F va c).sum else 0).sum := by
  unfold leafBlocks
  have key : ∀ (l : List (List Nat)) (s : Nat), (((l.zipIdx s).flatMap fun gv =>
      if gv.1 ∈ node then (List.range (2 ^ (node.erase gv.1).length)).map fun counter => (gv.1, gv.2, counter) else []).map
      fun b => (b.1.count j : ℚ) * F b.1 b.2.2).sum =
      (l.map fun va => if va ∈ node then ((List.range (2 ^ (node.erase va).length)).map fun c => (va.count j : ℚ) * F va c).sum else 0).sum := by
    intro l
    induction l with
    | nil => intro s; simp
    | cons a l ih =>
      intro s
      rw [List.zipIdx_cons, List.flatMap_cons, List.map_append, List.sum_append, ih, List.map_cons, List.sum_cons]
      congr 1
      split
      · rw [List.map_map]; rfl
      · rfl
  exact key _ 0

theorem replicate_map_sum {β : Type} (n : Nat) (b : β) (F : β → ℚ) : ((List.replicate n b).map F).sum = n * F b := by
  rw [List.map_replicate, List.sum_replicate, nsmul_eq_mul]

theorem cellAdds_sum_leaf {t : TreeArr} {m : Nat} {C : List (List Nat)} {leaf ℓ scaling : Nat} (h : t.leafIdx[leaf]? = some ℓ)
    (hs : ∀ g ∈ leafPlayersCy m C (t.leafCols ℓ), ((leafPlayersCy m C (t.leafCols ℓ)).erase g).length ≤ scaling) (j : Nat)
    (F : Nat → List Nat → Nat → ℚ) :
    ((List.range (2 ^ scaling)).map fun c => ((cellAdds t m C j leaf c).map fun b => F b.1 b.2.1 b.2.2.2).sum).sum =
    ((leafBlocks m C (leafPlayersCy m C (t.leafCols ℓ))).map fun b => (b.1.count j : ℚ) * F ℓ b.1 b.2.2).sum := by
  rw [← sum_blocks (leafBlocks m C (leafPlayersCy m C (t.leafCols ℓ))) (2 ^ scaling) (fun b => b.2.2)]
  · congr 1
    apply List.map_congr_left
    intro c _
    unfold cellAdds
    rw [h]
    simp only
    generalize leafBlocks m C (leafPlayersCy m C (t.leafCols ℓ)) = bs
    induction bs with
    | nil => rfl
    | cons b bs ih =>
      rw [List.flatMap_cons, List.map_append, List.sum_append, ih, List.map_cons, List.sum_cons]
      congr 1
      split
      · rw [replicate_map_sum]
      · rfl
  · intro b hb
    obtain ⟨gv, _, hb⟩ := List.mem_flatMap.mp hb
    split at hb
    · rename_i hg
      obtain ⟨c, hc, rfl⟩ := List.mem_map.mp hb
      exact lt_of_lt_of_le (List.mem_range.mp hc) (Nat.pow_le_pow_right (by decide) (hs _ hg))
    · simp at hb

theorem cellAdds_sum {t : TreeArr} {m : Nat} {C : List (List Nat)} {maxLeaves scaling : Nat} (hmax : t.leafIdx.length ≤ maxLeaves)
    (hs : ∀ ℓ ∈ t.leafIdx, ∀ g ∈ leafPlayersCy m C (t.leafCols ℓ), ((leafPlayersCy m C (t.leafCols ℓ)).erase g).length ≤ scaling) (j : Nat)
    (F : Nat → List Nat → Nat → ℚ) :
    ((List.range maxLeaves).map fun leaf => ((List.range (2 ^ scaling)).map fun c =>
      ((cellAdds t m C j leaf c).map fun b => F b.1 b.2.1 b.2.2.2).sum).sum).sum =
    (t.leafIdx.map fun ℓ => ((leafBlocks m C (leafPlayersCy m C (t.leafCols ℓ))).map fun b => (b.1.count j : ℚ) * F ℓ b.1 b.2.2).sum).sum := by
  obtain ⟨e, rfl⟩ := Nat.exists_eq_add_of_le hmax
  rw [List.range_add, List.map_append, List.sum_append]
  have h2 : (List.map (fun leaf => ((List.range (2 ^ scaling)).map fun c =>
      ((cellAdds t m C j leaf c).map fun b => F b.1 b.2.1 b.2.2.2).sum).sum) ((List.range e).map (t.leafIdx.length + ·))).sum = 0 := by
    apply List.sum_eq_zero
    intro a ha
    rw [List.map_map] at ha
    obtain ⟨c, _, rfl⟩ := List.mem_map.mp ha
    have : ∀ c', cellAdds t m C j (t.leafIdx.length + c) c' = [] := by
      intro c'; unfold cellAdds; rw [List.getElem?_eq_none (by omega)]
    simp [this]
  rw [h2, add_zero]
  congr 1
  apply List.ext_getElem
  · simp
  · intro i h1 h2
    simp only [List.getElem_map, List.getElem_range]
    simp only [List.length_map] at h2
    exact cellAdds_sum_leaf (List.getElem?_eq_getElem h2) (hs _ (List.getElem_mem h2)) j F

theorem players_count_le {m : Nat} {C : List (List Nat)} (hC : ValidGroups m C) (j : Nat) :
    ((playersCy m C).map fun va => va.count j).sum ≤ 1 := by
  obtain ⟨hpn, hpm⟩ := playersCy_spec hC
  have h : ∀ l : List (List Nat), l.Nodup → (∀ c ∈ l, c ∈ playerSet m C) → (l.map fun va => va.count j).sum ≤ 1 := by
    intro l
    induction l with
    | nil => intro _ _; simp
    | cons a l ih =>
      intro hn hl
      rw [List.nodup_cons] at hn
      rw [List.map_cons, List.sum_cons]
      have ha := hl a (by simp)
      by_cases hj : j ∈ a
      · have h0 : (l.map fun va => va.count j).sum = 0 := by
          apply List.sum_eq_zero
          intro q hq
          obtain ⟨b, hb, rfl⟩ := List.mem_map.mp hq
          refine List.count_eq_zero_of_not_mem fun hjb => hn.1 ?_
          rw [playerSet_disjoint hC ha (hl b (by simp [hb])) hj hjb]
          exact hb
        rw [h0, List.count_eq_one_of_mem (playerSet_lt hC ha).2.1 hj]
      · rw [List.count_eq_zero_of_not_mem hj, zero_add]
        exact ih hn.2 (fun c hc => hl c (by simp [hc]))
  exact h _ hpn fun c hc => (hpm c).mp hc

theorem cellAdds_length {t : TreeArr} {m : Nat} {C : List (List Nat)} (hC : ValidGroups m C) (j leaf c : Nat) : (cellAdds t m C j leaf c).length ≤ 1 := by
  unfold cellAdds
  split
  · simp
  · rename_i ℓ _
    generalize leafPlayersCy m C (t.leafCols ℓ) = node
    refine le_trans ?_ (players_count_le hC j)
    unfold leafBlocks
    have key : ∀ (l : List (List Nat)) (s : Nat), (((l.zipIdx s).flatMap fun gv =>
        if gv.1 ∈ node then (List.range (2 ^ (node.erase gv.1).length)).map fun counter => (gv.1, gv.2, counter) else []).flatMap
        fun b => if c = b.2.2 then List.replicate (b.1.count j) (ℓ, b) else []).length ≤ (l.map fun va => va.count j).sum := by
      intro l
      induction l with
      | nil => intro s; simp
      | cons a l ih =>
        intro s
        rw [List.zipIdx_cons, List.flatMap_cons, List.flatMap_append, List.length_append, List.map_cons, List.sum_cons]
        refine Nat.add_le_add ?_ (ih _)
        split
        · rw [List.flatMap_map]
          simp only
          generalize 2 ^ (node.erase a).length = n
          rw [List.length_flatMap]
          have e1 : ∀ c', (if c = c' then List.replicate (a.count j) (ℓ, a, s, c') else []).length = if c' = c then a.count j else 0 := by
            intro c'
            by_cases h : c = c'
            · rw [if_pos h, if_pos h.symm, List.length_replicate]
            · rw [if_neg h, if_neg (Ne.symm h), List.length_nil]
          simp only [e1]
          induction n with
          | zero => simp
          | succ n ihn =>
            rw [List.range_succ, List.map_append, List.sum_append]
            simp only [List.map_cons, List.map_nil, List.sum_cons, List.sum_nil, add_zero]
            by_cases hn : n = c
            · subst hn
              have h0 : ((List.range n).map fun c' => if c' = n then a.count j else 0).sum = 0 := by
                apply List.sum_eq_zero
                intro q hq
                obtain ⟨b, hb, rfl⟩ := List.mem_map.mp hq
                rw [if_neg (by have := List.mem_range.mp hb; omega)]
              rw [h0]; simp
            · rw [if_neg hn, add_zero]; exact ihn
        · simp
    exact key _ 0

theorem cellAdds_mem {t : TreeArr} {m : Nat} {C : List (List Nat)} {j leaf c : Nat} {b : Nat × List Nat × Nat × Nat} (hb : b ∈ cellAdds t m C j leaf c) :
    b.1 ∈ t.leafIdx ∧ b.2.1 ∈ playersCy m C ∧ b.2.1 ∈ leafPlayersCy m C (t.leafCols b.1) := by
  unfold cellAdds at hb
  split at hb
  · simp at hb
  · rename_i ℓ hℓ
    obtain ⟨b', hb', h⟩ := List.mem_flatMap.mp hb
    split at h
    · have := (List.mem_replicate.mp h).2
      subst this
      unfold leafBlocks at hb'
      obtain ⟨gv, hgv, h2⟩ := List.mem_flatMap.mp hb'
      split at h2
      · rename_i hg
        obtain ⟨c', _, rfl⟩ := List.mem_map.mp h2
        exact ⟨List.mem_of_getElem? hℓ, (List.mem_zipIdx' hgv).2 ▸ List.getElem_mem _, hg⟩
      · simp at h2
    · simp at h

/-- The weights of the subsets add up to `m`. -/
theorem weights_sum {m : Nat} (hm : m ≤ 52) {rest : List (List Nat)} (hn : rest.Nodup) (hr : rest.length < m) :
    ((List.range (2 ^ rest.length)).map fun c => coefZero m (maskSel rest c).length + coefLoop m rest.length (maskSel rest c).length).sum / m = 1 := by
  rw [mask_sum rest hn (fun sel => coefZero m sel.length + coefLoop m rest.length sel.length)
    (fun S => coefZero m S.card + coefLoop m rest.length S.card) (by
      intro sel hs
      have : sel.toFinset.card = sel.length := List.toFinset_card_of_nodup (hn.sublist hs)
      simp only [this]), Finset.sum_div]
  have hc : rest.toFinset.card = rest.length := List.toFinset_card_of_nodup hn
  have e1 : ∀ S ∈ rest.toFinset.powerset, (coefZero m S.card + coefLoop m rest.length S.card) / m = shapW (rest.length + 1) S.card := by
    intro S hS
    have := Finset.card_le_card (Finset.mem_powerset.mp hS)
    exact coef_eq hr (by omega) (by unfold ulongMax; omega)
  rw [Finset.sum_congr rfl e1, Finset.sum_powerset_apply_card (fun s => shapW (rest.length + 1) s), hc]
  have h := shapW_sum 1 rest.length 0 (by norm_num)
  simp only [zero_add, Nat.add_comm 1] at h
  simp only [nsmul_eq_mul]
  rw [h]
  simp [shapW]

/-- The size of what a leaf adds to a column, over `m`: at most twice the leaf value. -/
theorem leaf_magnitude {t : TreeArr} {m : Nat} (ht : WellFormed t m) {ℓ : Nat} (hℓ : ℓ ∈ t.leafIdx) {C : List (List Nat)} (hC : ValidGroups m C)
    (hm : m ≤ 52) (j : Nat) {v : ℚ} (hv : 0 ≤ v) :
    ((leafBlocks m C (leafPlayersCy m C (t.leafCols ℓ))).map fun b => (b.1.count j : ℚ) *
      ((coefZero m (maskSel ((leafPlayersCy m C (t.leafCols ℓ)).erase b.1) b.2.2).length +
        coefLoop m ((leafPlayersCy m C (t.leafCols ℓ)).erase b.1).length (maskSel ((leafPlayersCy m C (t.leafCols ℓ)).erase b.1) b.2.2).length) * 2 * v)).sum / m
      ≤ 2 * v := by
  obtain ⟨hnd, hlt, _⟩ := leafCols_spec ht hℓ
  obtain ⟨hpn, hpm⟩ := playersCy_spec hC
  obtain ⟨hln, hlm⟩ := leafPlayers_spec hC hnd hlt
  rw [leafBlocks_sum_gen m C _ j (fun g c => (coefZero m (maskSel ((leafPlayersCy m C (t.leafCols ℓ)).erase g) c).length +
        coefLoop m ((leafPlayersCy m C (t.leafCols ℓ)).erase g).length (maskSel ((leafPlayersCy m C (t.leafCols ℓ)).erase g) c).length) * 2 * v)]
  have hcard : (leafPlayersCy m C (t.leafCols ℓ)).length ≤ m := by
    have h1 : (leafPlayersCy m C (t.leafCols ℓ)).toFinset ⊆ playerSet m C := by
      intro c hc; rw [List.mem_toFinset, hlm] at hc; exact hc.1
    have h2 := Finset.card_le_card h1
    rw [List.toFinset_card_of_nodup hln] at h2
    exact h2.trans (playerSet_card hC)
  have hm0 : (0 : ℚ) ≤ m := Nat.cast_nonneg _
  -- each player of the leaf contributes its number of occurrences times `2 v m`
  have hp : ∀ va ∈ playersCy m C, (if va ∈ leafPlayersCy m C (t.leafCols ℓ) then
      ((List.range (2 ^ ((leafPlayersCy m C (t.leafCols ℓ)).erase va).length)).map fun c => (va.count j : ℚ) *
        ((coefZero m (maskSel ((leafPlayersCy m C (t.leafCols ℓ)).erase va) c).length +
        coefLoop m ((leafPlayersCy m C (t.leafCols ℓ)).erase va).length (maskSel ((leafPlayersCy m C (t.leafCols ℓ)).erase va) c).length) * 2 * v)).sum else 0)
      ≤ (va.count j : ℚ) * (2 * v * m) := by
    intro va _
    split
    · rename_i hva
      have hlen : ((leafPlayersCy m C (t.leafCols ℓ)).erase va).length < m := by
        have h1 := List.length_erase_of_mem hva
        have := List.length_pos_of_mem hva
        omega
      have hw := weights_sum hm (hln.erase va) hlen
      have hmp : (0 : ℚ) < m := by
        have : 0 < m := by omega
        exact_mod_cast this
      rw [div_eq_one_iff_eq hmp.ne'] at hw
      rw [List.sum_map_mul_left]
      refine le_of_eq ?_
      congr 1
      have e1 : ∀ w : ℚ, w * 2 * v = w * (2 * v) := fun w => by ring
      simp only [e1]
      rw [List.sum_map_mul_right, hw]
      ring
    · positivity
  have h1 := List.sum_le_sum hp
  rw [List.sum_map_mul_right] at h1
  have h2 : ((playersCy m C).map fun va => (va.count j : ℚ)).sum ≤ 1 := by
    have := players_count_le hC j
    have e1 : ((((playersCy m C).map fun va => va.count j).sum : Nat) : ℚ) = ((playersCy m C).map fun va => (va.count j : ℚ)).sum := by
      rw [Nat.cast_list_sum, List.map_map]; rfl
    rw [← e1]; exact_mod_cast this
  have h3 : ((playersCy m C).map fun va => (va.count j : ℚ)).sum * (2 * v * m) ≤ 1 * (2 * v * m) :=
    mul_le_mul_of_nonneg_right h2 (by positivity)
  refine div_le_of_le_mul₀ hm0 (by positivity) ?_
  linarith

theorem foldl_nested {α β γ : Type} (l : List α) (l' : List β) (f : γ → α → β → γ) (p : γ) :
    l.foldl (fun p a => l'.foldl (fun p b => f p a b) p) p = (l.flatMap fun a => l'.map fun b => (a, b)).foldl (fun p ab => f p ab.1 ab.2) p := by
  induction l generalizing p with
  | nil => rfl
  | cons a l ih => rw [List.foldl_cons, ih, List.flatMap_cons, List.foldl_append, List.foldl_map]

theorem sum_nested {α β : Type} (l : List α) (l' : List β) (F : α → β → ℚ) :
    ((l.flatMap fun a => l'.map fun b => (a, b)).map fun ab => F ab.1 ab.2).sum = (l.map fun a => (l'.map fun b => F a b).sum).sum := by
  induction l with
  | nil => rfl
  | cons a l ih =>
    rw [List.flatMap_cons, List.map_append, List.sum_append, ih, List.map_cons, List.sum_cons, List.map_map]
    rfl

theorem length_nested {α β : Type} (l : List α) (l' : List β) : (l.flatMap fun a => l'.map fun b => (a, b)).length = l.length * l'.length := by
  induction l with
  | nil => simp
  | cons a l ih => rw [List.flatMap_cons, List.length_append, ih, List.length_map, List.length_cons]; ring

/-- The error of one tree. -/
theorem tree_approx {rnd : ℚ → ℚ} {u : ℚ} (hr : RelErr rnd u) (hu : 0 ≤ u) (hk : KeepsIntegers rnd) {t : TreeArr} {m : Nat} (ht : WellFormed t m)
    (hm : m ≤ 52) {data : List Row} (hd : data.length ≤ 2 ^ 53) {C : List (List Nat)} (hC : ValidGroups m C) (x : Row) (j k : Nat) {maxLeaves scaling : Nat}
    (hmax : t.leafIdx.length ≤ maxLeaves)
    (hs : ∀ ℓ ∈ t.leafIdx, ∀ g ∈ leafPlayersCy m C (t.leafCols ℓ), ((leafPlayersCy m C (t.leafCols ℓ)).erase g).length ≤ scaling) (mem : LCell → ℚ)
    {e : Nat} (he : m + 6 ≤ e) {a y phi : ℚ} (hphi : Approx u e (a * m) y phi) :
    Approx u (e + maxLeaves * 2 ^ scaling) ((a + 2 * (t.leafIdx.map fun ℓ => |t.value ℓ k|).sum) * m)
      (y + (t.leafIdx.map fun ℓ => cyLeafPhi m data C (t.leafRect ℓ) (t.leafCols ℓ) x j * t.value ℓ k).sum)
      (gatherPhiM (roundMachine rnd) maxLeaves scaling j
        (seqLoop (leafProgM (roundMachine rnd) (coefZeroRnd rnd) (coefLoopRnd rnd) t (fun ℓ => t.value ℓ k) m data C x) t.leafIdx.length
          (resetPhiM (roundMachine rnd) mem)) phi) := by
  unfold gatherPhiM
  rw [foldl_nested]
  simp only [cell_rnd hk t m data hd C x j k]
  set rest : Nat → List Nat → List (List Nat) := fun ℓ g => (leafPlayersCy m C (t.leafCols ℓ)).erase g with hrest
  let A : Nat → List Nat → Nat → ℚ := fun ℓ g c => (coefZero m (maskSel (rest ℓ g) c).length + coefLoop m (rest ℓ g).length (maskSel (rest ℓ g) c).length) * 2 *
    |t.value ℓ k|
  let X : Nat → List Nat → Nat → ℚ := fun ℓ g c => cyTerm m data (t.leafRect ℓ) x g (rest ℓ g) c * t.value ℓ k
  -- one cell
  have hcell : ∀ lc ∈ (List.range maxLeaves).flatMap (fun leaf => (List.range (2 ^ scaling)).map fun c => (leaf, c)),
      Approx u e ((cellAdds t m C j lc.1 lc.2).map fun b => A b.1 b.2.1 b.2.2.2).sum ((cellAdds t m C j lc.1 lc.2).map fun b => X b.1 b.2.1 b.2.2.2).sum
        ((cellAdds t m C j lc.1 lc.2).foldl (fun p b => rnd (p + termRnd rnd m data (t.leafRect b.1) x b.2.1
          ((leafPlayersCy m C (t.leafCols b.1)).erase b.2.1) b.2.2.2 (t.value b.1 k))) 0) := by
    intro lc _
    have h := Approx.foldl hr hu (fun b : Nat × List Nat × Nat × Nat => A b.1 b.2.1 b.2.2.2) (fun b => X b.1 b.2.1 b.2.2.2)
      (fun b => termRnd rnd m data (t.leafRect b.1) x b.2.1 ((leafPlayersCy m C (t.leafCols b.1)).erase b.2.1) b.2.2.2 (t.value b.1 k))
      (cellAdds t m C j lc.1 lc.2) (m + 5) 0 0 0 (Approx.exact hu _ (by simp)) (by
        intro b hb
        obtain ⟨h1, h2, h3⟩ := cellAdds_mem hb
        obtain ⟨hnd, hlt, _⟩ := leafCols_spec ht h1
        obtain ⟨hpn, hpm⟩ := playersCy_spec hC
        obtain ⟨hln, hlm⟩ := leafPlayers_spec hC hnd hlt
        have hcard : (leafPlayersCy m C (t.leafCols b.1)).length ≤ m := by
          have h1 : (leafPlayersCy m C (t.leafCols b.1)).toFinset ⊆ playerSet m C := by
            intro c hc; rw [List.mem_toFinset, hlm] at hc; exact hc.1
          have h2 := Finset.card_le_card h1
          rw [List.toFinset_card_of_nodup hln] at h2
          exact h2.trans (playerSet_card hC)
        refine termRnd_approx hr hu hk hm data _ x _ _ ?_ (playerSet_lt hC ((hpm _).mp h2)).2.2 ?_
        · show ((leafPlayersCy m C (t.leafCols b.1)).erase b.2.1).length < m
          have h4 := List.length_erase_of_mem h3
          have := List.length_pos_of_mem h3
          omega
        · intro c hc
          exact (playerSet_lt hC ((hlm c).mp (List.mem_of_mem_erase hc)).1).2.2)
    rw [zero_add, zero_add] at h
    exact h.mono hu (by have := cellAdds_length (t := t) hC j lc.1 lc.2; omega) (le_refl _)
  have h := Approx.foldl hr hu _ _ _ _ e _ _ _ hphi hcell
  rw [length_nested, List.length_range, List.length_range,
    sum_nested _ _ (fun leaf c => ((cellAdds t m C j leaf c).map fun b => A b.1 b.2.1 b.2.2.2).sum),
    sum_nested _ _ (fun leaf c => ((cellAdds t m C j leaf c).map fun b => X b.1 b.2.1 b.2.2.2).sum),
    cellAdds_sum hmax hs j A, cellAdds_sum hmax hs j X] at h
  have hX : (t.leafIdx.map fun ℓ => ((leafBlocks m C (leafPlayersCy m C (t.leafCols ℓ))).map fun b => (b.1.count j : ℚ) * X ℓ b.1 b.2.2).sum).sum =
      (t.leafIdx.map fun ℓ => cyLeafPhi m data C (t.leafRect ℓ) (t.leafCols ℓ) x j * t.value ℓ k).sum := by
    congr 1
    apply List.map_congr_left
    intro ℓ _
    rw [← leafBlocks_sum]
    congr 1
    apply List.map_congr_left
    intro b _
    show _ * (_ * _) = _
    rw [← mul_assoc]
  rw [hX] at h
  refine h.mono hu (le_refl _) ?_
  rw [add_mul]
  refine add_le_add (le_refl _) ?_
  rw [mul_assoc, mul_comm _ (m : ℚ), ← mul_assoc, ← List.sum_map_mul_left]
  refine List.sum_le_sum ?_
  intro ℓ hℓ
  have hmag := leaf_magnitude ht hℓ hC hm j (abs_nonneg (t.value ℓ k))
  rcases Nat.eq_zero_or_pos m with h0 | hpos
  · -- no columns: no players
    have : leafBlocks m C (leafPlayersCy m C (t.leafCols ℓ)) = [] := by
      unfold leafBlocks
      have hp : playersCy m C = [] := by
        rcases List.eq_nil_or_concat (playersCy m C) with h | ⟨l, g, h⟩
        · exact h
        · exfalso
          have hg : g ∈ playersCy m C := by rw [h]; simp
          have h1 := playerSet_lt hC (((playersCy_spec hC).2 g).mp hg)
          obtain ⟨b, l', rfl⟩ := List.exists_cons_of_ne_nil h1.1
          have := h1.2.2 b (by simp)
          omega
      rw [hp]; rfl
    rw [this]
    simp [h0]
  · have hmp : (0 : ℚ) < m := by exact_mod_cast hpos
    rw [div_le_iff₀ hmp] at hmag
    have e1 : 2 * (m : ℚ) * |t.value ℓ k| = 2 * |t.value ℓ k| * m := by ring
    rw [e1]
    exact hmag

/-- The error of the routine. -/
theorem shapSequential_approx {rnd : ℚ → ℚ} {u : ℚ} (hr : RelErr rnd u) (hu : 0 ≤ u) (hk : KeepsIntegers rnd) {m : Nat} (hm : m ≤ 52) {data : List Row}
    (hd : data.length ≤ 2 ^ 53) {C : List (List Nat)} (hC : ValidGroups m C) (x : Row) (j k : Nat) {maxLeaves scaling : Nat} :
    ∀ (ts : List TreeArr), (∀ t ∈ ts, WellFormed t m) → (∀ t ∈ ts, t.leafIdx.length ≤ maxLeaves) →
    (∀ t ∈ ts, ∀ ℓ ∈ t.leafIdx, ∀ g ∈ leafPlayersCy m C (t.leafCols ℓ), ((leafPlayersCy m C (t.leafCols ℓ)).erase g).length ≤ scaling) →
    0 < m → ∀ (mem : LCell → ℚ) (e : Nat) (a y phi : ℚ), m + 6 ≤ e → Approx u e (a * m) y phi →
    Approx u (e + ts.length * (maxLeaves * 2 ^ scaling) + 1) (a + 2 * (ts.map fun t => (t.leafIdx.map fun ℓ => |t.value ℓ k|).sum).sum)
      (y / m + shapCy ts m data C x j k)
      (shapSequentialM (roundMachine rnd) (coefZeroRnd rnd) (coefLoopRnd rnd) m data C x j maxLeaves scaling (ts.map fun t => (t, fun ℓ => t.value ℓ k)) mem phi)
  | [], _, _, _, hm0, mem, e, a, y, phi, he, hphi => by
    have hmp : (0 : ℚ) < m := by exact_mod_cast hm0
    have h := (hphi.divExact hmp).rnd hr hu
    rw [mul_div_cancel_right₀ _ hmp.ne'] at h
    simp only [List.map_nil, List.sum_nil, List.length_nil, zero_mul, mul_zero, add_zero, shapCy, zero_div, shapSequentialM]
    show Approx u (e + 1) a (y / m) (rnd (phi / rnd m))
    rw [hk m (by omega)]
    exact h
  | t :: ts, hwf, hmax, hs, hm0, mem, e, a, y, phi, he, hphi => by
    have ht := tree_approx hr hu hk (hwf t (by simp)) hm hd hC x j k (hmax t (by simp)) (hs t (by simp)) mem he hphi
    have h := shapSequential_approx hr hu hk hm hd hC x j k ts (fun t' h' => hwf t' (by simp [h'])) (fun t' h' => hmax t' (by simp [h']))
      (fun t' h' => hs t' (by simp [h'])) hm0
      (seqLoop (leafProgM (roundMachine rnd) (coefZeroRnd rnd) (coefLoopRnd rnd) t (fun ℓ => t.value ℓ k) m data C x) t.leafIdx.length
          (resetPhiM (roundMachine rnd) mem)) _ _ _ _ (by omega) ht
    have e1 : e + (t :: ts).length * (maxLeaves * 2 ^ scaling) + 1 = e + maxLeaves * 2 ^ scaling + ts.length * (maxLeaves * 2 ^ scaling) + 1 := by
      rw [List.length_cons]; ring
    have e2 : y / m + shapCy (t :: ts) m data C x j k = (y + (t.leafIdx.map fun ℓ => cyLeafPhi m data C (t.leafRect ℓ) (t.leafCols ℓ) x j *
        t.value ℓ k).sum) / m + shapCy ts m data C x j k := by
      unfold shapCy
      rw [List.map_cons, List.sum_cons]
      ring
    have e3 : a + 2 * (((t :: ts).map fun t => (t.leafIdx.map fun ℓ => |t.value ℓ k|).sum).sum) =
        a + 2 * (t.leafIdx.map fun ℓ => |t.value ℓ k|).sum + 2 * (ts.map fun t => (t.leafIdx.map fun ℓ => |t.value ℓ k|).sum).sum := by
      rw [List.map_cons, List.sum_cons]; ring
    rw [e1, e2, e3, List.map_cons]
    exact h

end Acv

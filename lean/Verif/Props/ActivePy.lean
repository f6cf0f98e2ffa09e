import Verif.Lemmas.ActivePy
import Verif.Props.ActiveShap
import Verif.Spec.TreeSdp
import Verif.Props.Normalized

/-! # C85: the Python Active Shapley values -/

namespace Acv

open Classical in
theorem activeGame_sum (ts : List TreeArr) (m : Nat) (data : List Row) (N : List Nat) (x : Row) (k : Nat) (P : Finset (List Nat))
    (g : List Nat) : shapley P (activeGame ts m data N x k) g = (ts.map fun t => (t.leafIdx.map fun ℓ =>
      t.value ℓ k * shapley P (fun T => if T = ∅ then leafShare m data (t.leafRect ℓ) x ∅ else
        leafShare m data (t.leafRect ℓ) x (insert N T)) g).sum).sum := by
  have h1 : activeGame ts m data N x k = fun T => (ts.map fun t => (fun T => (t.leafIdx.map fun ℓ =>
      t.value ℓ k * (if T = ∅ then leafShare m data (t.leafRect ℓ) x ∅ else
        leafShare m data (t.leafRect ℓ) x (insert N T))).sum) T).sum := by
    funext T
    unfold activeGame leafGame
    by_cases hT : T = ∅ <;> simp [hT]
  rw [h1, shapley_sum]
  congr 1
  apply List.map_congr_left
  intro t ht
  rw [shapley_sum _ t.leafIdx (fun ℓ T => t.value ℓ k * (if T = ∅ then leafShare m data (t.leafRect ℓ) x ∅ else
        leafShare m data (t.leafRect ℓ) x (insert N T))) g]
  congr 1
  apply List.map_congr_left
  intro ℓ _
  rw [shapley_mul]

/-- **C85, value.** If every leaf contains a background row, the active and the null columns split the columns, no active group is a single
column and the observation is on no split, the Python Active Shapley value of a column is the Shapley value of its player in the active
game. -/
theorem C85_active_python_value_partial {ts : List TreeArr} {m : Nat} (hts : ∀ t ∈ ts, WellFormed t m) {data : List Row}
    {C : List (List Nat)} (hC : ValidGroups m C) {S N : List Nat} (hns : ∀ g ∈ C, (∀ s ∈ g, s ∈ S) → g.length ≠ 1)
    (hA : ValidActive m C S N) {x : Row} (hx : ∀ t ∈ ts, OffSplits t x) (k : Nat) (hcov : LeavesCovered ts data) {g : List Nat}
    (hg : g ∈ activeSet m C S) {j : Nat} (hj : j ∈ g) :
    activePy ts m data C S N x j k = .ok (some (shapley (activeSet m C S) (activeGame ts m data N x k) g)) := by
  classical
  have hns' : ∀ g ∈ pyActiveGroups C S, 1 < g.length := by
    intro g hg
    obtain ⟨h1, ⟨h2, _⟩, h3⟩ := (pyActiveGroups_facts hC S).1 g hg
    have := hns g h1 h3
    have := List.length_pos_iff.2 h2
    omega
  have hcnt := hcov.cnt hts
  have hd : ((pyActiveD C S : ℕ) : ℚ) ≠ 0 := by
    rw [(pyActivePlayers_spec hC hA).2.2.2]
    exact_mod_cast (Finset.card_pos.2 ⟨g, hg⟩).ne'
  unfold activePy
  rw [mapM_ok _ _ (fun t => some ((t.leafIdx.map fun ℓ => t.value ℓ k * shapley (activeSet m C S) (fun T => if T = ∅ then
    leafShare m data (t.leafRect ℓ) x ∅ else leafShare m data (t.leafRect ℓ) x (insert N T)) g).sum))]
  · simp only [bind, Except.bind, pure, Except.pure]
    rw [osum_of_forall ts _ _ fun t _ => rfl, activeGame_sum]
  · intro t ht
    unfold activeTreePy
    have hleaf := fun ℓ (hℓ : ℓ ∈ t.leafIdx) => pyActiveLeaf_eq (hts t ht) hℓ hC hns' hA x
      (fun s => offSplits_lo (hts t ht) (hx t ht) hℓ s) (t.value ℓ k) (hcnt t ht ℓ hℓ) hg hj
    have hW : ∃ W : Nat → List (Nat × Option ℚ), ∀ ℓ ∈ t.leafIdx,
        pyActiveWrites m data C S N (t.leafRect ℓ) (t.leafCols ℓ) x (t.value ℓ k) = .ok (W ℓ) :=
      ⟨fun ℓ => if h : ℓ ∈ t.leafIdx then (hleaf ℓ h).choose else [], fun ℓ h => by
        simp only [dif_pos h]
        exact (hleaf ℓ h).choose_spec.1⟩
    obtain ⟨W, hW⟩ := hW
    rw [mapM_ok _ _ W hW]
    simp only [bind, Except.bind, pure, Except.pure]
    congr 1
    have hnp : (fun p => npDiv p (pyActiveD C S : ℚ)) = fun p : ℚ => some (p / (pyActiveD C S : ℚ)) := by
      funext p; unfold npDiv; rw [if_neg hd]
    have hb : ∀ (o : Option ℚ) (d : ℚ), o.bind (fun p => some (p / d)) = o.map (fun p => p / d) := by
      intro o d; cases o <;> rfl
    rw [hnp, hb, ← List.flatMap_def]
    refine cell_sum _ _ _ _ _ fun ℓ hℓ => ?_
    obtain ⟨ws, h1, h2⟩ := hleaf ℓ hℓ
    rw [hW ℓ hℓ] at h1
    cases h1
    exact h2

/-- **C85, agreement.** Under the same conditions `py_shap_values_acv` and `shap_values_acv` return the same value. -/
theorem C85_active_python_is_cython {ts : List TreeArr} {m : Nat} (hts : ∀ t ∈ ts, WellFormed t m) {data : List Row}
    {C : List (List Nat)} (hC : ValidGroups m C) (hm : m < ulongMax) {S N : List Nat}
    (hns : ∀ g ∈ C, (∀ s ∈ g, s ∈ S) → g.length ≠ 1) (hA : ValidActive m C S N) {x : Row} (hx : ∀ t ∈ ts, OffSplits t x) (k : Nat)
    (hcov : LeavesCovered ts data) {j : Nat} (hj : j ∈ S) :
    activePy ts m data C S N x j k = .ok (activeCy ts m data C S N x j k) := by
  obtain ⟨g, hg, hjg⟩ := playerSet_cover (C := C) ((hA.2.1 j).1 (Or.inl hj))
  have hga : g ∈ activeSet m C S := by
    refine mem_activeSet.2 ⟨hg, ?_⟩
    rcases mem_playerSet.1 hg with ⟨h, _⟩ | ⟨i, _, _, rfl⟩
    · exact (hA.2.2.2 g h).resolve_right fun h' => h' j hjg hj
    · intro s hs
      rw [List.mem_singleton] at hs hjg
      rw [hs, ← hjg]; exact hj
  rw [C85_active_python_value_partial hts hC hns hA hx k hcov hga hjg, C17_active_is_shapley_value hts hC hm hA x k hcov hga hjg]

/-- **C85, efficiency.** Under the same conditions the values add up, over the active players, to the prediction minus the mean prediction. -/
theorem C85_active_python_efficiency {ts : List TreeArr} {m : Nat} (hts : ∀ t ∈ ts, WellFormed t m) {data : List Row}
    (hdata : data ≠ []) {C : List (List Nat)} (hC : ValidGroups m C) (hm : m < ulongMax) {S N : List Nat}
    (hns : ∀ g ∈ C, (∀ s ∈ g, s ∈ S) → g.length ≠ 1) (hA : ValidActive m C S N) (hS : S ≠ []) {x : Row}
    (hx : ∀ t ∈ ts, OffSplits t x) (k : Nat) (hcov : LeavesCovered ts data)
    (base : Nat → ℚ) (P : Row → ℚ) (hP : ∀ z, ensemblePredict ts none none base (full z) k = some (P z))
    (rep : List Nat → Nat) (hrep : ∀ g ∈ activeSet m C S, rep g ∈ g) :
    ∃ φ : List Nat → ℚ, (∀ g ∈ activeSet m C S, activePy ts m data C S N x (rep g) k = .ok (some (φ g))) ∧
      ∑ g ∈ activeSet m C S, φ g = P x - (data.map P).sum / data.length := by
  obtain ⟨φ, h1, h2⟩ := C17_active_efficiency hts hdata hC hm hA hS x k hcov base P hP rep hrep
  refine ⟨φ, fun g hg => ?_, h2⟩
  rw [C85_active_python_is_cython hts hC hm hns hA hx k hcov ((mem_activeSet.1 hg).2 _ (hrep g hg)), h1 g hg]

theorem mapM_inv {α β : Type} (f : α → Except Unit β) : ∀ (l : List α) (bs : List β), l.mapM f = .ok bs → ∀ b ∈ bs, ∃ a ∈ l, f a = .ok b := by
  intro l
  induction l with
  | nil => intro bs h b hb; cases h; cases hb
  | cons a l ih =>
    intro bs h b hb
    rw [List.mapM_cons] at h
    cases ha : f a with
    | error e => rw [ha] at h; cases h
    | ok c =>
      cases hl : l.mapM f with
      | error e => rw [ha, hl] at h; cases h
      | ok cs =>
        rw [ha, hl] at h
        cases h
        rcases List.mem_cons.1 hb with rfl | hb
        · exact ⟨a, by simp, ha⟩
        · obtain ⟨a', h1, h2⟩ := ih cs hl b hb
          exact ⟨a', by simp [h1], h2⟩

/-- **C85, null columns.** A column outside the active list gets 0, whatever the groups (a group that straddles the active list is ignored,
where the Cython version gives its null columns a value, `C16_straddling_coalition_nonzero`). -/
theorem C85_active_python_null {ts : List TreeArr} {m : Nat} {data : List Row} {C : List (List Nat)} (hC : ValidGroups m C) {S N : List Nat}
    (hA : S.Nodup ∧ ∀ i ∈ S, i < m) (hS : S ≠ []) {x : Row} {j k : Nat} (hj : j ∉ S) {r : Option ℚ} (h : activePy ts m data C S N x j k = .ok r) :
    r = some 0 := by
  obtain ⟨hG, hpd⟩ := pyActiveGroups_facts hC S
  have hd : ((pyActiveD C S : ℕ) : ℚ) ≠ 0 := by
    have hflat : (pyActiveGroups C S).flatten.Nodup := List.nodup_flatten.2 ⟨fun l hl => (hG l hl).2.1.2.1, hpd⟩
    have hle : (pyActiveGroups C S).flatten.length ≤ S.length := by
      refine (hflat.subperm fun s hs => ?_).length_le
      obtain ⟨g, hg, hsg⟩ := List.mem_flatten.1 hs
      exact (hG g hg).2.2 s hsg
    rw [List.length_flatten] at hle
    have hpos := List.length_pos_iff.2 hS
    have : pyActiveD C S ≠ 0 := by
      unfold pyActiveD
      by_cases h0 : pyActiveGroups C S = []
      · rw [h0]; simp; exact hS
      · have := List.length_pos_iff.2 h0
        omega
    exact_mod_cast this
  have hpl : ∀ i ∈ pyActivePlayers C S, j ∉ i.cols := by
    intro i hi hji
    unfold pyActivePlayers at hi
    rcases List.mem_append.1 hi with hi | hi
    · obtain ⟨k, hk, rfl⟩ := List.mem_map.1 hi
      simp only [PyVar.cols, List.mem_singleton] at hji
      subst hji
      exact hj (List.mem_filter.1 hk).1
    · obtain ⟨c, hc, rfl⟩ := List.mem_map.1 hi
      exact hj ((hG c hc).2.2 j hji)
  have hcell : ∀ (ws : List (Nat × Option ℚ)), (∀ w ∈ ws, w.1 ≠ j) → cellWrites ws j = [] := by
    intro ws hw
    unfold cellWrites
    rw [List.filter_eq_nil_iff.2 fun w hwm => by simpa using hw w hwm]
    rfl
  have hmap : ∀ (c : List Nat) (o : Option ℚ), j ∉ c → ∀ w ∈ c.map (fun j => (j, o)), w.1 ≠ j := by
    intro c o hjc w hw
    obtain ⟨q, hq, rfl⟩ := List.mem_map.1 hw
    rintro rfl
    exact hjc hq
  have hwr : ∀ r vars v ws, pyActiveWrites m data C S N r vars x v = .ok ws → ∀ w ∈ ws, w.1 ≠ j := by
    intro r vars v ws hws w hw
    unfold pyActiveWrites at hws
    simp only at hws
    generalize hM : List.mapM (m := Except Unit) _ (pyActivePlayers C S) = M at hws
    cases M with
    | error e => cases hws
    | ok L =>
      cases hws
      obtain ⟨l, hl, hwl⟩ := List.mem_flatten.1 hw
      obtain ⟨i, hi, hfi⟩ := mapM_inv _ _ _ hM l hl
      have hji := hpl i hi
      split at hfi
      · generalize hM' : List.mapM (m := Except Unit) _ (powerset _) = M' at hfi
        cases M' with
        | error e => cases hfi
        | ok L' =>
          cases hfi
          obtain ⟨l', hl', hwl'⟩ := List.mem_flatten.1 hwl
          obtain ⟨T, _, hfT⟩ := mapM_inv _ _ _ hM' l' hl'
          cases hc : chainL T with
          | error e => rw [hc] at hfT; cases hfT
          | ok cols =>
            rw [hc] at hfT
            cases hfT
            exact hmap _ _ hji w hwl'
      · cases hfi
        exact hmap _ _ hji w hwl
  have htree : ∀ t r, activeTreePy t m data C S N x j k = .ok r → r = some 0 := by
    intro t r hr
    unfold activeTreePy at hr
    generalize hM : List.mapM (m := Except Unit) _ t.leafIdx = M at hr
    cases M with
    | error e => cases hr
    | ok L =>
      cases hr
      rw [hcell]
      · simp [osum, npDiv, hd]
      · intro w hw
        obtain ⟨l, hl, hwl⟩ := List.mem_flatten.1 hw
        obtain ⟨ℓ, _, hf⟩ := mapM_inv _ _ _ hM l hl
        exact hwr _ _ _ _ hf w hwl
  unfold activePy at h
  generalize hM : List.mapM (m := Except Unit) _ ts = M at h
  cases M with
  | error e => cases h
  | ok L =>
    cases h
    have hL : L = L.map fun _ => some 0 := by
      conv_lhs => rw [← List.map_id L]
      apply List.map_congr_left
      intro b hb
      obtain ⟨t, _, hf⟩ := mapM_inv _ _ _ hM b hb
      exact htree t b hf
    rw [hL, osum_of_forall L (fun _ => some 0) (fun _ => 0) fun _ _ => rfl]
    simp

/-- The claim of C85 without the condition on the splits. -/
def C85_claim : Prop :=
  ∀ (ts : List TreeArr) (m : Nat), (∀ t ∈ ts, WellFormed t m) → ∀ (data : List Row) (C : List (List Nat)), ValidGroups m C →
    ∀ (S N : List Nat), (∀ g ∈ C, (∀ s ∈ g, s ∈ S) → g.length ≠ 1) → ValidActive m C S N → ∀ (x : Row) (k : Nat), LeavesCovered ts data →
      ∀ j ∈ S, activePy ts m data C S N x j k = .ok (activeCy ts m data C S N x j k)

/-- **C85 is false on a split**: the observation is tested against the closed rectangle and is in two leaves at once. -/
theorem C85_on_split_false : ¬ C85_claim := by
  intro h
  have := h [exTree] 3 (by simp [exTree_wf3]) exData [[]] (Or.inl rfl) [2, 0] [1] (by simp) exActive (fun _ => 1) 0 exCovered 0 (by simp)
  revert this
  have h1 : (activePy [exTree] 3 exData [[]] [2, 0] [1] (fun _ => 1) 0 0).toOption = some (some (185 / 12)) := by decide +kernel
  have h2 : activeCy [exTree] 3 exData [[]] [2, 0] [1] (fun _ => 1) 0 0 = some (-55 / 12) := by decide +kernel
  intro h3
  rw [h3, h2] at h1
  revert h1
  decide +kernel

/-- The hypotheses of C85, with an active group. -/
example : WellFormed exTree 3 ∧ ValidGroups 3 [[0, 2]] ∧ ValidActive 3 [[0, 2]] [2, 0] [1] ∧ OffSplits exTree (fun _ => 2) ∧
    LeavesCovered [exTree] exData ∧ (activePy [exTree] 3 exData [[0, 2]] [2, 0] [1] (fun _ => 2) 0 0).toOption = some (some (5 / 2)) := by
  refine ⟨exTree_wf3, Or.inr (by simp), ⟨by decide, fun i => ?_, by decide, by simp⟩, ?_, exCovered, by decide +kernel⟩
  · simp; omega
  · exact exTwo_off _ (by simp)

end Acv

import Verif.Props.Search
import Verif.Model.ActiveShap

/-! # C50: padding of the table of explanations -/

namespace Acv

/-- The row holds -1 after the recorded columns. -/
def Best.Padded (b : Best) : Prop := ∀ s, b.len ≤ s → b.star s = -1

theorem writeRow_beyond {S : List Nat} {star : Nat → Int} {s : Nat} (h : S.length ≤ s) : writeRow S star s = star s := by
  unfold writeRow
  rw [List.getElem?_eq_none_iff.2 h]

theorem consider_padded {cols : Nat} {S : List Nat} {v : ℚ} {b : Best} (hb : b.Padded) (hl : b.len ≤ S.length) :
    (consider cols S v b).Padded ∧ (consider cols S v b).len ≤ S.length := by
  by_cases h1 : S.length = cols
  · by_cases h2 : b.sdp ≤ v
    · simp only [consider, h1, h2, if_true]
      refine ⟨fun s hs => ?_, le_refl _⟩
      simp only at hs ⊢
      rw [writeRow_beyond (by omega), writeRow_beyond (by omega)]
      exact hb s (by omega)
    · simp only [consider, h1, h2, if_true, if_false]
      refine ⟨fun s hs => ?_, le_refl _⟩
      simp only at hs ⊢
      rw [writeRow_beyond (by omega)]
      exact hb s (by omega)
  · by_cases h2 : b.sdp ≤ v
    · simp only [consider, h1, h2, if_true, if_false]
      refine ⟨fun s hs => ?_, le_refl _⟩
      simp only at hs ⊢
      rw [writeRow_beyond (by omega)]
      exact hb s (by omega)
    · simp only [consider, h1, h2, if_false]
      exact ⟨hb, hl⟩

theorem oneLevel_padded {v : List Nat → ℚ} {cols k : Nat} : ∀ {cands : List (List Nat)} {b : Best}, (∀ S ∈ cands, S.length = k) →
    b.Padded → b.len ≤ k → (oneLevel v cols cands b).Padded ∧ (oneLevel v cols cands b).len ≤ k
  | [], _, _, hb, hl => ⟨hb, hl⟩
  | S :: cands, b, h, hb, hl => by
    have hS := h S (by simp)
    have := consider_padded (cols := cols) (v := v S) hb (by omega : b.len ≤ S.length)
    exact oneLevel_padded (b := consider cols S (v S) b) (fun T hT => h T (by simp [hT])) this.1 (by omega)

theorem oneLoop_padded {v : List Nat → ℚ} {cols : Nat} {pi : ℚ} {stop : Bool} {half : Nat} {lev : Nat → List (List Nat)}
    (hlev : ∀ k, ∀ S ∈ lev k, S.length = k) : ∀ (n a : Nat) (b : Best), b.Padded → b.len ≤ a →
    (oneLoop id v cols pi stop half ((List.range' a n).map lev) b).Padded
  | 0, _, _, hb, _ => hb
  | n + 1, a, b, hb, hl => by
    have h1 := oneLevel_padded (v := v) (cols := cols) (hlev a) hb hl
    rw [List.range'_succ, List.map_cons]
    simp only [oneLoop]
    split
    · exact h1.1
    · split
      · exact h1.1
      · exact oneLoop_padded hlev n (a + 1) _ h1.1 (by omega)

theorem oneLoop_fin {fin : Best → Best} (hf : FinOk fin) {v : List Nat → ℚ} {cols : Nat} {pi : ℚ} {stop : Bool} {half : Nat} :
    ∀ (levels : List (List (List Nat))) (b : Best), b.sdp < pi → pi ≤ (oneLoop fin v cols pi stop half levels b).sdp →
    ∃ b', oneLoop fin v cols pi stop half levels b = fin b'
  | [], b, hb, h => absurd h (not_le.2 hb)
  | c :: ls, b, _, h => by
    simp only [oneLoop] at h ⊢
    split at h
    · rename_i hp
      rw [if_pos hp]
      exact ⟨_, rfl⟩
    · rename_i hp
      rw [if_neg hp]
      split at h
      · exact absurd h hp
      · rename_i hs
        rw [if_neg hs]
        exact oneLoop_fin hf ls _ (not_le.1 hp) h

theorem single_length {space : List Nat} {k : Nat} {S : List Nat} (h : S ∈ levelOf (searchPlayers [[]] space) k) : S.length = k := by
  obtain ⟨co, h1, h2, rfl⟩ := mem_levelOf.1 h
  have hone : ∀ p ∈ co, p.length = 1 := by
    intro p hp
    have := h1.subset hp
    change p ∈ space.map ([·]) at this
    obtain ⟨a, _, rfl⟩ := List.mem_map.1 this
    rfl
  rw [List.length_flatten, List.map_congr_left (g := fun _ => 1) hone]
  simp [h2]

/-- **C50** (part: no groups). In the table returned by `importance_sdp_rf` without groups each row holds -1 after the
recorded columns. With groups the claim is false (`C50_stale_false`). -/
theorem C50_padded_partial {cols : Nat} {order : List Nat} (h : SearchArgs cols [[]] (rfSpace cols order))
    (sdp : Nat → List Nat → ℚ) (N : Nat) (pi : ℚ) (minimal : Nat) (stop : Bool) (half : Nat) :
    ∃ st, importanceSdpRf sdp N cols order [[]] pi minimal stop half = some st ∧
      ∀ i < N, ∀ s, (st.best i).len ≤ s → (st.best i).star s = -1 := by
  obtain ⟨st, e, rfl⟩ := importanceSdpRf_eq h sdp N pi minimal stop half
  refine ⟨_, e, fun i hi => ?_⟩
  rw [batch_best finOk_id (valsOk_mask sdp N) cols pi stop half _ hi]
  exact oneLoop_padded (fun k S hS => single_length hS) _ _ _ (fun _ _ => rfl) (Nat.zero_le _)

example : SearchArgs 12 [[]] (rfSpace 12 [11, 3, 2, 0, 1, 4, 5, 6, 7, 8, 9, 10]) :=
  ⟨by decide, by decide, by decide, by decide⟩

/-- **C50**, `importance_sdp_clf` without groups. -/
theorem C50_padded_clf_partial {cols : Nat} {space : List Nat} (sdp : Nat → List Nat → ℚ) (N : Nat) (pi : ℚ) (minimal : Nat) (stop : Bool)
    (half : Nat) {i : Nat} (hi : i < N) {s : Nat} (hs : ((globalSdpClf sdp N cols [[]] space pi minimal stop half).best i).len ≤ s) :
    ((globalSdpClf sdp N cols [[]] space pi minimal stop half).best i).star s = -1 := by
  obtain ⟨n, hn⟩ := levelsClf_take (searchPlayers [[]] space) minimal
  unfold globalSdpClf at hs ⊢
  rw [hn, batch_best finOk_id (valsOk_map sdp N) cols pi stop half _ hi] at hs ⊢
  exact oneLoop_padded (fun k S hS => single_length hS) _ _ _ (fun _ _ => rfl) (Nat.zero_le _) s hs

/-- **C50**, `importance_msdp_clf_search`: for any groups, the row of a sample reported with a probability at least `pi` is
padded with -1. -/
theorem C50_padded_msdp (sdp : Nat → List Nat → ℚ) (N cols : Nat) (C : List (List Nat)) (space : List Nat) {pi : ℚ} (h0 : 0 < pi)
    (minimal : Nat) (stop : Bool) (half : Nat) {st : Batch} (h : msdpSearch sdp N cols C space pi minimal stop half = some st)
    {i : Nat} (hi : i < N) (hpi : pi ≤ (st.best i).sdp) : ∀ s, (st.best i).len ≤ s → (st.best i).star s = -1 := by
  unfold msdpSearch at h
  obtain ⟨l, _, rfl⟩ := Option.map_eq_some_iff.1 h
  rw [batch_best finOk_clearTail (valsOk_map sdp N) cols pi stop half _ hi] at hpi ⊢
  obtain ⟨b', e⟩ := oneLoop_fin finOk_clearTail l Best.init h0 hpi
  rw [e]
  intro s hs
  simp only [clearTail] at hs ⊢
  rw [if_neg (by omega)]

/-- The group {0, 1, 2} reaches 1/2 alone, the columns 3 and 4 together reach 1. -/
def staleSdp : Nat → List Nat → ℚ := fun _ S => if S = [0, 1, 2] then 1 / 2 else if S = [3, 4] then 1 else 0

/-- **C50** is false with groups: the explanation of the sample is {3, 4} but the third cell of the row still holds column 2 of
an earlier candidate. `get_null_coalition` then computes a null row of the wrong length (4 cells for 5 columns), and numpy
refuses the assignment. -/
theorem C50_stale_false : SearchArgs 5 [[0, 1, 2]] (rfSpace 5 []) ∧
    ∃ st, importanceSdpRf staleSdp 1 5 [] [[0, 1, 2]] (9 / 10) 1 false 3 = some st ∧
    (st.best 0).cols = [3, 4] ∧ (st.best 0).sdp = 1 ∧ (st.best 0).star 2 = 2 ∧
    (nullRow 5 ((List.range 5).map (st.best 0).star) (st.best 0).len).length = 4 := by
  refine ⟨⟨by decide, by decide, by decide, by decide⟩, _, rfl, ?_, ?_, ?_, ?_⟩ <;> decide +kernel

/-- The Python version clears the row. -/
example : ∃ st, msdpSearch staleSdp 1 5 [[0, 1, 2]] (List.range 5) (9 / 10) 1 false 3 = some st ∧ 9 / 10 ≤ (st.best 0).sdp ∧
    (List.range 5).map (st.best 0).star = [3, 4, -1, -1, -1] := by
  refine ⟨_, rfl, ?_, ?_⟩ <;> decide +kernel

/-- **C50**, consequence: for a padded row of distinct columns `get_null_coalition` gives -1 on the recorded cells and then the
other columns, `m` cells in all. -/
theorem C50_null_row (m : Nat) (b : Best) (hpad : b.Padded) {S : List Nat} (hc : b.cols = S.map (↑)) (hnd : S.Nodup)
    (hlt : ∀ c ∈ S, c < m) :
    nullRow m ((List.range m).map b.star) b.len = List.replicate b.len (-1) ++ (activeNull m b.star b.len).2 ∧
    (nullRow m ((List.range m).map b.star) b.len).length = m := by
  have hlen : b.len = S.length := by
    have := congrArg List.length hc
    simpa [Best.cols] using this
  have hSm : S.length ≤ m := by
    have : S.Subperm (List.range m) := hnd.subperm fun c hc => List.mem_range.2 (hlt c hc)
    simpa using this.length_le
  have hstar : ∀ c : Nat, ((c : Int) ∈ (List.range m).map b.star ↔ (c : Int) ∈ (List.range b.len).map b.star) := by
    intro c
    constructor
    · intro h
      obtain ⟨s, hs, e⟩ := List.mem_map.1 h
      by_cases hsl : s < b.len
      · exact List.mem_map.2 ⟨s, List.mem_range.2 hsl, e⟩
      · rw [hpad s (by omega)] at e
        omega
    · intro h
      obtain ⟨s, hs, e⟩ := List.mem_map.1 h
      have := List.mem_range.1 hs
      exact List.mem_map.2 ⟨s, List.mem_range.2 (by omega), e⟩
  have e1 : nullRow m ((List.range m).map b.star) b.len = List.replicate b.len (-1) ++ (activeNull m b.star b.len).2 := by
    unfold nullRow activeNull
    congr 1
    apply List.filter_congr
    intro a ha
    obtain ⟨c, _, rfl⟩ := List.mem_map.1 ha
    have := hstar c
    rw [Bool.eq_iff_iff]
    simp only [decide_eq_true_eq]
    exact not_congr this
  refine ⟨e1, ?_⟩
  rw [e1]
  have hp := (C34_partition m b.star b.len (by
    change b.cols.Nodup
    rw [hc]; exact hnd.map (fun a b hab => by exact_mod_cast hab)) (by
    intro s hs
    have : b.star s ∈ b.cols := List.mem_map.2 ⟨s, List.mem_range.2 hs, rfl⟩
    rw [hc] at this
    obtain ⟨c, hc', hcs⟩ := List.mem_map.1 this
    have := hlt c hc'
    omega)).1.length_eq
  simp only [List.length_append, List.length_map, List.length_range, List.length_replicate] at hp ⊢
  have : (activeNull m b.star b.len).1.length = b.len := by simp [activeNull]
  omega

example : nullRow 4 ((List.range 4).map fun s => if s = 0 then 2 else if s = 1 then 0 else -1) 2 = [-1, -1, 1, 3] := by decide +kernel

end Acv

import Verif.Spec.LoadJson
import Verif.Lemmas.LoadSpark
import Verif.Lemmas.LoadLgb

/-!
# C68: JSON dumps of XGBoost
-/

namespace Acv

/-- The arrays hold the dump. -/
def XgbDump.Held (scaling : ℚ) (t : TreeArr) : XgbDump → Prop
  | .leaf i v c => t.left i = -1 ∧ t.right i = -1 ∧ (t.value i = fun _ => v * scaling) ∧ t.weight i = c
  | .split i f thr yes no mis c a b => t.left i = yes ∧ t.right i = no ∧ t.dflt i = mis ∧ t.feature i = f ∧ t.threshold i = thr ∧ t.weight i = c ∧
      a.Held scaling t ∧ b.Held scaling t

/-- The arrays agree at `j`, default children included. -/
def TreeArr.AllAt (t u : TreeArr) (j : Nat) : Prop := t.SameAt u j ∧ t.dflt j = u.dflt j

theorem XgbDump.held_congr {s : ℚ} {t u : TreeArr} : ∀ (T : XgbDump), (∀ j ∈ T.ids, t.AllAt u j) → T.Held s t → T.Held s u
  | .leaf i v c, h, hh => by
    obtain ⟨⟨h1, h2, -, -, h5, h6⟩, -⟩ := h i (by simp [XgbDump.ids])
    obtain ⟨a, b, c, d⟩ := hh
    exact ⟨h1 ▸ a, h2 ▸ b, h5 ▸ c, h6 ▸ d⟩
  | .split i f thr yes no mis c a b, h, hh => by
    obtain ⟨⟨h1, h2, h3, h4, h5, h6⟩, h7⟩ := h i (by simp [XgbDump.ids])
    obtain ⟨a1, a2, a3, a4, a5, a6, a7, a8⟩ := hh
    exact ⟨h1 ▸ a1, h2 ▸ a2, h7 ▸ a3, h3 ▸ a4, h4 ▸ a5, h6 ▸ a6, a.held_congr (fun j hj => h j (by simp [XgbDump.ids, hj])) a7,
      b.held_congr (fun j hj => h j (by simp [XgbDump.ids, hj])) a8⟩

theorem xgbExtract_spec {s : ℚ} : ∀ (T : XgbDump) (t : TreeArr), T.ids.Nodup → (∀ j ∈ T.ids, t.left j = -1 ∧ t.right j = -1) →
    T.Held s (xgbExtract s T t) ∧ (xgbExtract s T t).size = t.size ∧ ∀ j, j ∉ T.ids → t.AllAt (xgbExtract s T t) j
  | .leaf i v c, t, _, h => by
    obtain ⟨h1, h2⟩ := h i (by simp [XgbDump.ids])
    refine ⟨⟨h1, h2, setAt_same .., setAt_same ..⟩, rfl, fun j hj => ?_⟩
    have hj : j ≠ i := by simpa [XgbDump.ids] using hj
    exact ⟨⟨rfl, rfl, rfl, rfl, (setAt_other _ _ hj).symm, (setAt_other _ _ hj).symm⟩, rfl⟩
  | .split i f thr yes no mis c a b, t, hnd, h => by
    simp only [XgbDump.ids, List.nodup_cons, List.mem_append, List.nodup_append] at hnd
    obtain ⟨hi, nda, ndb, hdis⟩ := hnd
    have hput : ∀ j, j ≠ i → t.AllAt (t.putXgbSplit i f thr yes no mis c) j := fun j hj =>
      ⟨⟨(setAt_other _ _ hj).symm, (setAt_other _ _ hj).symm, (setAt_other _ _ hj).symm, (setAt_other _ _ hj).symm, rfl, (setAt_other _ _ hj).symm⟩,
        (setAt_other _ _ hj).symm⟩
    obtain ⟨ha, sa, oa⟩ := xgbExtract_spec (s := s) a (t.putXgbSplit i f thr yes no mis c) nda (by
      intro j hj
      have hne : j ≠ i := by rintro rfl; exact hi (Or.inl hj)
      have := hput j hne
      rw [← this.1.1, ← this.1.2.1]
      exact h j (by simp [XgbDump.ids, hj]))
    obtain ⟨hb, sb, ob⟩ := xgbExtract_spec (s := s) b (xgbExtract s a (t.putXgbSplit i f thr yes no mis c)) ndb (by
      intro j hj
      have hne : j ≠ i := by rintro rfl; exact hi (Or.inr hj)
      have h1 := hput j hne
      have h2 := oa j (fun hja => hdis j hja j hj rfl)
      rw [← h2.1.1, ← h2.1.2.1, ← h1.1.1, ← h1.1.2.1]
      exact h j (by simp [XgbDump.ids, hj]))
    have hroot : ∀ j, j ∉ a.ids → j ∉ b.ids →
        (t.putXgbSplit i f thr yes no mis c).AllAt (xgbExtract s b (xgbExtract s a (t.putXgbSplit i f thr yes no mis c))) j := by
      intro j h1 h2
      obtain ⟨⟨p1, p2, p3, p4, p5, p6⟩, p7⟩ := oa j h1
      obtain ⟨⟨q1, q2, q3, q4, q5, q6⟩, q7⟩ := ob j h2
      exact ⟨⟨p1.trans q1, p2.trans q2, p3.trans q3, p4.trans q4, p5.trans q5, p6.trans q6⟩, p7.trans q7⟩
    refine ⟨?_, ?_, ?_⟩
    · obtain ⟨⟨p1, p2, p3, p4, p5, p6⟩, p7⟩ := hroot i (fun hh => hi (Or.inl hh)) (fun hh => hi (Or.inr hh))
      refine ⟨?_, ?_, ?_, ?_, ?_, ?_, ?_, hb⟩
      · exact p1.symm.trans (setAt_same ..)
      · exact p2.symm.trans (setAt_same ..)
      · exact p7.symm.trans (setAt_same ..)
      · exact p3.symm.trans (setAt_same ..)
      · exact p4.symm.trans (setAt_same ..)
      · exact p6.symm.trans (setAt_same ..)
      · exact a.held_congr (fun j hj => ob j fun hjb => hdis j hj j hjb rfl) ha
    · exact sb.trans sa
    · intro j hj
      simp only [XgbDump.ids, List.mem_cons, List.mem_append, not_or] at hj
      obtain ⟨⟨p1, p2, p3, p4, p5, p6⟩, p7⟩ := hput j hj.1
      obtain ⟨⟨q1, q2, q3, q4, q5, q6⟩, q7⟩ := hroot j hj.2.1 hj.2.2
      exact ⟨⟨p1.trans q1, p2.trans q2, p3.trans q3, p4.trans q4, p5.trans q5, p6.trans q6⟩, p7.trans q7⟩

/-- The dump as a binary tree: the child `yes` on the left. -/
def XgbDump.toB : XgbDump → BTree
  | .leaf i _ _ => .leaf i
  | .split i f thr yes _ _ _ a b => if yes = a.id then .node i f thr a.toB b.toB else .node i f thr b.toB a.toB

theorem XgbDump.toB_id (T : XgbDump) : T.toB.id = T.id := by
  cases T with
  | leaf => rfl
  | split => unfold XgbDump.toB; split <;> rfl

theorem XgbDump.toB_ids : ∀ T : XgbDump, T.toB.ids.Perm T.ids
  | .leaf _ _ _ => .refl _
  | .split i f thr yes no mis c a b => by
    unfold XgbDump.toB
    split
    · exact ((a.toB_ids.append b.toB_ids)).cons i
    · exact ((b.toB_ids.append a.toB_ids).trans List.perm_append_comm).cons i

theorem XgbDump.toB_vars : ∀ T : XgbDump, T.toB.vars.Perm T.vars
  | .leaf _ _ _ => .refl _
  | .split i f thr yes no mis c a b => by
    unfold XgbDump.toB
    split
    · exact ((a.toB_vars.append b.toB_vars)).cons f
    · exact ((b.toB_vars.append a.toB_vars).trans List.perm_append_comm).cons f

theorem XgbDump.id_mem (T : XgbDump) : T.id ∈ T.ids := by cases T <;> simp [XgbDump.id, XgbDump.ids]

theorem XgbDump.le_maxId : ∀ T : XgbDump, ∀ n ∈ T.ids, n ≤ T.maxId
  | .leaf i _ _, n, h => by simp [XgbDump.ids] at h; simp [XgbDump.maxId, h]
  | .split i f thr yes no mis c a b, n, h => by
    simp only [XgbDump.ids, List.mem_cons, List.mem_append] at h
    simp only [XgbDump.maxId]
    rcases h with rfl | h | h
    · omega
    · have := a.le_maxId n h; omega
    · have := b.le_maxId n h; omega

theorem XgbDump.toB_encodes {s : ℚ} {t : TreeArr} : ∀ T : XgbDump, T.ids.Nodup → T.Linked → T.Held s t → Encodes t T.toB
  | .leaf i _ _, _, _, h => ⟨by rw [h.1]; decide, by rw [h.2.1]; decide⟩
  | .split i f thr yes no mis c a b, hnd, hl, h => by
    obtain ⟨h1, h2, h3, h4, h5, -, h7, h8⟩ := h
    obtain ⟨hyn, hmis, hla, hlb⟩ := hl
    simp only [XgbDump.ids, List.nodup_cons, List.nodup_append] at hnd
    obtain ⟨-, nda, ndb, hdis⟩ := hnd
    have hab : a.id ≠ b.id := hdis _ a.id_mem _ b.id_mem
    have ea := a.toB_encodes nda hla h7
    have eb := b.toB_encodes ndb hlb h8
    have hd : t.dflt i = t.left i ∨ t.dflt i = t.right i := by
      rw [h1, h2, h3]
      rcases hmis with rfl | rfl
      · exact Or.inl rfl
      · exact Or.inr rfl
    unfold XgbDump.toB
    rcases hyn with ⟨rfl, rfl⟩ | ⟨rfl, rfl⟩
    · rw [if_pos rfl]
      exact ⟨by rw [h1, a.toB_id], by rw [h2, b.toB_id], hd, h4, h5, ea, eb⟩
    · rw [if_neg (Ne.symm hab)]
      exact ⟨by rw [h1, b.toB_id], by rw [h2, a.toB_id], hd, h4, h5, eb, ea⟩

/-- The leaf in which the arrays end holds what XGBoost predicts, off the thresholds. -/
theorem XgbDump.held_predict {s : ℚ} {t : TreeArr} {x : Obs} : ∀ T : XgbDump, T.ids.Nodup → T.Linked → T.Held s t → T.Off x →
    (∀ k, t.value (T.toB.descendObs t x) k = T.predict x * s) ∧ t.weight (T.toB.descendObs t x) = T.reached x
  | .leaf i _ _, _, _, h, _ => ⟨fun k => congrFun h.2.2.1 k, h.2.2.2⟩
  | .split i f thr yes no mis c a b, hnd, hl, h, hoff => by
    obtain ⟨h1, h2, h3, h4, h5, -, h7, h8⟩ := h
    obtain ⟨hyn, hmis, hla, hlb⟩ := hl
    obtain ⟨ho, hoa, hob⟩ := hoff
    simp only [XgbDump.ids, List.nodup_cons, List.nodup_append] at hnd
    obtain ⟨-, nda, ndb, hdis⟩ := hnd
    have hab : a.id ≠ b.id := hdis _ a.id_mem _ b.id_mem
    have ra := a.held_predict nda hla h7 hoa
    have rb := b.held_predict ndb hlb h8 hob
    have hside : ∀ u v : BTree, u.id = yes → v.id = no → yes ≠ no → (BTree.node i f thr u v).descendObs t x =
        if xgbChoice x f thr yes no mis = yes then u.descendObs t x else v.descendObs t x := by
      intro u v hu hv hne
      show (match x f with
        | none => if t.dflt i = u.id then u.descendObs t x else v.descendObs t x
        | some w => if w ≤ thr then u.descendObs t x else v.descendObs t x) = _
      unfold xgbChoice
      cases hx : x f with
      | none =>
        simp only
        rw [h3, hu]
        simp only [Nat.cast_inj]
      | some w =>
        simp only
        have hw : w ≠ thr := by rintro rfl; exact ho hx
        by_cases hlt : w < thr
        · simp only [if_pos hlt, if_pos (le_of_lt hlt), if_true]
        · simp only [if_neg hlt, if_neg (fun hle => hlt (lt_of_le_of_ne hle hw)), if_neg (Ne.symm hne)]
    unfold XgbDump.toB XgbDump.predict XgbDump.reached
    rcases hyn with ⟨rfl, rfl⟩ | ⟨rfl, rfl⟩
    · rw [if_pos rfl, hside _ _ a.toB_id b.toB_id hab]
      split
      · exact ra
      · exact rb
    · rw [if_neg (Ne.symm hab), hside _ _ b.toB_id a.toB_id (Ne.symm hab)]
      have hor : xgbChoice x f thr b.id a.id mis = b.id ∨ xgbChoice x f thr b.id a.id mis = a.id := by
        unfold xgbChoice
        split
        · exact hmis
        · split
          · exact Or.inl rfl
          · exact Or.inr rfl
      rcases hor with e | e
      · simp only [e, if_true, if_neg (Ne.symm hab)]
        exact rb
      · simp only [e, if_neg hab, if_true]
        exact ra

theorem xgbJson_held (junk : Nat → ℚ) (s : ℚ) {T : XgbDump} (h : IsXgbDump T) :
    T.Held s (xgbJson junk s T) ∧ (xgbJson junk s T).size = T.maxId + 1 ∧
      ∀ j, j ∉ T.ids → (xgbJson junk s T).left j = -1 ∧ (∀ k, (xgbJson junk s T).value j k = 0) ∧ (xgbJson junk s T).weight j = junk j := by
  obtain ⟨h1, h2, h3⟩ := xgbExtract_spec (s := s) T
    (⟨T.maxId + 1, fun _ => -1, fun _ => -1, fun _ => -1, fun _ => -1, fun _ => 0, fun _ _ => 0, junk⟩) h.nodup (fun _ _ => ⟨rfl, rfl⟩)
  refine ⟨h1, h2, fun j hj => ?_⟩
  obtain ⟨⟨p1, -, -, -, p5, p6⟩, -⟩ := h3 j hj
  exact ⟨p1.symm, fun k => (congrFun p5 k).symm, p6.symm⟩

/-- A dump with two splits; in the second one `yes` is the second child. -/
def exXgb : XgbDump := .split 0 1 3 1 2 2 10 (.split 1 0 (-1) 4 3 3 6 (.leaf 3 5 2) (.leaf 4 6 4)) (.leaf 2 7 4)

theorem exXgb_dump : IsXgbDump exXgb where
  root := rfl
  nodup := by decide
  linked := ⟨Or.inl ⟨rfl, rfl⟩, Or.inr rfl, ⟨Or.inr ⟨rfl, rfl⟩, Or.inr rfl, trivial, trivial⟩, trivial⟩

/-- **C68, structure.** A dump whose numbers have no gap is loaded as a well-formed tree. -/
theorem C68_structure (junk : Nat → ℚ) (s : ℚ) {T : XgbDump} (h : IsXgbDump T) (hgap : ∀ n ≤ T.maxId, n ∈ T.ids) {d : Nat} (hd : ∀ f ∈ T.vars, f < d) :
    WellFormed (xgbJson junk s T) d ∧ (xgbJson junk s T).size = T.ids.length := by
  obtain ⟨h1, h2, -⟩ := xgbJson_held junk s h
  have hall : ∀ n, n ∈ T.toB.ids ↔ n < (xgbJson junk s T).size := by
    intro n
    rw [T.toB_ids.mem_iff, h2]
    exact ⟨fun hn => Nat.lt_succ_of_le (T.le_maxId n hn), fun hn => hgap n (Nat.le_of_lt_succ hn)⟩
  have ht : IsTree (xgbJson junk s T) d T.toB :=
    ⟨by rw [T.toB_id]; exact h.root, T.toB_encodes h.nodup h.linked h1, T.toB_ids.nodup_iff.2 h.nodup, hall,
      fun f hf => hd f (T.toB_vars.mem_iff.1 hf)⟩
  refine ⟨⟨_, ht⟩, ?_⟩
  rw [← ids_length ht, T.toB_ids.length_eq]

example : ∀ n ≤ exXgb.maxId, n ∈ exXgb.ids := by decide

/-- **C68 (partial).** For every dump, gaps in the numbers or not, and every observation that hits no split condition exactly, missing values included, the
loaded tree ends in a leaf with the value XGBoost predicts, times the scaling, and its cover. Missing: values equal to a split condition
(`C68_threshold_false`). -/
theorem C68_partial (junk : Nat → ℚ) (s : ℚ) {T : XgbDump} (h : IsXgbDump T) {x : Obs} (hx : T.Off x) :
    ∃ ℓ, (xgbJson junk s T).leafOf x = some ℓ ∧ (∀ k, (xgbJson junk s T).value ℓ k = T.predict x * s) ∧ (xgbJson junk s T).weight ℓ = T.reached x := by
  obtain ⟨h1, h2, -⟩ := xgbJson_held junk s h
  have he := T.toB_encodes h.nodup h.linked h1
  refine ⟨T.toB.descendObs _ x, ?_, T.held_predict h.nodup h.linked h1 hx⟩
  have hlen : T.toB.ids.length ≤ (xgbJson junk s T).size := by
    rw [h2, T.toB_ids.length_eq]
    have := List.subperm_of_subset h.nodup (l₂ := List.range (T.maxId + 1)) fun n hn =>
      List.mem_range.2 (Nat.lt_succ_of_le (T.le_maxId n hn))
    simpa using this.length_le
  have := walk_obs x T.toB he (xgbJson junk s T).size (le_trans (le_of_lt T.toB.height_lt) hlen)
  rw [T.toB_id, h.root] at this
  exact this

example : exXgb.Off (fun j => if j = 1 then some 2 else none) := by simp [exXgb, XgbDump.Off]

example : ((xgbJson (fun _ => 0) 2 exXgb).leafOf fun j => if j = 1 then some 2 else some (-5)).map ((xgbJson (fun _ => 0) 2 exXgb).value · 0) = some 12 := by
  decide +kernel

/-- What C68 asks of the predictions. -/
def C68_claim : Prop :=
  ∀ T : XgbDump, IsXgbDump T → ∀ (junk : Nat → ℚ) (x : Obs), ∃ ℓ, (xgbJson junk 1 T).leafOf x = some ℓ ∧ (xgbJson junk 1 T).value ℓ 0 = T.predict x

/-- **C68, thresholds.** A value equal to a split condition goes to `yes` where XGBoost goes to `no`. -/
theorem C68_threshold_false : ¬ C68_claim := by
  intro h
  obtain ⟨ℓ, h1, h2⟩ := h exXgb exXgb_dump (fun _ => 0) fun j => if j = 1 then some 3 else some 0
  have e : (xgbJson (fun _ => 0) 1 exXgb).leafOf (fun j => if j = 1 then some 3 else some 0) = some 3 := by decide +kernel
  rw [e] at h1
  obtain rfl := Option.some.inj h1
  exact absurd h2 (by decide +kernel)

/-- **C68, gaps.** A number that no node of the dump has (XGBoost leaves some when it prunes) becomes a leaf of the loaded tree, of value 0 and with an
arbitrary weight; the tree is then not well formed. -/
theorem C68_gap (junk : Nat → ℚ) (s : ℚ) {T : XgbDump} (h : IsXgbDump T) {n : Nat} (hn : n ≤ T.maxId) (hgap : n ∉ T.ids) :
    n < (xgbJson junk s T).size ∧ (xgbJson junk s T).isLeaf n = true ∧ (∀ k, (xgbJson junk s T).value n k = 0) ∧
      (xgbJson junk s T).weight n = junk n ∧ ∀ d, ¬ WellFormed (xgbJson junk s T) d := by
  obtain ⟨h1, h2, h3⟩ := xgbJson_held junk s h
  obtain ⟨a, b, c⟩ := h3 n hgap
  refine ⟨by rw [h2]; omega, by simp [TreeArr.isLeaf, a], b, c, ?_⟩
  rintro d ⟨B, hB⟩
  have hu : ∀ (B C : BTree), Encodes (xgbJson junk s T) B → Encodes (xgbJson junk s T) C → B.id = C.id → B.ids = C.ids := by
    intro B
    induction B with
    | leaf i =>
      intro C e1 e2 hid
      cases C with
      | leaf j => obtain rfl : i = j := hid; rfl
      | node j f thr l r => obtain rfl : i = j := hid; have := e1.1; have := e2.1; omega
    | node i f thr l r ihl ihr =>
      intro C e1 e2 hid
      cases C with
      | leaf j => obtain rfl : i = j := hid; have := e1.1; have := e2.1; omega
      | node j g thr' l' r' =>
        obtain rfl : i = j := hid
        obtain ⟨a1, a2, -, -, -, a6, a7⟩ := e1
        obtain ⟨b1, b2, -, -, -, b6, b7⟩ := e2
        have q1 := ihl l' a6 b6 (by rw [a1] at b1; exact_mod_cast b1)
        have q2 := ihr r' a7 b7 (by rw [a2] at b2; exact_mod_cast b2)
        simp only [BTree.ids, q1, q2]
  have := hu B T.toB hB.enc (T.toB_encodes h.nodup h.linked h1) (by rw [hB.root, T.toB_id, h.root])
  have hm := (hB.all n).2 (by rw [h2]; omega)
  rw [this, T.toB_ids.mem_iff] at hm
  exact hgap hm

/-- A dump with a gap: nodes 3 and 4 were pruned. -/
example : ∃ T : XgbDump, IsXgbDump T ∧ 3 ≤ T.maxId ∧ 3 ∉ T.ids :=
  ⟨.split 0 1 3 1 2 2 10 (.leaf 1 5 6) (.split 2 0 (-1) 5 6 6 4 (.leaf 5 5 2) (.leaf 6 6 2)),
    ⟨rfl, by decide, ⟨Or.inl ⟨rfl, rfl⟩, Or.inr rfl, trivial, Or.inl ⟨rfl, rfl⟩, Or.inr rfl, trivial, trivial⟩⟩, by decide, by decide⟩

end Acv

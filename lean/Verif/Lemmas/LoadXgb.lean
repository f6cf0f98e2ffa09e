import Verif.Spec.LoadXgb
import Verif.Lemmas.Tree
import Mathlib.Tactic.Ring
import Mathlib.Order.Monotone.Basic
import Mathlib.Algebra.Order.Ring.Rat

namespace Acv

/-! ## Reading -/

/-- `p` reads `bs` wherever it stands, and returns `a`. -/
def Emits {α : Type} (p : List UInt8 → Reader α) (bs : List UInt8) (a : α) : Prop :=
  ∀ pre post : List UInt8, p (pre ++ (bs ++ post)) pre.length = some (a, pre.length + bs.length)

theorem Emits.bind {α β : Type} {p : List UInt8 → Reader α} {q : α → List UInt8 → Reader β} {bs cs : List UInt8} {a : α} {b : β}
    (hp : Emits p bs a) (hq : Emits (q a) cs b) : Emits (fun buf => p buf >>= fun a => q a buf) (bs ++ cs) b := by
  intro pre post
  show ((p _ pre.length).bind fun r => q r.1 _ r.2) = _
  rw [List.append_assoc, hp pre (cs ++ post), Option.bind_some]
  have := hq (pre ++ bs) post
  rw [List.length_append, List.append_assoc] at this
  show q a _ (pre.length + bs.length) = _
  rw [this, List.length_append, Nat.add_assoc]

theorem Emits.pure {α : Type} (a : α) : Emits (fun _ => Pure.pure a) [] a := by
  intro pre post
  rfl

/-- the last read before the record is built -/
theorem Emits.last {α β : Type} {p : List UInt8 → Reader α} {f : α → β} {bs : List UInt8} {a : α} (hp : Emits p bs a) :
    Emits (fun buf => p buf >>= fun a => Pure.pure (f a)) bs (f a) := by
  have := Emits.bind (q := fun a _ => Pure.pure (f a)) hp (Emits.pure (f a))
  rwa [List.append_nil] at this

/-- a step that reads nothing -/
theorem Emits.none {α β : Type} {p : Reader α} {q : α → List UInt8 → Reader β} {cs : List UInt8} {a : α} {b : β}
    (hp : Emits (fun _ => p) [] a) (hq : Emits (q a) cs b) : Emits (fun buf => p >>= fun a => q a buf) cs b :=
  Emits.bind (bs := []) hp hq

theorem emits_readNat (bs : List UInt8) : Emits (readNat bs.length) bs (leNat bs) := by
  intro pre post
  unfold readNat
  rw [if_pos (by simp only [List.length_append]; omega), List.drop_left, List.take_left]

theorem leNat_encU {n : Nat} (h : n < 2 ^ 32) : leNat (encU n) = n := by
  simp only [leNat, encU, UInt8.toNat_ofNat']
  omega

theorem leNat_append (a b : List UInt8) : leNat (a ++ b) = leNat a + 256 ^ a.length * leNat b := by
  induction a with
  | nil => simp [leNat]
  | cons x a ih =>
    rw [List.cons_append, leNat, leNat, ih, List.length_cons, pow_succ]
    ring

theorem leNat_encQ {n : Nat} (h : n < 2 ^ 64) : leNat (encQ n) = n := by
  unfold encQ
  have e : (encU (n % 2 ^ 32)).length = 4 := rfl
  rw [leNat_append, e, leNat_encU (Nat.mod_lt _ (by decide)), leNat_encU (by omega)]
  omega

theorem toInt32_mod {z : Int} (h : IsI32 z) : toInt32 (z % 2 ^ 32).toNat = z := by
  obtain ⟨h1, h2⟩ := h
  unfold toInt32
  split <;> omega

theorem emits_readU {n : Nat} (h : IsU32 n) : Emits readU (encU n) n := by
  have := emits_readNat (encU n)
  rw [leNat_encU h] at this
  exact this

theorem emits_readI {z : Int} (h : IsI32 z) : Emits readI (encI z) z := by
  have h1 : Emits (readNat 4) (encI z) (z % 2 ^ 32).toNat := by
    have := emits_readNat (encI z)
    rwa [encI, leNat_encU (by omega)] at this
  have := Emits.last (f := toInt32) h1
  rw [toInt32_mod h] at this
  exact this

theorem emits_readQ {n : Nat} (h : n < 2 ^ 64) : Emits readQ (encQ n) n := by
  have := emits_readNat (encQ n)
  rw [leNat_encQ h] at this
  exact this

theorem emits_skipI (n : Nat) : Emits (skipI n) (encReserved n) () := by
  have h1 : Emits (readNat (4 * n)) (encReserved n) (leNat (encReserved n)) := by
    have := emits_readNat (encReserved n)
    rwa [show (encReserved n).length = 4 * n from List.length_replicate] at this
  exact Emits.last (f := fun _ => ()) h1

theorem emits_readStr {s : List UInt8} (h : ∀ b ∈ s, b < 128) : Emits (readStr s.length) s s := by
  intro pre post
  unfold readStr
  simp only [List.drop_left, List.take_left]
  rw [if_pos]
  rw [List.all_eq_true]
  exact fun b hb => decide_eq_true (h b hb)

theorem emits_readMany {α : Type} {p : List UInt8 → Reader α} {enc : α → List UInt8} : ∀ (l : List α), (∀ a ∈ l, Emits p (enc a) a) →
    Emits (readMany p l.length) (l.map enc).flatten l
  | [], _ => Emits.pure []
  | a :: l, h => by
    rw [List.map_cons, List.flatten_cons]
    exact Emits.bind (h a List.mem_cons_self)
      (Emits.last (f := fun as => a :: as) (emits_readMany l fun b hb => h b (List.mem_cons_of_mem _ hb)))

theorem emits_readNode {r : XgbNode} (h : r.Fits) : Emits readNode r.enc r :=
  Emits.bind (emits_readI h.parent) <| Emits.bind (emits_readI h.cleft) <| Emits.bind (emits_readI h.cright) <|
    Emits.bind (emits_readU h.sindex) <| Emits.last (emits_readU h.info)

theorem emits_readStat {r : XgbStat} (h : r.Fits) : Emits readStat r.enc r :=
  Emits.bind (emits_readU h.lossChg) <| Emits.bind (emits_readU h.sumHess) <| Emits.bind (emits_readU h.baseWeight) <|
    Emits.last (emits_readI h.leafChildCnt)

theorem emits_natOf (n : Nat) : Emits (fun _ => natOf n) [] n := by
  intro pre post
  show (if (0 : Int) ≤ (n : Int) then some ((n : Int).toNat, pre.length) else Option.none) = _
  rw [if_pos (by omega)]
  rfl

theorem emits_readTree {t : XgbRaw} (h : t.Fits) : Emits readTree t.enc t := by
  have hs := emits_readMany (enc := XgbStat.enc) t.stats fun r hr => emits_readStat (h.statFits r hr)
  rw [h.stats] at hs
  exact Emits.bind (emits_readI h.numRoots) <| Emits.bind (emits_readI h.count) <| Emits.bind (emits_readI h.numDeleted) <|
    Emits.bind (emits_readI h.maxDepth) <| Emits.bind (emits_readI h.numFeature) <| Emits.bind (emits_readI h.sizeLeafVector) <|
    Emits.bind (emits_skipI 31) <| Emits.none (emits_natOf _) <|
    Emits.bind (emits_readMany t.nodes fun r hr => emits_readNode (h.nodeFits r hr)) <| Emits.last hs

theorem emits_assert : Emits (fun _ => assertGbtree gbtree) [] () := by
  intro pre post
  rfl

theorem emits_readModel {m : XgbModel} (h : m.Fits) : Emits readModel m.enc m := by
  obtain ⟨m1, m2, m3, m4, m5, m6, m7, m8, m9, m10, m11, m12, m13, m14⟩ := m
  obtain ⟨h1, h2, h3, h4, h5, h6, h7, h8, h9, h10, h11, h12, h13, h14, h15, h16⟩ := h
  simp only at h8
  subst h8
  exact Emits.bind (emits_readU h1) <| Emits.bind (emits_readU h2) <| Emits.bind (emits_readI h3) <|
    Emits.bind (emits_readI h4) <| Emits.bind (emits_readI h5) <| Emits.bind (emits_skipI 29) <|
    Emits.bind (emits_readQ h6) <| Emits.bind (emits_readStr h7) <| Emits.bind (emits_readQ (by show 6 < 2 ^ 64; decide)) <|
    Emits.bind (emits_readStr (s := gbtree) (by decide)) <| Emits.none emits_assert <| Emits.bind (emits_readI h15) <|
    Emits.bind (emits_readI h9) <| Emits.bind (emits_readI h10) <| Emits.bind (emits_readI h11) <|
    Emits.bind (emits_readQ h12) <| Emits.bind (emits_readI h13) <| Emits.bind (emits_readI h14) <|
    Emits.bind (emits_skipI 32) <| Emits.none (emits_natOf _) <|
    Emits.last (emits_readMany m14 fun t ht => emits_readTree (h16 t ht))

/-! ## Floats -/

theorem f32Mag_lt_succ (c : Nat) : f32Mag c < f32Mag (c + 1) := by
  unfold f32Mag
  by_cases h : c < 2 ^ 23
  · rw [if_pos h]
    by_cases h' : c + 1 < 2 ^ 23
    · rw [if_pos h']; omega
    · have e : c + 1 = 2 ^ 23 := by omega
      rw [if_neg h', e]
      norm_num
      omega
  · rw [if_neg h, if_neg (by omega)]
    by_cases hm : c % 2 ^ 23 + 1 < 2 ^ 23
    · have e1 : (c + 1) % 2 ^ 23 = c % 2 ^ 23 + 1 := by omega
      have e2 : (c + 1) / 2 ^ 23 = c / 2 ^ 23 := by omega
      rw [e1, e2]
      exact Nat.mul_lt_mul_of_pos_right (by omega) (Nat.pow_pos (by decide))
    · have e1 : (c + 1) % 2 ^ 23 = 0 := by omega
      have e2 : (c + 1) / 2 ^ 23 - 1 = (c / 2 ^ 23 - 1) + 1 := by omega
      rw [e1, e2, pow_succ (2 : Nat) (c / 2 ^ 23 - 1)]
      have hp : 0 < 2 ^ (c / 2 ^ 23 - 1) := Nat.pow_pos (by decide)
      have : c % 2 ^ 23 < 2 ^ 23 := Nat.mod_lt _ (by decide)
      calc (2 ^ 23 + c % 2 ^ 23) * 2 ^ (c / 2 ^ 23 - 1) < (2 ^ 23 + 2 ^ 23) * 2 ^ (c / 2 ^ 23 - 1) :=
            Nat.mul_lt_mul_of_pos_right (by omega) hp
        _ = (2 ^ 23 + 0) * (2 ^ (c / 2 ^ 23 - 1) * 2) := by ring

theorem f32Mag_strictMono : StrictMono f32Mag := strictMono_nat_of_lt_succ f32Mag_lt_succ

theorem f32Mag_zero : f32Mag 0 = 0 := rfl

/-- Bits as a position on the line of floats. -/
def f32Key (b : Nat) : Int := if b < 2 ^ 31 then b else - ((b - 2 ^ 31 : Nat) : Int)

/-- The float at a position, in units of `2 ** -149`. -/
def f32At (k : Int) : Int := if 0 ≤ k then f32Mag k.toNat else - (f32Mag (-k).toNat : Int)

theorem f32At_strictMono : StrictMono f32At := by
  intro a b hab
  unfold f32At
  by_cases ha : 0 ≤ a
  · rw [if_pos ha, if_pos (by omega)]
    exact_mod_cast f32Mag_strictMono (by omega : a.toNat < b.toNat)
  · rw [if_neg ha]
    have h0 : 0 < f32Mag (-a).toNat := by
      have := f32Mag_strictMono (by omega : 0 < (-a).toNat)
      rwa [f32Mag_zero] at this
    by_cases hb : 0 ≤ b
    · rw [if_pos hb]; omega
    · rw [if_neg hb]
      have := f32Mag_strictMono (by omega : (-b).toNat < (-a).toNat)
      omega

theorem f32_eq (b : Nat) : f32 b = (f32At (f32Key b) : ℚ) / 2 ^ 149 := by
  unfold f32 f32Key f32At
  by_cases h : b < 2 ^ 31
  · rw [if_pos h, if_pos h, if_pos (by omega)]
    simp
  · rw [if_neg h, if_neg h]
    by_cases h0 : b - 2 ^ 31 = 0
    · rw [h0]; simp [f32Mag_zero]
    · rw [if_neg (by omega)]
      have e : (- -((b - 2 ^ 31 : Nat) : Int)).toNat = b - 2 ^ 31 := by omega
      rw [e]
      push_cast
      rfl

theorem f32_lt_iff (a b : Nat) : f32 a < f32 b ↔ f32Key a < f32Key b := by
  rw [f32_eq, f32_eq, div_lt_div_iff_of_pos_right (by positivity), Int.cast_lt, f32At_strictMono.lt_iff_lt]

theorem f32_le_iff (a b : Nat) : f32 a ≤ f32 b ↔ f32Key a ≤ f32Key b := by
  rw [← not_lt, ← not_lt, f32_lt_iff]

theorem f32_nextBelow {v t : Nat} (hv : FiniteBits v) (ht : NotNanBits t) : f32 v ≤ f32 (nextBelow t) ↔ f32 v < f32 t := by
  rw [f32_le_iff, f32_lt_iff]
  obtain ⟨v1, v2⟩ := hv
  obtain ⟨t1, t2⟩ := ht
  unfold nextBelow f32Key
  split_ifs <;> omega

/-! ## Trees -/

/-- The tree the loaded arrays describe. -/
def XgbTree.toB : XgbTree → BTree
  | .leaf i _ => .leaf i
  | .split i f _ c l r => .node i f (f32 (nextBelow c)) l.toB r.toB

theorem XgbTree.toB_id (T : XgbTree) : T.toB.id = T.root := by cases T <;> rfl

theorem XgbTree.toB_ids : ∀ (T : XgbTree), T.toB.ids = T.ids
  | .leaf _ _ => rfl
  | .split i f dl c l r => by
    show _ :: _ = _ :: _
    rw [XgbTree.toB_ids l, XgbTree.toB_ids r]

theorem XgbTree.toB_vars {d : Nat} : ∀ {T : XgbTree}, T.Sane d → ∀ f ∈ T.toB.vars, f < d
  | .leaf _ _, _ => by simp [XgbTree.toB, BTree.vars]
  | .split i f dl c l r, h => by
    intro g hg
    rcases List.mem_cons.1 hg with rfl | hg
    · exact h.1
    · rcases List.mem_append.1 hg with hg | hg
      · exact XgbTree.toB_vars h.2.2.1 g hg
      · exact XgbTree.toB_vars h.2.2.2 g hg

theorem getD_of_some {nodes : List XgbNode} {i : Nat} {r : XgbNode} (h : nodes[i]? = some r) : nodes.getD i .none = r := by
  rw [List.getD_eq_getElem?_getD, h]
  rfl

theorem sindex_feature {f : Nat} (h : f < 2 ^ 31) (dl : Bool) : (f + dl.toNat * 2 ^ 31) &&& (1 <<< 31 - 1) = f := by
  have e : (1 <<< 31 - 1 : Nat) = 2 ^ 31 - 1 := by decide
  rw [e, Nat.and_two_pow_sub_one_eq_mod]
  cases dl <;> simp <;> omega

theorem sindex_default {f : Nat} (h : f < 2 ^ 31) (dl : Bool) : ((f + dl.toNat * 2 ^ 31) >>> 31 ≠ 0) ↔ dl = true := by
  rw [Nat.shiftRight_eq_div_pow]
  cases dl <;> simp <;> omega

theorem xgb_encodes {t : XgbRaw} {d : Nat} (hd : d ≤ 2 ^ 31) : ∀ {T : XgbTree}, T.Held t.nodes → T.Sane d → Encodes t.load T.toB
  | .leaf i v, h, _ => by
    obtain ⟨p, s, h⟩ := h
    refine ⟨?_, ?_⟩
    · show (t.nodes.getD i .none).cleft < 0
      rw [getD_of_some h]; simp
    · show (t.nodes.getD i .none).cright < 0
      rw [getD_of_some h]; simp
  | .split i f dl c l r, h, hs => by
    obtain ⟨⟨p, h⟩, hl, hr⟩ := h
    obtain ⟨hf, hc, sl, sr⟩ := hs
    have e := getD_of_some h
    refine ⟨?_, ?_, ?_, ?_, ?_, xgb_encodes hd hl sl, xgb_encodes hd hr sr⟩
    · show (t.nodes.getD i .none).cleft = _
      rw [e, XgbTree.toB_id]
    · show (t.nodes.getD i .none).cright = _
      rw [e, XgbTree.toB_id]
    · show (t.nodes.getD i .none).dflt = (t.nodes.getD i .none).cleft ∨ (t.nodes.getD i .none).dflt = (t.nodes.getD i .none).cright
      unfold XgbNode.dflt
      split
      · exact Or.inl rfl
      · exact Or.inr rfl
    · show (((t.nodes.getD i .none).feature : Nat) : Int) = f
      rw [e]
      exact_mod_cast sindex_feature (by omega) dl
    · show (if 0 ≤ (t.nodes.getD i .none).cleft then f32 (nextBelow (t.nodes.getD i .none).info) else 0) = _
      rw [e, if_pos (by simp)]

theorem xgb_isTree {t : XgbRaw} {d : Nat} {T : XgbTree} (h : T.Written d t) : IsTree t.load d T.toB := by
  refine ⟨?_, xgb_encodes h.bound h.held h.sane, ?_, ?_, XgbTree.toB_vars h.sane⟩
  · rw [XgbTree.toB_id, h.root]
  · rw [XgbTree.toB_ids]
    exact h.ids.nodup_iff.2 List.nodup_range
  · intro n
    rw [XgbTree.toB_ids, h.ids.mem_iff, List.mem_range]
    rfl

theorem XgbTree.root_mem (T : XgbTree) : T.root ∈ T.ids := by
  cases T <;> simp [XgbTree.root, XgbTree.ids]

theorem xgb_descend {t : XgbRaw} {d : Nat} (hd : d ≤ 2 ^ 31) {x : Obs} (hx : FloatRow x) :
    ∀ {T : XgbTree}, T.Held t.nodes → T.Sane d → T.ids.Nodup → T.toB.descendObs t.load x = T.reached x
  | .leaf i v, _, _, _ => rfl
  | .split i f dl c l r, h, hs, hn => by
    obtain ⟨⟨p, h⟩, hl, hr⟩ := h
    obtain ⟨hf, hc, sl, sr⟩ := hs
    have e := getD_of_some h
    rw [XgbTree.ids, List.nodup_cons, List.nodup_append] at hn
    obtain ⟨-, nl, nr, hdis⟩ := hn
    have hne : l.root ≠ r.root := hdis _ l.root_mem _ r.root_mem
    rw [XgbTree.toB, descendObs_node, XgbTree.reached, ← xgb_descend hd hx hl sl nl, ← xgb_descend hd hx hr sr nr]
    have hdf : t.load.dflt i = if dl then (l.root : Int) else r.root := by
      show (t.nodes.getD i .none).dflt = _
      rw [e]
      unfold XgbNode.dflt
      by_cases hdl : dl = true
      · rw [if_pos ((sindex_default (by omega) dl).2 hdl), if_pos hdl]
      · rw [if_neg (fun hc => hdl ((sindex_default (by omega) dl).1 hc)), if_neg hdl]
    cases hv : x f with
    | none =>
      rw [hdf, XgbTree.toB_id]
      cases dl
      · rw [if_neg (by simp; exact fun hc => hne hc.symm)]
        simp [xgbLeft]
      · simp [xgbLeft]
    | some v =>
      obtain ⟨b, hb, rfl⟩ := hx f v hv
      simp only [xgbLeft, decide_eq_true_eq]
      by_cases hlt : f32 b < f32 c
      · rw [if_pos hlt, if_pos ((f32_nextBelow hb hc).2 hlt)]
      · rw [if_neg hlt, if_neg (fun hh => hlt ((f32_nextBelow hb hc).1 hh))]

theorem xgb_value {t : XgbRaw} (x : Obs) : ∀ {T : XgbTree}, T.Held t.nodes → ∀ k, t.load.value (T.reached x) k = T.predict x
  | .leaf i v, h, k => by
    obtain ⟨p, s, h⟩ := h
    show (if 0 ≤ (t.nodes.getD i .none).cleft then 0 else f32 (t.nodes.getD i .none).info) = f32 v
    rw [getD_of_some h, if_neg (by simp)]
  | .split i f dl c l r, h, k => by
    rw [XgbTree.reached, XgbTree.predict]
    split
    · exact xgb_value x h.2.1 k
    · exact xgb_value x h.2.2 k

end Acv

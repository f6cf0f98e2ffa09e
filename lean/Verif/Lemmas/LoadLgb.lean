import Verif.Spec.LoadLgb
import Verif.Lemmas.Tree

namespace Acv

/-- Position of the root of `T` in the arrays. -/
def LgbNode.posD (np : Nat) : LgbNode → Nat
  | .split i _ _ _ _ _ _ _ _ => i
  | .leaf i _ _ => i + np
  | .stump _ => 0

/-- Positions of the nodes of `T` in the arrays. -/
def LgbNode.positions (np : Nat) : LgbNode → List Nat
  | .leaf i _ _ => [i + np]
  | .stump _ => []
  | .split i _ _ _ _ _ _ l r => i :: (l.positions np ++ r.positions np)

/-- `T` is stored in the arrays. -/
def Stored (t : TreeArr) (np : Nat) : LgbNode → Prop
  | .leaf i v c => t.left (i + np) = -1 ∧ t.right (i + np) = -1 ∧ t.value (i + np) = (fun _ => v) ∧ t.weight (i + np) = c
  | .stump _ => False
  | .split i f test dl _ v c l r => t.left i = l.posD np ∧ t.right i = r.posD np ∧
      t.dflt i = (if dl then (l.posD np : Int) else r.posD np) ∧ t.feature i = f ∧ test = .le (t.threshold i) ∧
      t.value i = (fun _ => v) ∧ t.weight i = c ∧ Stored t np l ∧ Stored t np r

/-- Two array trees agree at a position. -/
def SameAt (t t' : TreeArr) (p : Nat) : Prop :=
  t'.left p = t.left p ∧ t'.right p = t.right p ∧ t'.dflt p = t.dflt p ∧ t'.feature p = t.feature p ∧ t'.threshold p = t.threshold p ∧
  t'.value p = t.value p ∧ t'.weight p = t.weight p

theorem SameAt.trans {a b c : TreeArr} {p : Nat} (h : SameAt a b p) (h' : SameAt b c p) : SameAt a c p := by
  obtain ⟨h1, h2, h3, h4, h5, h6, h7⟩ := h
  obtain ⟨g1, g2, g3, g4, g5, g6, g7⟩ := h'
  exact ⟨g1.trans h1, g2.trans h2, g3.trans h3, g4.trans h4, g5.trans h5, g6.trans h6, g7.trans h7⟩

theorem LgbNode.pos_numeric (np : Nat) {T : LgbNode} (h : T.Numeric) : T.pos np = .ok (T.posD np) := by
  cases T with
  | leaf => rfl
  | stump => exact h.elim
  | split => rfl

theorem putSplit_same (t : TreeArr) {i p : Nat} (h : p ≠ i) (lp rp : Nat) (dl : Bool) (f : Nat) (thr v c : ℚ) :
    SameAt t (t.putSplit i lp rp dl f thr v c) p := by
  unfold TreeArr.putSplit SameAt
  simp [setAt, h]

theorem putLeaf_same (t : TreeArr) {i p : Nat} (h : p ≠ i) (v c : ℚ) : SameAt t (t.putLeaf i v c) p := by
  unfold TreeArr.putLeaf SameAt
  simp [setAt, h]

theorem lgbLoop_spec (np : Nat) : ∀ (fuel : Nat) (queue : List LgbNode) (visited : List Nat) (t : TreeArr),
    (queue.map LgbNode.size).sum ≤ fuel → (∀ T ∈ queue, T.Numeric) → (queue.flatMap (LgbNode.positions np)).Nodup →
    (∀ p ∈ queue.flatMap (LgbNode.positions np), p < t.size) → (∀ i ∈ visited, i ∉ queue.flatMap (LgbNode.positions np)) →
    ∃ t', lgbLoop np fuel queue visited t = .ok t' ∧ t'.size = t.size ∧ (∀ T ∈ queue, Stored t' np T) ∧
      ∀ p, p ∉ queue.flatMap (LgbNode.positions np) → SameAt t t' p := by
  intro fuel
  induction fuel with
  | zero =>
    intro queue visited t hf hn hnd hlt hv
    cases queue with
    | nil => exact ⟨t, rfl, rfl, by simp, fun p _ => ⟨rfl, rfl, rfl, rfl, rfl, rfl, rfl⟩⟩
    | cons T queue =>
      exfalso
      rw [List.map_cons, List.sum_cons] at hf
      cases T <;> simp [LgbNode.size] at hf
  | succ fuel ih =>
    intro queue visited t hf hn hnd hlt hv
    cases queue with
    | nil => exact ⟨t, rfl, rfl, by simp, fun p _ => ⟨rfl, rfl, rfl, rfl, rfl, rfl, rfl⟩⟩
    | cons T queue =>
      rw [List.map_cons, List.sum_cons] at hf
      cases T with
      | stump v => exact (hn (.stump v) (by simp)).elim
      | leaf i v c =>
        simp only [LgbNode.size] at hf
        have hp : (LgbNode.leaf i v c :: queue).flatMap (LgbNode.positions np) = (i + np) :: queue.flatMap (LgbNode.positions np) := rfl
        rw [hp] at hnd hlt hv
        obtain ⟨hnd1, hnd2⟩ := List.nodup_cons.1 hnd
        obtain ⟨t', h1, h2, h3, h4⟩ := ih queue visited (t.putLeaf (i + np) v c) (by omega) (fun T hT => hn T (by simp [hT])) hnd2
          (fun p hp => hlt p (by simp [hp])) (fun j hj hc => hv j hj (by simp [hc]))
        refine ⟨t', ?_, h2, ?_, ?_⟩
        · unfold lgbLoop
          rw [if_neg (not_le.2 (hlt _ (by simp)))]
          exact h1
        · intro T hT
          rcases List.mem_cons.1 hT with rfl | hT
          · obtain ⟨a, b, -, -, -, e, g⟩ := h4 (i + np) hnd1
            refine ⟨a.trans ?_, b.trans ?_, e.trans ?_, g.trans ?_⟩ <;> simp [TreeArr.putLeaf, setAt]
          · exact h3 T hT
        · intro p hpn
          rw [hp] at hpn
          rw [List.mem_cons, not_or] at hpn
          exact (putLeaf_same t hpn.1 v c).trans (h4 p hpn.2)
      | split i f test dl m v c l r =>
        simp only [LgbNode.size] at hf
        obtain ⟨⟨thr, rfl⟩, hnl, hnr⟩ := hn (.split i f test dl m v c l r) (by simp)
        have hp : (LgbNode.split i f (.le thr) dl m v c l r :: queue).flatMap (LgbNode.positions np) =
            i :: (l.positions np ++ r.positions np ++ queue.flatMap (LgbNode.positions np)) := rfl
        have hq : ((queue ++ [l, r]).flatMap (LgbNode.positions np)).Perm
            (l.positions np ++ r.positions np ++ queue.flatMap (LgbNode.positions np)) := by
          rw [List.flatMap_append]
          have : ([l, r] : List LgbNode).flatMap (LgbNode.positions np) = l.positions np ++ r.positions np := by simp
          rw [this]
          exact List.perm_append_comm
        rw [hp] at hnd hlt hv
        obtain ⟨hnd1, hnd2⟩ := List.nodup_cons.1 hnd
        obtain ⟨t', h1, h2, h3, h4⟩ := ih (queue ++ [l, r]) (visited ++ [i]) (t.putSplit i (l.posD np) (r.posD np) dl f thr v c)
          (by rw [List.map_append, List.sum_append]; simp; omega)
          (by
            intro T hT
            rcases List.mem_append.1 hT with hT | hT
            · exact hn T (by simp [hT])
            · rcases List.mem_cons.1 hT with rfl | hT
              · exact hnl
              · rw [List.mem_singleton.1 hT]; exact hnr)
          (hq.nodup_iff.2 hnd2)
          (fun p hp => hlt p (List.mem_cons_of_mem _ (hq.mem_iff.1 hp)))
          (by
            intro j hj hc
            rw [hq.mem_iff] at hc
            rcases List.mem_append.1 hj with hj | hj
            · exact hv j hj (List.mem_cons_of_mem _ hc)
            · rw [List.mem_singleton.1 hj] at hc
              exact hnd1 hc)
        refine ⟨t', ?_, h2, ?_, ?_⟩
        · unfold lgbLoop
          rw [if_neg (fun hc => hv i hc (by simp))]
          simp only [LgbNode.pos_numeric np hnl, LgbNode.pos_numeric np hnr, LgbTest.threshold]
          rw [if_neg (not_le.2 (hlt _ (by simp)))]
          exact h1
        · intro T hT
          rcases List.mem_cons.1 hT with rfl | hT
          · obtain ⟨a, b, d, e, g, k, w⟩ := h4 i (by rw [hq.mem_iff]; exact hnd1)
            refine ⟨a.trans ?_, b.trans ?_, d.trans ?_, e.trans ?_, ?_, k.trans ?_, w.trans ?_, h3 l (by simp), h3 r (by simp)⟩
            · simp [TreeArr.putSplit, setAt]
            · simp [TreeArr.putSplit, setAt]
            · simp [TreeArr.putSplit, setAt]
            · simp [TreeArr.putSplit, setAt]
            · rw [g]; simp [TreeArr.putSplit, setAt]
            · simp [TreeArr.putSplit, setAt]
            · simp [TreeArr.putSplit, setAt]
          · exact h3 T (by simp [hT])
        · intro p hpn
          rw [hp] at hpn
          rw [List.mem_cons, not_or] at hpn
          exact (putSplit_same t hpn.1 _ _ _ _ _ _ _).trans (h4 p (by rw [hq.mem_iff]; exact hpn.2))

def LgbTest.num : LgbTest → ℚ
  | .le thr => thr
  | .eq _ => 0

/-- The tree that the arrays describe. -/
def LgbNode.toB (np : Nat) : LgbNode → BTree
  | .leaf i _ _ => .leaf (i + np)
  | .stump _ => .leaf 0
  | .split i f test _ _ _ _ l r => .node i f test.num (l.toB np) (r.toB np)

theorem LgbNode.toB_id (np : Nat) (T : LgbNode) : (T.toB np).id = T.posD np := by
  cases T <;> rfl

theorem LgbNode.toB_ids (np : Nat) : ∀ {T : LgbNode}, T.Numeric → (T.toB np).ids = T.positions np
  | .leaf _ _ _, _ => rfl
  | .stump _, h => h.elim
  | .split _ _ _ _ _ _ _ l r, h => by
    rw [LgbNode.toB, BTree.ids, LgbNode.positions, LgbNode.toB_ids np h.2.1, LgbNode.toB_ids np h.2.2]

theorem LgbNode.toB_vars (np : Nat) : ∀ (T : LgbNode), (T.toB np).vars = T.features
  | .leaf _ _ _ => rfl
  | .stump _ => rfl
  | .split _ _ _ _ _ _ _ l r => by
    rw [LgbNode.toB, BTree.vars, LgbNode.features, LgbNode.toB_vars np l, LgbNode.toB_vars np r]

theorem stored_encodes {t : TreeArr} (np : Nat) : ∀ {T : LgbNode}, Stored t np T → Encodes t (T.toB np)
  | .leaf _ _ _, h => by
    obtain ⟨h1, h2, -⟩ := h
    exact ⟨by rw [h1]; decide, by rw [h2]; decide⟩
  | .stump _, h => h.elim
  | .split i f test dl m v c l r, h => by
    obtain ⟨h1, h2, h3, h4, h5, -, -, h6, h7⟩ := h
    refine ⟨?_, ?_, ?_, h4, ?_, stored_encodes np h6, stored_encodes np h7⟩
    · rw [h1, LgbNode.toB_id]
    · rw [h2, LgbNode.toB_id]
    · rw [h3, h1, h2]
      cases dl
      · right; rfl
      · left; rfl
    · subst h5
      rfl

theorem LgbNode.positions_perm (np : Nat) : ∀ (T : LgbNode), (T.positions np).Perm (T.splits ++ T.leafIds.map (· + np))
  | .leaf i _ _ => by simp [LgbNode.positions, LgbNode.splits, LgbNode.leafIds]
  | .stump _ => by simp [LgbNode.positions, LgbNode.splits, LgbNode.leafIds]
  | .split i _ _ _ _ _ _ l r => by
    have h1 := LgbNode.positions_perm np l
    have h2 := LgbNode.positions_perm np r
    rw [LgbNode.positions, LgbNode.splits, LgbNode.leafIds, List.map_append, List.cons_append]
    refine List.Perm.cons i ?_
    refine (h1.append h2).trans ?_
    rw [List.append_assoc, List.append_assoc]
    refine List.Perm.append_left _ ?_
    rw [← List.append_assoc, ← List.append_assoc]
    exact List.Perm.append_right _ List.perm_append_comm

theorem LgbNode.leafIds_ne_nil : ∀ {T : LgbNode}, T.Numeric → T.leafIds ≠ []
  | .leaf _ _ _, _ => by simp [LgbNode.leafIds]
  | .stump _, h => h.elim
  | .split _ _ _ _ _ _ _ l r, h => by
    have := LgbNode.leafIds_ne_nil h.2.1
    simp [LgbNode.leafIds, this]

theorem range_split (np : Nat) : List.range np ++ (List.range (np + 1)).map (· + np) = List.range (2 * np + 1) := by
  have : 2 * np + 1 = np + (np + 1) := by omega
  rw [this, List.range_add (n := np) (m := np + 1)]
  congr 1
  apply List.map_congr_left
  intro a _
  omega

theorem LgbDump.positions {nl : Nat} {T : LgbNode} (h : LgbDump nl T) : (T.positions (nl - 1)).Perm (List.range (2 * (nl - 1) + 1)) := by
  have hnl : nl = nl - 1 + 1 := by
    have := LgbNode.leafIds_ne_nil h.numeric
    have hl := h.leaves.length_eq
    rw [List.length_range] at hl
    have : T.leafIds.length ≠ 0 := by simpa using this
    omega
  refine (LgbNode.positions_perm (nl - 1) T).trans ?_
  rw [← range_split]
  refine h.splits.append ?_
  have := h.leaves.map (· + (nl - 1))
  rw [hnl] at this
  simpa using this

theorem stored_value {t : TreeArr} (np : Nat) (x : Obs) : ∀ {T : LgbNode}, Stored t np T → T.Handles x → (T.positions np).Nodup →
    t.value ((T.toB np).descendObs t x) = (fun _ => T.predict x) ∧ t.weight ((T.toB np).descendObs t x) = T.reached x
  | .leaf _ _ _, h, _, _ => h.2.2
  | .stump _, h, _, _ => h.elim
  | .split i f test dl m v c l r, h, hx, hnd => by
    obtain ⟨h1, h2, h3, h4, h5, -, -, h6, h7⟩ := h
    obtain ⟨hx1, hx2, hx3, hx4⟩ := hx
    obtain ⟨hn1, hn2⟩ := List.nodup_cons.1 hnd
    obtain ⟨hn3, hn4, hn5⟩ := List.nodup_append.1 hn2
    have hl := stored_value np x h6 hx3 hn3
    have hr := stored_value np x h7 hx4 hn4
    have hne : l.posD np ≠ r.posD np := by
      have a : l.posD np ∈ l.positions np := by
        cases l with
        | leaf => simp [LgbNode.posD, LgbNode.positions]
        | stump => exact h6.elim
        | split => simp [LgbNode.posD, LgbNode.positions]
      have b : r.posD np ∈ r.positions np := by
        cases r with
        | leaf => simp [LgbNode.posD, LgbNode.positions]
        | stump => exact h7.elim
        | split => simp [LgbNode.posD, LgbNode.positions]
      exact hn5 _ a _ b
    subst h5
    rw [LgbNode.toB, LgbNode.predict, LgbNode.reached]
    show t.value ((BTree.node i f (t.threshold i) (l.toB np) (r.toB np)).descendObs t x) = _ ∧
      t.weight ((BTree.node i f (t.threshold i) (l.toB np) (r.toB np)).descendObs t x) = _
    have hleft : ∀ b : Bool, lgbLeft (.le (t.threshold i)) dl m (x f) = b →
        (BTree.node i f (t.threshold i) (l.toB np) (r.toB np)).descendObs t x =
        if b then (l.toB np).descendObs t x else (r.toB np).descendObs t x := by
      intro b hb
      rw [descendObs_node]
      cases hxf : x f with
      | none =>
        have hm : m = .nan := by
          by_contra hc
          exact hx1 hc hxf
        subst hm
        rw [hxf] at hb
        simp only [lgbLeft] at hb
        subst hb
        rw [h3, LgbNode.toB_id]
        cases dl
        · have : ¬ ((r.posD np : Int) = l.posD np) := by
            intro hc
            exact hne (by exact_mod_cast hc.symm)
          simp [this]
        · simp
      | some a =>
        have hb' : b = decide (a ≤ t.threshold i) := by
          rw [← hb, hxf]
          cases m with
          | none => simp [lgbLeft]
          | zero =>
            have : a ≠ 0 := fun hc => hx2 rfl (by rw [hxf, hc])
            simp [lgbLeft, this]
          | nan => simp [lgbLeft]
        rw [hb']
        by_cases ha : a ≤ t.threshold i <;> simp [ha]
    rw [hleft _ rfl]
    cases lgbLeft (.le (t.threshold i)) dl m (x f)
    · simpa using hr
    · simpa using hl

/-- Multiplying the values changes nothing else. -/
theorem encodes_value {t : TreeArr} (g : Nat → Nat → ℚ) : ∀ {b : BTree}, Encodes t b → Encodes { t with value := g } b
  | .leaf _, h => h
  | .node _ _ _ l r, h => ⟨h.1, h.2.1, h.2.2.1, h.2.2.2.1, h.2.2.2.2.1, encodes_value g h.2.2.2.2.2.1, encodes_value g h.2.2.2.2.2.2⟩

theorem isTree_value {t : TreeArr} (g : Nat → Nat → ℚ) {d : Nat} {b : BTree} (h : IsTree t d b) : IsTree { t with value := g } d b :=
  ⟨h.root, encodes_value g h.enc, h.nodup, h.all, h.vars⟩

theorem descendObs_value {t : TreeArr} (g : Nat → Nat → ℚ) (x : Obs) : ∀ (b : BTree),
    b.descendObs { t with value := g } x = b.descendObs t x
  | .leaf _ => rfl
  | .node _ _ _ l r => by
    rw [descendObs_node, descendObs_node, descendObs_value g x l, descendObs_value g x r]

theorem lgbLoad_isTree (junk : TreeArr) (scaling : ℚ) {nl : Nat} {T : LgbNode} (h : LgbDump nl T) {d : Nat} (hd : ∀ f ∈ T.features, f < d) :
    ∃ t, lgbLoad junk scaling nl T = .ok { t with value := fun n k => t.value n k * scaling } ∧ t.size = 2 * (nl - 1) + 1 ∧
      Stored t (nl - 1) T ∧ IsTree t d (T.toB (nl - 1)) := by
  have hp := h.positions
  have e : [T].flatMap (LgbNode.positions (nl - 1)) = T.positions (nl - 1) := by simp
  obtain ⟨t, h1, h2, h3, -⟩ := lgbLoop_spec (nl - 1) T.size [T] [] { junk with size := 2 * (nl - 1) + 1 } (by simp)
    (by simpa using h.numeric) (by rw [e]; exact hp.nodup_iff.2 List.nodup_range)
    (by intro p hpp; rw [e, hp.mem_iff] at hpp; exact List.mem_range.1 hpp) (by simp)
  have hs := h3 T (by simp)
  refine ⟨t, ?_, h2, hs, ?_⟩
  · unfold lgbLoad
    rw [h1]
  · refine ⟨?_, stored_encodes _ hs, ?_, ?_, ?_⟩
    · rw [LgbNode.toB_id]
      cases T with
      | stump => exact h.numeric.elim
      | split i _ _ _ _ _ _ l r =>
        rcases h.root with hr | hr
        · simpa [LgbNode.splits, LgbNode.posD] using hr
        · simp [LgbNode.splits] at hr
      | leaf i v c =>
        have hl := h.leaves
        have hlen := hl.length_eq
        rw [List.length_range] at hlen
        simp only [LgbNode.leafIds, List.length_cons, List.length_nil] at hlen
        subst hlen
        simpa [LgbNode.leafIds, LgbNode.posD] using hl
    · rw [LgbNode.toB_ids _ h.numeric]
      exact hp.nodup_iff.2 List.nodup_range
    · intro n
      rw [LgbNode.toB_ids _ h.numeric, hp.mem_iff, List.mem_range, h2]
    · rw [LgbNode.toB_vars]
      exact hd

end Acv

import Verif.Lemmas.LoadXgb
import Mathlib.Algebra.Order.Group.Abs
import Mathlib.Tactic.Linarith
import Mathlib.Tactic.NormNum

/-!
# C43: XGBoost models
-/

namespace Acv

/-- A tree with one split, `x[1] < 1`, missing values left. -/
def exXgbTree : XgbTree := .split 0 1 true 0x3F800000 (.leaf 1 0x3E800000) (.leaf 2 0xBF000000)

/-- Its records. -/
def exXgbRaw : XgbRaw :=
  ⟨1, 0, 1, 2, 0, [⟨-1, 1, 2, 2 ^ 31 + 1, 0x3F800000⟩, ⟨0, -1, -1, 0, 0x3E800000⟩, ⟨0, -1, -1, 0, 0xBF000000⟩],
    [⟨0x3F800000, 0x40800000, 0, 0⟩, ⟨0, 0x40400000, 0, 0⟩, ⟨0, 0x3F800000, 0, 0⟩]⟩

/-- A model with this tree, with `base_score = 0.5`. -/
def exXgbModel : XgbModel := ⟨0x3F000000, 2, 0, 0, 0, [114, 101, 103], gbtree, 1, 0, 0, 0, 1, 0, [exXgbRaw]⟩

theorem exXgb_written : exXgbTree.Written 2 exXgbRaw := by
  refine ⟨rfl, ⟨⟨-1, rfl⟩, ⟨0, 0, rfl⟩, ⟨0, 0, rfl⟩⟩, List.Perm.refl _, ⟨by decide, ?_, trivial, trivial⟩, by decide⟩
  unfold NotNanBits
  decide

instance (z : Int) : Decidable (IsI32 z) := inferInstanceAs (Decidable (_ ∧ _))
instance (n : Nat) : Decidable (IsU32 n) := inferInstanceAs (Decidable (_ < _))

theorem exXgb_fits : exXgbModel.Fits := by
  have hr : exXgbRaw.Fits := by
    refine ⟨by decide, by decide, by decide, by decide, by decide, by decide, rfl, ?_, ?_⟩
    · intro r hr
      simp only [exXgbRaw, List.mem_cons, List.not_mem_nil, or_false] at hr
      rcases hr with rfl | rfl | rfl <;> exact ⟨by decide, by decide, by decide, by decide, by decide⟩
    · intro r hr
      simp only [exXgbRaw, List.mem_cons, List.not_mem_nil, or_false] at hr
      rcases hr with rfl | rfl | rfl <;> exact ⟨by decide, by decide, by decide, by decide⟩
  refine ⟨by decide, by decide, by decide, by decide, by decide, by decide, by decide, rfl, by decide, by decide, by decide, by decide,
    by decide, by decide, by decide, ?_⟩
  intro t ht
  rw [List.mem_singleton.1 ht]
  exact hr

/-! ## Reading the buffer -/

/-- The claim of C43 for the buffer: a model written by XGBoost is read back, and the reads end exactly where the trees end. -/
def C43_claim : Prop := ∀ (m : XgbModel) (rest : List UInt8), m.Fits → xgbRead (binf ++ (m.enc ++ rest)) = some (m, m.enc.length)

/-- The first byte of `base_score`. -/
def firstByte (m : XgbModel) : UInt8 := UInt8.ofNat m.baseScore

theorem enc_cons (m : XgbModel) : ∃ tl, m.enc = firstByte m :: tl := ⟨_, rfl⟩

theorem lstrip_binf {m : XgbModel} (rest : List UInt8) {pre : List UInt8} (hp : ∀ b ∈ pre, b ∈ binf) (hb : firstByte m ∉ binf) :
    lstripBinf (pre ++ (m.enc ++ rest)) = m.enc ++ rest := by
  obtain ⟨tl, e⟩ := enc_cons m
  unfold lstripBinf
  rw [List.dropWhile_append_of_pos (fun b hb => decide_eq_true (hp b hb)), e, List.cons_append, List.dropWhile_cons_of_neg]
  simpa using hb

/-- **C43, buffer (partial).** A model written by XGBoost, with or without the leading `binf`, is read back exactly, and the reads are
consecutive and end where the trees end. Missing: models whose `base_score` begins with one of the bytes `b`, `i`, `n`, `f`
(`C43_buffer_iff`, `C43_false`). -/
theorem C43_buffer_partial {m : XgbModel} (rest : List UInt8) (h : m.Fits) (hb : firstByte m ∉ binf) {pre : List UInt8}
    (hp : pre = [] ∨ pre = binf) : xgbRead (pre ++ (m.enc ++ rest)) = some (m, m.enc.length) := by
  unfold xgbRead
  rw [lstrip_binf rest (by rcases hp with rfl | rfl <;> simp) hb]
  have := emits_readModel h [] rest
  simpa using this

example : exXgbModel.Fits ∧ firstByte exXgbModel ∉ binf ∧ exXgbModel.enc.length = 577 := ⟨exXgb_fits, by decide, by decide +kernel⟩

/-- every result of `p` satisfies `Q` -/
def Post {α : Type} (p : Reader α) (Q : α → Prop) : Prop := ∀ pos a pos', p pos = some (a, pos') → Q a

theorem Post.bind {α β : Type} {p : Reader α} {f : α → Reader β} {Q : β → Prop} (h : ∀ a, Post (f a) Q) : Post (p >>= f) Q := by
  intro pos b pos' he
  change ((p pos).bind fun r => f r.1 r.2) = _ at he
  obtain ⟨r, -, hr⟩ := Option.bind_eq_some_iff.1 he
  exact h r.1 _ _ _ hr

theorem Post.bindOf {α β : Type} {p : Reader α} {f : α → Reader β} {P : α → Prop} {Q : β → Prop} (hp : Post p P)
    (h : ∀ a, P a → Post (f a) Q) : Post (p >>= f) Q := by
  intro pos b pos' he
  change ((p pos).bind fun r => f r.1 r.2) = _ at he
  obtain ⟨r, h1, hr⟩ := Option.bind_eq_some_iff.1 he
  exact h r.1 (hp pos r.1 r.2 h1) _ _ _ hr

theorem Post.pure {α : Type} {a : α} {Q : α → Prop} (h : Q a) : Post (Pure.pure a) Q := by
  intro pos b pos' he
  change some (a, pos) = some (b, pos') at he
  cases he
  exact h

theorem read_first {buf : List UInt8} {m : XgbModel} {n : Nat} (h : readModel buf 0 = some (m, n)) :
    ∃ b tl, buf = b :: tl ∧ m.baseScore % 256 = b.toNat := by
  unfold readModel at h
  change ((readU buf 0).bind _) = _ at h
  obtain ⟨⟨u, pos⟩, h1, h2⟩ := Option.bind_eq_some_iff.1 h
  have hm : m.baseScore = u := by
    dsimp only at h2
    refine (?_ : Post _ fun m : XgbModel => m.baseScore = u) _ _ _ h2
    repeat (refine Post.bind fun _ => ?_)
    exact Post.pure rfl
  unfold readU readNat at h1
  split at h1
  · rename_i hlen
    cases buf with
    | nil => simp at hlen
    | cons b tl =>
      refine ⟨b, tl, rfl, ?_⟩
      have := (Prod.mk.inj (Option.some.inj h1)).1
      rw [hm, ← this, List.drop_zero, List.take_succ_cons, leNat]
      have := b.toNat_lt
      omega
  · cases h1

/-- **C43, booster.** Whatever the bytes, a buffer whose booster is not `gbtree` is never read: what is read has that booster, and an objective in
ASCII. -/
theorem C43_gbtree {raw : List UInt8} {m : XgbModel} {n : Nat} (h : xgbRead raw = some (m, n)) :
    m.nameGbm = [103, 98, 116, 114, 101, 101] ∧ ∀ b ∈ m.nameObj, b < 128 := by
  unfold xgbRead readModel at h
  revert h
  generalize lstripBinf raw = buf
  intro h
  refine (?_ : Post _ fun m : XgbModel => m.nameGbm = [103, 98, 116, 114, 101, 101] ∧ ∀ b ∈ m.nameObj, b < 128) _ _ _ h
  iterate 7 refine Post.bind fun _ => ?_
  refine Post.bindOf (P := fun s => ∀ b ∈ s, b < 128) ?_ fun obj hobj => ?_
  · intro pos s pos' he
    unfold readStr at he
    dsimp only at he
    split at he
    · rename_i hall
      have := (Prod.mk.inj (Option.some.inj he)).1
      intro b hb
      rw [← this] at hb
      simpa using List.all_eq_true.1 hall b hb
    · cases he
  iterate 2 refine Post.bind fun _ => ?_
  rename_i s
  refine Post.bindOf (P := fun _ => s = gbtree) ?_ fun _ hs => ?_
  · intro pos u pos' he
    unfold assertGbtree at he
    split at he
    · assumption
    · cases he
  repeat (refine Post.bind fun _ => ?_)
  exact Post.pure ⟨hs, hobj⟩

example : ∃ r, xgbRead (binf ++ (exXgbModel.enc ++ [])) = some r :=
  ⟨_, C43_buffer_partial (m := exXgbModel) [] exXgb_fits (by decide) (Or.inr rfl)⟩

/-! ## Any buffer -/

theorem reader_bind {α β : Type} {p : Reader α} {f : α → Reader β} {pos : Nat} {b : β} {q : Nat} :
    (p >>= f) pos = some (b, q) ↔ ∃ a r, p pos = some (a, r) ∧ f a r = some (b, q) := by
  change ((p pos).bind fun r => f r.1 r.2) = _ ↔ _
  rw [Option.bind_eq_some_iff]
  exact ⟨fun ⟨r, h1, h2⟩ => ⟨r.1, r.2, h1, h2⟩, fun ⟨a, r, h1, h2⟩ => ⟨(a, r), h1, h2⟩⟩

theorem reader_pure {α : Type} {a b : α} {pos q : Nat} : (Pure.pure a : Reader α) pos = some (b, q) ↔ a = b ∧ pos = q := by
  change some (a, pos) = some (b, q) ↔ _
  simp

theorem readNat_some {k : Nat} {buf : List UInt8} {pos a q : Nat} :
    readNat k buf pos = some (a, q) ↔ pos + k ≤ buf.length ∧ leNat ((buf.drop pos).take k) = a ∧ pos + k = q := by
  unfold readNat
  split <;> simp_all

theorem natOf_some {z : Int} {pos a q : Nat} : natOf z pos = some (a, q) ↔ z = a ∧ pos = q := by
  unfold natOf
  split
  · simp only [Option.some.injEq, Prod.mk.injEq]
    refine and_congr ?_ Iff.rfl
    omega
  · simp only [reduceCtorEq, false_iff]
    omega

/-- The signed 32-bit number at a position. -/
def int32At (buf : List UInt8) (pos : Nat) : Int := toInt32 (leNat ((buf.drop pos).take 4))

/-- Trees one after the other from a position: 37 numbers of which the second is the number of nodes, then 20 bytes for each node and 16 for its
statistics. -/
def TreesAt (buf : List UInt8) : Nat → List XgbRaw → Nat → Prop
  | pos, [], last => pos = last
  | pos, t :: ts, last => int32At buf (pos + 4) = t.nodes.length ∧ t.stats.length = t.nodes.length ∧
      TreesAt buf (pos + 148 + 36 * t.nodes.length) ts last

theorem readNodes_pos {buf : List UInt8} : ∀ {n pos : Nat} {l : List XgbNode} {q : Nat}, readMany readNode n buf pos = some (l, q) →
    l.length = n ∧ q = pos + 20 * n
  | 0, pos, l, q, h => by
    unfold readMany at h
    obtain ⟨rfl, rfl⟩ := reader_pure.1 h
    simp
  | n + 1, pos, l, q, h => by
    unfold readMany at h
    simp only [reader_bind, readNode, readI, readU, readNat_some, reader_pure] at h
    obtain ⟨a, r, ha, as, r', has, hl⟩ := h
    obtain ⟨h1, h2⟩ := readNodes_pos has
    obtain ⟨_, _, ⟨_, _, ⟨_, _, e1⟩, _, e1'⟩, _, _, ⟨_, _, ⟨_, _, e2⟩, _, e2'⟩, _, _, ⟨_, _, ⟨_, _, e3⟩, _, e3'⟩, _, _, ⟨_, _, e4⟩, _, _, ⟨_, _, e5⟩, _, e6⟩ := ha
    obtain ⟨rfl, rfl⟩ := hl
    refine ⟨by simp [h1], ?_⟩
    omega

theorem readStats_pos {buf : List UInt8} : ∀ {n pos : Nat} {l : List XgbStat} {q : Nat}, readMany readStat n buf pos = some (l, q) →
    l.length = n ∧ q = pos + 16 * n
  | 0, pos, l, q, h => by
    unfold readMany at h
    obtain ⟨rfl, rfl⟩ := reader_pure.1 h
    simp
  | n + 1, pos, l, q, h => by
    unfold readMany at h
    simp only [reader_bind, readStat, readI, readU, readNat_some, reader_pure] at h
    obtain ⟨a, r, ha, as, r', has, hl⟩ := h
    obtain ⟨h1, h2⟩ := readStats_pos has
    obtain ⟨_, _, ⟨_, _, e1⟩, _, _, ⟨_, _, e2⟩, _, _, ⟨_, _, e3⟩, _, _, ⟨_, _, ⟨_, _, e4⟩, _, e4'⟩, _, e5⟩ := ha
    obtain ⟨rfl, rfl⟩ := hl
    refine ⟨by simp [h1], ?_⟩
    omega

theorem readTree_pos {buf : List UInt8} {pos : Nat} {t : XgbRaw} {q : Nat} (h : readTree buf pos = some (t, q)) :
    int32At buf (pos + 4) = t.nodes.length ∧ t.stats.length = t.nodes.length ∧ q = pos + 148 + 36 * t.nodes.length := by
  unfold readTree at h
  simp only [reader_bind, readI, skipI, readNat_some, reader_pure, natOf_some] at h
  obtain ⟨_, _, ⟨_, _, ⟨_, _, e1⟩, _, e1'⟩, nn, _, ⟨_, _, ⟨_, v2, e2⟩, w2, e2'⟩, _, _, ⟨_, _, ⟨_, _, e3⟩, _, e3'⟩, _, _, ⟨_, _, ⟨_, _, e4⟩, _, e4'⟩,
    _, _, ⟨_, _, ⟨_, _, e5⟩, _, e5'⟩, _, _, ⟨_, _, ⟨_, _, e6⟩, _, e6'⟩, _, _, ⟨_, _, ⟨_, _, e7⟩, _, e7'⟩, n, _, ⟨hn, e8⟩, nodes, _, hnodes, stats, _,
    hstats, ht, e9⟩ := h
  obtain ⟨h1, h2⟩ := readNodes_pos hnodes
  obtain ⟨h3, h4⟩ := readStats_pos hstats
  subst ht
  dsimp only
  refine ⟨?_, by omega, by omega⟩
  unfold int32At
  have : pos + 4 = _ := e1.trans e1'
  rw [this, v2, w2, hn, h1]

theorem readTrees_pos {buf : List UInt8} : ∀ {n pos : Nat} {l : List XgbRaw} {q : Nat}, readMany readTree n buf pos = some (l, q) →
    l.length = n ∧ TreesAt buf pos l q
  | 0, pos, l, q, h => by
    unfold readMany at h
    obtain ⟨rfl, rfl⟩ := reader_pure.1 h
    exact ⟨rfl, rfl⟩
  | n + 1, pos, l, q, h => by
    unfold readMany at h
    simp only [reader_bind, reader_pure] at h
    obtain ⟨a, r, ha, as, r', has, rfl, rfl⟩ := h
    obtain ⟨h1, h2⟩ := readTrees_pos has
    obtain ⟨h3, h4, h5⟩ := readTree_pos ha
    refine ⟨by simp [h1], h3, h4, ?_⟩
    rw [← h5]
    exact h2

/-- **C43, layout.** Whatever the bytes, a buffer is read only if its tables have the announced sizes: the number at the place of the number of trees
is the number of trees read, the number at the place of the number of nodes of each tree is the number of nodes read and the number of statistics
read, and the reads follow one another without a gap up to the returned position. A negative count is never read. -/
theorem C43_layout {raw : List UInt8} {m : XgbModel} {n : Nat} (h : xgbRead raw = some (m, n)) :
    leNat (((lstripBinf raw).drop 136).take 8) = m.nameObj.length ∧
    leNat (((lstripBinf raw).drop (144 + m.nameObj.length)).take 8) = 6 ∧
    int32At (lstripBinf raw) (158 + m.nameObj.length) = m.trees.length ∧
    TreesAt (lstripBinf raw) (318 + m.nameObj.length) m.trees n := by
  have hg := (C43_gbtree h).1
  unfold xgbRead readModel at h
  revert h
  generalize lstripBinf raw = buf
  intro h
  simp only [reader_bind, readI, readU, readQ, skipI, readNat_some, reader_pure, natOf_some] at h
  obtain ⟨_, _, ⟨_, _, e1⟩, _, _, ⟨_, _, e2⟩, _, _, ⟨_, _, ⟨_, _, e3⟩, _, e3'⟩, _, _, ⟨_, _, ⟨_, _, e4⟩, _, e4'⟩, _, _, ⟨_, _, ⟨_, _, e5⟩, _, e5'⟩,
    _, _, ⟨_, _, ⟨_, _, e6⟩, _, e6'⟩, lo, _, ⟨b7, v7, e7⟩, so, _, hso, lg, _, ⟨b9, v9, e9⟩, sg, _, hsg, _, _, hass,
    _, _, ⟨_, _, ⟨b11, v11, e11⟩, w11, e11'⟩, _, _, ⟨_, _, ⟨_, _, e12⟩, _, e12'⟩, _, _, ⟨_, _, ⟨_, _, e13⟩, _, e13'⟩, _, _, ⟨_, _, ⟨_, _, e14⟩, _, e14'⟩,
    _, _, ⟨_, _, e15⟩, _, _, ⟨_, _, ⟨_, _, e16⟩, _, e16'⟩, _, _, ⟨_, _, ⟨_, _, e17⟩, _, e17'⟩, _, _, ⟨_, _, ⟨_, _, e18⟩, _, e18'⟩,
    nt, _, ⟨hnt, e19⟩, trees, _, htrees, hm, e20⟩ := h
  obtain ⟨h1, h2⟩ := readTrees_pos htrees
  subst hm
  dsimp only at hg ⊢
  have hstr : ∀ {k : Nat} {pos q : Nat} {s : List UInt8}, readStr k buf pos = some (s, q) → q = pos + k ∧ (pos + k ≤ buf.length → s.length = k) := by
    intro k pos q s hs
    unfold readStr at hs
    dsimp only at hs
    split at hs
    · obtain ⟨rfl, rfl⟩ := Prod.mk.inj (Option.some.inj hs)
      refine ⟨rfl, fun hle => ?_⟩
      rw [List.length_take, List.length_drop]
      omega
    · cases hs
  obtain ⟨q8, l8⟩ := hstr hso
  obtain ⟨q10, l10⟩ := hstr hsg
  have hpos : ∀ {pos q : Nat} {u : Unit}, assertGbtree sg pos = some (u, q) → q = pos := by
    intro pos q u hs
    unfold assertGbtree at hs
    split at hs
    · exact (Prod.mk.inj (Option.some.inj hs)).2.symm
    · cases hs
  have q10' := hpos hass
  have l8' := l8 (by omega)
  have l10' := l10 (by omega)
  have l6 : lg = 6 := by rw [← l10', hg]; rfl
  subst l6
  subst l8'
  refine ⟨?_, ?_, ?_, ?_⟩
  · rw [← v7]; congr 3; omega
  · rw [← v9]; congr 3; omega
  · unfold int32At
    rw [h1, ← hnt, ← w11, ← v11]
    congr 4
    omega
  · convert h2 using 1 <;> omega

example : ∃ r, xgbRead (binf ++ (exXgbModel.enc ++ [1, 2])) = some r ∧ r.1.trees.length = 1 :=
  ⟨_, C43_buffer_partial (m := exXgbModel) [1, 2] exXgb_fits (by decide) (Or.inr rfl), rfl⟩

/-- **C43, buffer, exactly.** A model written by XGBoost is read back if and only if the first byte of its `base_score` is none of the bytes
`b`, `i`, `n`, `f`: `lstrip(b'binf')` removes bytes, not the prefix. -/
theorem C43_buffer_iff {m : XgbModel} (rest : List UInt8) (h : m.Fits) :
    xgbRead (binf ++ (m.enc ++ rest)) = some (m, m.enc.length) ↔ firstByte m ∉ binf := by
  constructor
  · intro hr hmem
    obtain ⟨b, tl, hbuf, hb⟩ := read_first hr
    have hne : (lstripBinf (binf ++ (m.enc ++ rest))) ≠ [] := by rw [hbuf]; simp
    have hh := List.head_dropWhile_not (fun b => decide (b ∈ binf)) hne
    have e : (lstripBinf (binf ++ (m.enc ++ rest))).head hne = b := by simp [hbuf]
    have hnb : b ∉ binf := by
      have : decide (b ∈ binf) = false := by
        rw [← e]
        exact hh
      simpa using this
    apply hnb
    have : firstByte m = b := by
      apply UInt8.toNat_inj.1
      unfold firstByte
      rw [UInt8.toNat_ofNat', ← hb]
    rw [← this]
    exact hmem
  · exact fun hb => C43_buffer_partial rest h hb (Or.inr rfl)

/-- **C43 is false** of the buffer: a model with `base_score = 0.9` (the bytes `f`, `f`, `f`, `?`) is not read back. -/
theorem C43_false : ¬ C43_claim := by
  intro h
  have hf : ({ exXgbModel with baseScore := 0x3F666666 } : XgbModel).Fits := { exXgb_fits with baseScore := by decide }
  exact ((C43_buffer_iff [] hf).1 (h _ [] hf)) (by decide)

/-! ## Decoding a record -/

/-- **C43, record.** For every 32-bit split index, the feature is what its lower 31 bits say, and missing values go left exactly when its highest
bit is set. -/
theorem C43_sindex (r : XgbNode) (h : r.sindex < 2 ^ 32) :
    r.feature = r.sindex % 2 ^ 31 ∧ r.dflt = (if 2 ^ 31 ≤ r.sindex then r.cleft else r.cright) := by
  constructor
  · unfold XgbNode.feature
    have e : (1 <<< 31 - 1 : Nat) = 2 ^ 31 - 1 := by decide
    rw [e, Nat.and_two_pow_sub_one_eq_mod]
  · unfold XgbNode.dflt
    rw [Nat.shiftRight_eq_div_pow]
    by_cases hs : 2 ^ 31 ≤ r.sindex
    · rw [if_pos (by omega), if_pos hs]
    · rw [if_neg (by omega), if_neg hs]

example : (⟨0, 3, 4, 2 ^ 31 + 7, 0⟩ : XgbNode).feature = 7 ∧ (⟨0, 3, 4, 2 ^ 31 + 7, 0⟩ : XgbNode).dflt = 3 := by decide

/-- **C43, threshold.** For every pair of floats, `v <= threshold` after loading is `v < split_cond` before. -/
theorem C43_threshold {v t : Nat} (hv : FiniteBits v) (ht : NotNanBits t) : f32 v ≤ f32 (nextBelow t) ↔ f32 v < f32 t :=
  f32_nextBelow hv ht

example : FiniteBits 0x3F7FFFFF ∧ NotNanBits 0x3F800000 ∧ nextBelow 0x3F800000 = 0x3F7FFFFF := by
  unfold FiniteBits NotNanBits
  decide

/-! ## Trees -/

/-- **C43, structure.** The loaded arrays of a tree are well-formed, with one entry per record. -/
theorem C43_structure {T : XgbTree} {d : Nat} {t : XgbRaw} (h : T.Written d t) : WellFormed t.load d ∧ t.load.size = t.nodes.length :=
  ⟨⟨_, xgb_isTree h⟩, rfl⟩

/-- **C43, trees.** For every row of floats the loaded arrays reach the leaf XGBoost reaches, with its value and its hessian sum. -/
theorem C43_tree {T : XgbTree} {d : Nat} {t : XgbRaw} (h : T.Written d t) {x : Obs} (hx : FloatRow x) :
    ∃ ℓ, t.load.leafOf x = some ℓ ∧ ℓ = T.reached x ∧ (∀ k, t.load.value ℓ k = T.predict x) ∧
      ∀ s, t.stats[ℓ]? = some s → t.load.weight ℓ = f32 s.sumHess := by
  refine ⟨T.reached x, ?_, rfl, xgb_value x h.held, ?_⟩
  · rw [leafOf_obs (xgb_isTree h) x, xgb_descend h.bound hx h.held h.sane (h.ids.nodup_iff.2 List.nodup_range)]
  · intro s hs
    show f32 (t.stats.getD (T.reached x) ⟨0, 0, 0, 0⟩).sumHess = _
    rw [List.getD_eq_getElem?_getD, hs]
    rfl

example : exXgbTree.Written 2 exXgbRaw ∧ FloatRow (fun _ => some (f32 0x3F7FFFFF)) ∧
    exXgbTree.reached (fun _ => some (f32 0x3F7FFFFF)) = 1 ∧ exXgbTree.reached (fun _ => some (f32 0x3F800000)) = 2 := by
  refine ⟨exXgb_written, ?_, by decide +kernel, by decide +kernel⟩
  intro j v hv
  exact ⟨0x3F7FFFFF, by unfold FiniteBits; decide, (Option.some.inj hv).symm⟩

/-- **C43 (partial).** From the bytes to the predictions: every tree of a model written by XGBoost is loaded, and predicts what XGBoost
predicts for every row of floats. Missing: the models of `C43_false`, and rows of doubles (`C43_double_false`). -/
theorem C43_partial {m : XgbModel} (rest : List UInt8) (h : m.Fits) (hb : firstByte m ∉ binf) {d : Nat} {Ts : List XgbTree}
    (hT : List.Forall₂ (fun T t => T.Written d t) Ts m.trees) :
    ∃ ts, xgbLoad (binf ++ (m.enc ++ rest)) = some ts ∧ List.Forall₂ (fun T t => WellFormed t d ∧
      ∀ x, FloatRow x → ∃ ℓ, t.leafOf x = some ℓ ∧ ∀ k, t.value ℓ k = T.predict x) Ts ts := by
  refine ⟨m.trees.map XgbRaw.load, ?_, ?_⟩
  · unfold xgbLoad
    rw [C43_buffer_partial rest h hb (Or.inr rfl)]
    rfl
  · rw [List.forall₂_map_right_iff]
    refine hT.imp fun T t ht => ⟨⟨_, xgb_isTree ht⟩, fun x hx => ?_⟩
    obtain ⟨ℓ, h1, -, h2, -⟩ := C43_tree ht hx
    exact ⟨ℓ, h1, h2⟩

example : List.Forall₂ (fun T t => T.Written 2 t) [exXgbTree] exXgbModel.trees := .cons exXgb_written .nil

/-- The claim of C43 for rows of doubles, which XGBoost first converts to floats and `XGBRegressor`, `XGBRanker` and `Booster` models in this
library do not (`input_dtype` stays `np.float64`). -/
def C43_double_claim : Prop := ∀ (T : XgbTree) (d : Nat) (t : XgbRaw) (x y : Obs), T.Written d t → Rounds x y →
  ∃ ℓ, t.load.leafOf x = some ℓ ∧ ∀ k, t.load.value ℓ k = T.predict y

/-- **C43 is false for rows of doubles**: a double just below the split condition, above the float below it, goes left in XGBoost and right
after loading. -/
theorem C43_double_false : ¬ C43_double_claim := by
  intro h
  have e1 : f32 0x3F7FFFFF = 1 - 1 / 2 ^ 24 := by decide +kernel
  have e2 : f32 0x3F800000 = 1 := by decide +kernel
  have hf : FiniteBits 0x3F7FFFFF := by unfold FiniteBits; decide
  have hn : NotNanBits 0x3F800000 := by unfold NotNanBits; decide
  have hr : Rounds (fun _ => some (1 - 1 / 2 ^ 24 + 1 / 2 ^ 30)) (fun _ => some (f32 0x3F7FFFFF)) := by
    refine fun j => Or.inr ⟨_, _, rfl, rfl, hf, ?_⟩
    intro b' hb'
    have hc := C43_threshold hb' hn
    rw [e2, show nextBelow 0x3F800000 = 0x3F7FFFFF from rfl, e1] at hc
    rw [e1]
    have hl : |(1 - 1 / 2 ^ 24 + 1 / 2 ^ 30 - (1 - 1 / 2 ^ 24) : ℚ)| = 1 / 2 ^ 30 := by norm_num
    rw [hl]
    by_cases h1 : f32 b' < 1
    · have := hc.2 h1
      refine le_trans ?_ (le_abs_self _)
      linarith
    · rw [abs_sub_comm]
      refine le_trans ?_ (le_abs_self _)
      have : (1 : ℚ) ≤ f32 b' := not_lt.1 h1
      norm_num at this ⊢
      linarith
  obtain ⟨ℓ, h1, h2⟩ := h exXgbTree 2 exXgbRaw _ _ exXgb_written hr
  have hl : exXgbRaw.load.leafOf (fun _ => some (1 - 1 / 2 ^ 24 + 1 / 2 ^ 30)) = some 2 := by decide +kernel
  rw [hl] at h1
  cases h1
  have := h2 0
  revert this
  decide +kernel

end Acv

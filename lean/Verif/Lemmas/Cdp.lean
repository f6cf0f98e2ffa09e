import Verif.Spec.Cdp
import Verif.Model.Cdp
import Verif.Props.Projected

namespace Acv

variable {mem : Mem} {push : List Int → Int → List Int} {dir : Int → ℚ → Option Bool} {data : Nat → Row} {minSize : Nat}

/-! ### the walk with `dirS` is the walk of `Verif.Model.Projected` -/

theorem visitD_dirS (S : List Nat) (x : Row) (n : Int) (st : PState) :
    mem.visitD push (dirS S x) data n st = mem.visit push S x data n st := by
  unfold Mem.visitD Mem.visit dirS dirPoint
  simp only
  by_cases h : inS S (mem.feat n)
  · by_cases hx : x (mem.feat n).toNat ≤ mem.thr n
    · simp [h, hx]
    · simp [h, hx]
  · simp [h]

theorem scanD_dirS (S : List Nat) (x : Row) : ∀ (nodes : List Int) (st : PState),
    mem.scanD push (dirS S x) data minSize nodes st = mem.scan push S x data minSize nodes st
  | [], _ => rfl
  | n :: ns, st => by
    unfold Mem.scanD Mem.scan
    simp only [visitD_dirS, scanD_dirS S x ns]

theorem levelsD_dirS (S : List Nat) (x : Row) : ∀ (k : Nat) (nodes : List Int) (st : PState),
    mem.levelsD push (dirS S x) data minSize k nodes st = mem.levels push S x data minSize k nodes st
  | 0, _, _ => rfl
  | k + 1, nodes, st => by
    unfold Mem.levelsD Mem.levels
    simp only [scanD_dirS, levelsD_dirS S x k]

theorem forestRunD_dirS (S : List Nat) (x : Row) {maxDepth N : Nat} : ∀ (mems : List Mem) (r : Rule),
    forestRunD push (dirS S x) data minSize maxDepth N mems r = forestRun push S x data minSize maxDepth N mems r
  | [], _ => rfl
  | mem :: mems, r => by
    unfold forestRunD forestRun Mem.runD Mem.run
    simp only [levelsD_dirS, forestRunD_dirS S x mems]

/-! ### congruence in the decision -/

theorem scanD_congr {dir' : Int → ℚ → Option Bool} (h : ∀ n, dir (mem.feat n) (mem.thr n) = dir' (mem.feat n) (mem.thr n)) :
    ∀ (nodes : List Int) (st : PState), mem.scanD push dir data minSize nodes st = mem.scanD push dir' data minSize nodes st
  | [], _ => rfl
  | n :: ns, st => by
    have hv : mem.visitD push dir data n st = mem.visitD push dir' data n st := by unfold Mem.visitD; rw [h n]
    unfold Mem.scanD
    simp only [hv, scanD_congr h ns]

theorem levelsD_congr {dir' : Int → ℚ → Option Bool} (h : ∀ n, dir (mem.feat n) (mem.thr n) = dir' (mem.feat n) (mem.thr n)) :
    ∀ (k : Nat) (nodes : List Int) (st : PState),
      mem.levelsD push dir data minSize k nodes st = mem.levelsD push dir' data minSize k nodes st
  | 0, _, _ => rfl
  | k + 1, nodes, st => by
    unfold Mem.levelsD
    simp only [scanD_congr h, levelsD_congr h k]

theorem forestRunD_congr {dir' : Int → ℚ → Option Bool} {maxDepth N : Nat} : ∀ (mems : List Mem) (r : Rule),
    (∀ mem ∈ mems, ∀ n, dir (mem.feat n) (mem.thr n) = dir' (mem.feat n) (mem.thr n)) →
    forestRunD push dir data minSize maxDepth N mems r = forestRunD push dir' data minSize maxDepth N mems r
  | [], _, _ => rfl
  | mem :: mems, r, h => by
    unfold forestRunD Mem.runD
    have hr := fun r' => forestRunD_congr (maxDepth := maxDepth) (N := N) mems r' fun m' hm' => h m' (List.mem_cons_of_mem _ hm')
    simp only [levelsD_congr (h mem (by simp)), hr]

/-! ### induction -/

theorem scanD_induct {P : PState → Prop} (h : ∀ n st, P st → P (mem.visitD push dir data n st)) :
    ∀ nodes st, P st → P (mem.scanD push dir data minSize nodes st)
  | [], _, hp => hp
  | n :: ns, st, hp => by
    unfold Mem.scanD
    simp only
    split
    · exact h n st hp
    · exact scanD_induct h ns _ (h n st hp)

theorem levelsD_induct {P : PState → Prop} (h : ∀ n st, P st → P (mem.visitD push dir data n st)) :
    ∀ k nodes st, P st → P (mem.levelsD push dir data minSize k nodes st)
  | 0, _, _, hp => hp
  | k + 1, nodes, st, hp => levelsD_induct h k _ _ (scanD_induct h nodes st hp)

theorem forestRunD_length {maxDepth N : Nat} : ∀ (mems : List Mem) (r : Rule),
    (forestRunD push dir data minSize maxDepth N mems r).1.length = mems.length
  | [], _ => rfl
  | mem :: mems, r => by
    unfold forestRunD
    simp only [List.length_cons]
    rw [forestRunD_length mems]

theorem forestRunD_cells {maxDepth N : Nat} : ∀ (mems : List Mem) (r : Rule) (c : List Nat),
    c ∈ (forestRunD push dir data minSize maxDepth N mems r).1 →
      ∃ mem ∈ mems, ∃ r', c = (mem.runD push dir data minSize maxDepth N r').1
  | [], _, _, h => by simp [forestRunD] at h
  | mem :: mems, r, c, h => by
    unfold forestRunD at h
    simp only [List.mem_cons] at h
    rcases h with h | h
    · exact ⟨mem, by simp, r, h⟩
    · obtain ⟨m', h1, h2⟩ := forestRunD_cells mems _ c h
      exact ⟨m', List.mem_cons_of_mem _ h1, h2⟩

theorem runD_sublist {maxDepth N : Nat} {r : Rule} :
    (mem.runD push dir data minSize maxDepth N r).1.Sublist (List.range N) := by
  unfold Mem.runD
  apply levelsD_induct (P := fun st => st.rows.Sublist (List.range N))
  · intro n st hst
    unfold Mem.visitD
    split
    · exact List.filter_sublist.trans hst
    · exact List.filter_sublist.trans hst
    · exact hst
  · exact List.Sublist.refl _

theorem cellsD_sublist {mems : List Mem} {maxDepth N : Nat} {c : List Nat} (h : c ∈ cellsD mems dir data minSize maxDepth N) :
    c.Sublist (List.range N) := by
  obtain ⟨mem, _, r', rfl⟩ := forestRunD_cells mems _ c h
  exact runD_sublist

theorem cellsD_length {mems : List Mem} {maxDepth N : Nat} :
    (cellsD mems dir data minSize maxDepth N).length = mems.length := forestRunD_length _ _

/-! ### the decision and the allowed values -/

/-- the walk restricts a split exactly when the condition decides it -/
structure Decides (dir : Int → ℚ → Option Bool) (A : Values) : Prop where
  neg : ∀ f thr, f < 0 → dir f thr = none
  left : ∀ (f : Int) thr, 0 ≤ f → (dir f thr = some true ↔ ∀ v ∈ A f.toNat, v ≤ thr)
  right : ∀ (f : Int) thr, 0 ≤ f → (dir f thr = some false ↔ ∀ v ∈ A f.toNat, thr < v)

theorem decides_point (S : List Nat) (x : Row) : Decides (dirS S x) (pointValues S x) where
  neg := by
    intro f thr hf
    have : inS S f = false := by rw [Bool.eq_false_iff]; intro h; have := (inS_iff.mp h).1; omega
    simp [dirS, this]
  left := by
    intro f thr hf
    unfold dirS dirPoint pointValues
    by_cases h : f.toNat ∈ S
    · simp [inS_iff.mpr ⟨hf, h⟩, h]
    · have : ¬ inS S f = true := fun hc => h (inS_iff.mp hc).2
      simp only [this, if_false]
      refine ⟨fun hc => (by cases hc), fun hall => ?_⟩
      have := hall (thr + 1) (fun hc => absurd hc h)
      linarith
  right := by
    intro f thr hf
    unfold dirS dirPoint pointValues
    by_cases h : f.toNat ∈ S
    · simp [inS_iff.mpr ⟨hf, h⟩, h]
    · have : ¬ inS S f = true := fun hc => h (inS_iff.mp hc).2
      simp only [this, if_false]
      refine ⟨fun hc => (by cases hc), fun hall => ?_⟩
      have := hall (thr - 1) (fun hc => absurd hc h)
      linarith

theorem dirBox_true {cond : Rule} {f : Int} (hf : 0 ≤ f) {thr : ℚ} : dirBox cond f thr = some true ↔ (cond f.toNat).2 ≤ thr := by
  unfold dirBox
  split
  · rename_i h; simp [h.2]
  · rename_i h
    have : ¬ (cond f.toNat).2 ≤ thr := fun hc => h ⟨hf, hc⟩
    split <;> simp [this]

theorem dirBox_false {cond : Rule} {f : Int} (hf : 0 ≤ f) (hle : (cond f.toNat).1 ≤ (cond f.toNat).2) {thr : ℚ} :
    dirBox cond f thr = some false ↔ thr < (cond f.toNat).1 := by
  unfold dirBox
  split
  · rename_i h
    simp only [Option.some.injEq, Bool.true_eq_false, false_iff, not_lt]
    linarith [h.2]
  · split
    · rename_i h; simp [h.2]
    · rename_i h
      have : ¬ thr < (cond f.toNat).1 := fun hc => h ⟨hf, hc⟩
      simp [this]

theorem decides_cond (S : List Nat) (x : Row) {cond : Rule} (hle : ∀ f, f ∉ S → (cond f).1 ≤ (cond f).2) :
    Decides (dirCond S x cond) (condValues S x cond) where
  neg := by
    intro f thr hf
    have : inS S f = false := by rw [Bool.eq_false_iff]; intro h; have := (inS_iff.mp h).1; omega
    have h0 : ¬ 0 ≤ f := by omega
    simp [dirCond, this, dirBox, h0]
  left := by
    intro f thr hf
    unfold dirCond condValues
    by_cases h : f.toNat ∈ S
    · simp [inS_iff.mpr ⟨hf, h⟩, h, dirPoint]
    · have : ¬ inS S f = true := fun hc => h (inS_iff.mp hc).2
      rw [if_neg this, dirBox_true hf]
      simp only [Set.mem_setOf_eq, h, false_imp_iff, true_and, not_false_eq_true, true_imp_iff]
      exact ⟨fun hh v hv => hv.2.trans hh, fun hall => hall _ ⟨hle _ h, le_refl _⟩⟩
  right := by
    intro f thr hf
    unfold dirCond condValues
    by_cases h : f.toNat ∈ S
    · simp [inS_iff.mpr ⟨hf, h⟩, h, dirPoint]
    · have : ¬ inS S f = true := fun hc => h (inS_iff.mp hc).2
      rw [if_neg this, dirBox_false hf (hle _ h)]
      simp only [Set.mem_setOf_eq, h, false_imp_iff, true_and, not_false_eq_true, true_imp_iff]
      exact ⟨fun hh v hv => lt_of_lt_of_le hh hv.1, fun hall => hall _ ⟨le_refl _, hle _ h⟩⟩

theorem decides_intv (S : List Nat) {cond : Rule} (hle : ∀ f, f ∉ S → (cond f).1 ≤ (cond f).2) :
    Decides (dirIntv S cond) (intvValues S cond) where
  neg := by
    intro f thr hf
    have : inS S f = false := by rw [Bool.eq_false_iff]; intro h; have := (inS_iff.mp h).1; omega
    have h0 : ¬ 0 ≤ f := by omega
    simp [dirIntv, this, dirBox, h0]
  left := by
    intro f thr hf
    unfold dirIntv intvValues
    by_cases h : f.toNat ∈ S
    · rw [if_pos (inS_iff.mpr ⟨hf, h⟩)]
      refine ⟨fun hc => (by cases hc), fun hall => ?_⟩
      have := hall (thr + 1) (fun hc => absurd h hc)
      linarith
    · have : ¬ inS S f = true := fun hc => h (inS_iff.mp hc).2
      rw [if_neg this, dirBox_true hf]
      simp only [Set.mem_setOf_eq, h, not_false_eq_true, true_imp_iff]
      exact ⟨fun hh v hv => hv.2.trans hh, fun hall => hall _ ⟨hle _ h, le_refl _⟩⟩
  right := by
    intro f thr hf
    unfold dirIntv intvValues
    by_cases h : f.toNat ∈ S
    · rw [if_pos (inS_iff.mpr ⟨hf, h⟩)]
      refine ⟨fun hc => (by cases hc), fun hall => ?_⟩
      have := hall (thr - 1) (fun hc => absurd h hc)
      linarith
    · have : ¬ inS S f = true := fun hc => h (inS_iff.mp hc).2
      rw [if_neg this, dirBox_false hf (hle _ h)]
      simp only [Set.mem_setOf_eq, h, not_false_eq_true, true_imp_iff]
      exact ⟨fun hh v hv => lt_of_lt_of_le hh hv.1, fun hall => hall _ ⟨le_refl _, hle _ h⟩⟩

/-- a row that satisfies the condition is never dropped, whatever the memory holds -/
theorem runD_keeps {A : Values} (hd : Decides dir A) {maxDepth N : Nat} {r : Rule} {i : Nat} (hi : i < N)
    (hz : Satisfies A (data i)) : i ∈ (mem.runD push dir data minSize maxDepth N r).1 := by
  unfold Mem.runD
  apply levelsD_induct (P := fun st => i ∈ st.rows)
  · intro n st hst
    by_cases hf : 0 ≤ mem.feat n
    · unfold Mem.visitD
      split
      · rename_i h
        have := (hd.left _ _ hf).mp h _ (hz _)
        simp [hst, this]
      · rename_i h
        have := (hd.right _ _ hf).mp h _ (hz _)
        simp only [List.mem_filter]
        simp [hst, this]
      · exact hst
    · have := hd.neg (mem.feat n) (mem.thr n) (by omega)
      unfold Mem.visitD
      rw [this]
      exact hst
  · simpa using hi

theorem cellsD_keeps {A : Values} (hd : Decides dir A) {mems : List Mem} {maxDepth N : Nat} {i : Nat} (hi : i < N)
    (hz : Satisfies A (data i)) {c : List Nat} (h : c ∈ cellsD mems dir data minSize maxDepth N) : i ∈ c := by
  obtain ⟨mem, _, r', rfl⟩ := forestRunD_cells mems _ c h
  exact runD_keeps hd hi hz

/-! ### reduction to the walk of `Verif.Model.Projected`: one column per node -/

/-- the tree whose node `n` tests column `n` -/
def TreeArr.unfolded (t : TreeArr) : TreeArr := { t with feature := fun n => if t.left n < 0 then -1 else n }

/-- the memory of `TreeArr.unfolded` -/
def Mem.unfolded (mem : Mem) (t : TreeArr) : Mem :=
  { mem with feat := fun n => if 0 ≤ n ∧ n < t.size ∧ 0 ≤ t.left n.toNat then n else -1 }

/-- the decided nodes -/
def decided (t : TreeArr) (dir : Int → ℚ → Option Bool) : List Nat :=
  (List.range t.size).filter fun n => decide (dir (t.feature n) (t.threshold n) ≠ none)

/-- a point that takes the decided branch -/
def decidedPoint (t : TreeArr) (dir : Int → ℚ → Option Bool) : Row :=
  fun n => if dir (t.feature n) (t.threshold n) = some true then t.threshold n else t.threshold n + 1

/-- the data with one column per node -/
def unfoldedData (t : TreeArr) (data : Nat → Row) : Nat → Row := fun i n => data i (t.feature n).toNat

/-- the nodes the walk can hold -/
def Seen (t : TreeArr) (n : Int) : Prop := n = -1 ∨ (0 ≤ n ∧ n < t.size)

/-- the cell before the tree and the leaves decide nothing -/
def DirQuiet (t : TreeArr) (dir : Int → ℚ → Option Bool) (mem : Mem) : Prop :=
  ∀ n : Int, Seen t n → ¬ (0 ≤ n ∧ n < t.size ∧ 0 ≤ t.left n.toNat) → dir (mem.feat n) (mem.thr n) = none

/-- the children of a node the walk can hold -/
def SeenClosed (t : TreeArr) (mem : Mem) : Prop := ∀ n : Int, Seen t n → Seen t (mem.lc n) ∧ Seen t (mem.rc n)

theorem visitD_seen {t : TreeArr} (hpush : ∀ l a c, c ∈ push l a ↔ c = a ∨ c ∈ l) (hs : SeenClosed t mem) {n : Int}
    (hn : Seen t n) {st : PState} (hc : ∀ c ∈ st.child, Seen t c) : ∀ c ∈ (mem.visitD push dir data n st).child, Seen t c := by
  obtain ⟨h1, h2⟩ := hs n hn
  intro c hcm
  unfold Mem.visitD at hcm
  split at hcm <;> simp only [hpush] at hcm
  · rcases hcm with rfl | hcm
    · exact h1
    · exact hc c hcm
  · rcases hcm with rfl | hcm
    · exact h2
    · exact hc c hcm
  · rcases hcm with rfl | rfl | hcm
    · exact h2
    · exact h1
    · exact hc c hcm

theorem scanD_seen {t : TreeArr} (hpush : ∀ l a c, c ∈ push l a ↔ c = a ∨ c ∈ l) (hs : SeenClosed t mem) :
    ∀ (nodes : List Int) (st : PState), (∀ n ∈ nodes, Seen t n) → (∀ c ∈ st.child, Seen t c) →
      ∀ c ∈ (mem.scanD push dir data minSize nodes st).child, Seen t c
  | [], _, _, hc => hc
  | n :: ns, st, hn, hc => by
    have h := visitD_seen (dir := dir) (data := data) hpush hs (hn n (by simp)) hc
    unfold Mem.scanD
    simp only
    split
    · exact h
    · exact scanD_seen hpush hs ns _ (fun n' hn' => hn n' (List.mem_cons_of_mem _ hn')) h

theorem visitD_unfold {t : TreeArr} (hm : mem.Holds t) (hq : DirQuiet t dir mem) {n : Int} (hseen : Seen t n) (st : PState)
    {st' : PState} (hc : st'.child = st.child) (hr : st'.rows = st.rows) :
    ((mem.unfolded t).visit push (decided t dir) (decidedPoint t dir) (unfoldedData t data) n st').child =
      (mem.visitD push dir data n st).child ∧
    ((mem.unfolded t).visit push (decided t dir) (decidedPoint t dir) (unfoldedData t data) n st').rows =
      (mem.visitD push dir data n st).rows := by
  by_cases hn : 0 ≤ n ∧ n < t.size ∧ 0 ≤ t.left n.toNat
  · obtain ⟨k, rfl⟩ := Int.eq_ofNat_of_zero_le hn.1
    have hk : k < t.size := by exact_mod_cast hn.2.1
    obtain ⟨e1, e2, e3, e4⟩ := hm k hk
    have hin : inS (decided t dir) (k : Int) = true ↔ dir (t.feature k) (t.threshold k) ≠ none := by
      rw [inS_iff]; simp [decided, hk]
    have hfeat : (mem.unfolded t).feat (k : Int) = (k : Int) := by simp only [Mem.unfolded]; rw [if_pos hn]
    have h10 : ¬ (1 : ℚ) ≤ 0 := by norm_num
    unfold Mem.visit Mem.visitD
    simp only [hfeat]
    rw [e1, e2]
    cases hdir : dir (t.feature k) (t.threshold k) with
    | none =>
      have : ¬ inS (decided t dir) (k : Int) = true := by rw [hin]; simpa using hdir
      rw [if_neg this]
      simp [Mem.unfolded, hc, hr]
    | some b =>
      have : inS (decided t dir) (k : Int) = true := by rw [hin, hdir]; simp
      rw [if_pos this]
      cases b
      · simp [Mem.unfolded, hc, hr, decidedPoint, hdir, e2, unfoldedData, h10]
      · simp [Mem.unfolded, hc, hr, decidedPoint, hdir, e2, unfoldedData]
  · unfold Mem.visit Mem.visitD
    have hfeat : (mem.unfolded t).feat n = -1 := by simp only [Mem.unfolded]; rw [if_neg hn]
    have : ¬ inS (decided t dir) (-1) = true := by rw [inS_iff]; simp
    simp only [hfeat]
    rw [hq n hseen hn, if_neg this]
    simp [Mem.unfolded, hc, hr]

theorem scanD_unfold {t : TreeArr} (hpush : ∀ l a c, c ∈ push l a ↔ c = a ∨ c ∈ l) (hs : SeenClosed t mem) (hm : mem.Holds t)
    (hq : DirQuiet t dir mem) : ∀ (nodes : List Int) (st st' : PState), (∀ n ∈ nodes, Seen t n) →
    st'.child = st.child → st'.rows = st.rows →
    ((mem.unfolded t).scan push (decided t dir) (decidedPoint t dir) (unfoldedData t data) minSize nodes st').child =
      (mem.scanD push dir data minSize nodes st).child ∧
    ((mem.unfolded t).scan push (decided t dir) (decidedPoint t dir) (unfoldedData t data) minSize nodes st').rows =
      (mem.scanD push dir data minSize nodes st).rows
  | [], _, _, _, hc, hr => ⟨hc, hr⟩
  | n :: ns, st, st', hn, hc, hr => by
    obtain ⟨v1, v2⟩ := visitD_unfold (push := push) (data := data) hm hq (hn n (by simp)) st hc hr
    unfold Mem.scan Mem.scanD
    simp only
    rw [v2]
    split
    · exact ⟨v1, v2⟩
    · exact scanD_unfold hpush hs hm hq ns _ _ (fun n' hn' => hn n' (List.mem_cons_of_mem _ hn')) v1 v2

theorem levelsD_unfold {t : TreeArr} (hpush : ∀ l a c, c ∈ push l a ↔ c = a ∨ c ∈ l) (hs : SeenClosed t mem) (hm : mem.Holds t)
    (hq : DirQuiet t dir mem) : ∀ (k : Nat) (nodes : List Int) (st st' : PState), (∀ n ∈ nodes, Seen t n) → (∀ c ∈ st.child, Seen t c) →
    st'.child = st.child → st'.rows = st.rows →
    ((mem.unfolded t).levels push (decided t dir) (decidedPoint t dir) (unfoldedData t data) minSize k nodes st').rows =
      (mem.levelsD push dir data minSize k nodes st).rows
  | 0, _, _, _, _, _, _, hr => hr
  | k + 1, nodes, st, st', hn, hcs, hc, hr => by
    obtain ⟨v1, v2⟩ := scanD_unfold (push := push) (data := data) (minSize := minSize) hpush hs hm hq nodes st st' hn hc hr
    have hseen := scanD_seen (dir := dir) (data := data) (minSize := minSize) hpush hs nodes st hn hcs
    unfold Mem.levels Mem.levelsD
    simp only
    rw [v1]
    exact levelsD_unfold hpush hs hm hq k _ _ _ hseen hseen v1 v2

/-- relabel the columns of a tree by the nodes -/
def BTree.relabel : BTree → BTree
  | .leaf i => .leaf i
  | .node i _ thr l r => .node i i thr l.relabel r.relabel

theorem BTree.relabel_id (b : BTree) : b.relabel.id = b.id := by cases b <;> rfl

theorem BTree.relabel_ids (b : BTree) : b.relabel.ids = b.ids := by
  induction b with
  | leaf => rfl
  | node i f thr l r ihl ihr => simp [BTree.relabel, BTree.ids, ihl, ihr]

theorem BTree.relabel_vars {b : BTree} {f : Nat} (h : f ∈ b.relabel.vars) : f ∈ b.ids := by
  induction b with
  | leaf => simp [BTree.relabel, BTree.vars] at h
  | node i f' thr l r ihl ihr =>
    simp only [BTree.relabel, BTree.vars, List.mem_cons, List.mem_append] at h
    simp only [BTree.ids, List.mem_cons, List.mem_append]
    rcases h with h | h | h
    · exact Or.inl h
    · exact Or.inr (Or.inl (ihl h))
    · exact Or.inr (Or.inr (ihr h))

theorem encodes_unfolded {t : TreeArr} : ∀ {b : BTree}, Encodes t b → Encodes t.unfolded b.relabel
  | .leaf _, h => h
  | .node i f thr l r, ⟨h1, h2, h3, h4, h5, h6, h7⟩ => by
    refine ⟨by rw [BTree.relabel_id]; exact h1, by rw [BTree.relabel_id]; exact h2, h3, ?_, h5, encodes_unfolded h6, encodes_unfolded h7⟩
    have : ¬ t.left i < 0 := by rw [h1]; omega
    simp [TreeArr.unfolded, this]

theorem isTree_unfolded {t : TreeArr} {d : Nat} {b : BTree} (h : IsTree t d b) : IsTree t.unfolded t.size b.relabel where
  root := by rw [BTree.relabel_id]; exact h.root
  enc := encodes_unfolded h.enc
  nodup := by rw [BTree.relabel_ids]; exact h.nodup
  all := by rw [BTree.relabel_ids]; exact h.all
  vars := fun f hf => (h.all f).mp (BTree.relabel_vars hf)

/-! ### the cell -/

theorem projVisits_unfolded {A : Values} (hd : Decides dir A) {t : TreeArr} {d : Nat} {b : BTree} (h : IsTree t d b) {n : Nat} :
    ProjVisits t.unfolded (decided t dir) (decidedPoint t dir) n ↔ CondVisits t A n := by
  have hx : ∀ n, decidedPoint t dir n ≤ t.threshold n ↔ dir (t.feature n) (t.threshold n) = some true := by
    intro n
    unfold decidedPoint
    split
    · rename_i h; simp [h]
    · rename_i h
      simp only [h, iff_false]
      intro hc; linarith
  have hS : ∀ n < t.size, n ∈ decided t dir ↔ dir (t.feature n) (t.threshold n) ≠ none := by
    intro n hn; simp [decided, hn]
  have hfeat : ∀ n, 0 ≤ t.left n → (t.unfolded.feature n).toNat = n := by
    intro n hn
    have : ¬ t.left n < 0 := by omega
    simp [TreeArr.unfolded, this]
  have hleft : ∀ n < t.size, 0 ≤ t.left n →
      (((t.unfolded.feature n).toNat ∈ decided t dir → decidedPoint t dir (t.unfolded.feature n).toNat ≤ t.unfolded.threshold n) ↔
        ∃ v ∈ A (t.feature n).toNat, v ≤ t.threshold n) := by
    intro n hn hl
    have hf : 0 ≤ t.feature n := by
      rcases node_cases h hn with hc | hc
      · omega
      · exact hc.2.2.1
    rw [hfeat n hl, hS n hn]
    have : t.unfolded.threshold n = t.threshold n := rfl
    rw [this, hx n]
    have hr := hd.right (t.feature n) (t.threshold n) hf
    constructor
    · intro hh
      by_contra hno
      push Not at hno
      have hdir := hr.mpr hno
      have := hh (by simp [hdir])
      rw [hdir] at this
      cases this
    · rintro ⟨v, hv, hle⟩ hne
      cases hdir : dir (t.feature n) (t.threshold n) with
      | none => exact absurd hdir hne
      | some c =>
        cases c
        · exact absurd ((hr.mp hdir) v hv) (not_lt.mpr hle)
        · rfl
  have hright : ∀ n < t.size, 0 ≤ t.left n →
      (((t.unfolded.feature n).toNat ∈ decided t dir → t.unfolded.threshold n < decidedPoint t dir (t.unfolded.feature n).toNat) ↔
        ∃ v ∈ A (t.feature n).toNat, t.threshold n < v) := by
    intro n hn hl
    have hf : 0 ≤ t.feature n := by
      rcases node_cases h hn with hc | hc
      · omega
      · exact hc.2.2.1
    rw [hfeat n hl, hS n hn]
    have : t.unfolded.threshold n = t.threshold n := rfl
    rw [this, ← not_le, hx n]
    have hr := hd.left (t.feature n) (t.threshold n) hf
    constructor
    · intro hh
      by_contra hno
      push Not at hno
      have hdir := hr.mpr hno
      exact hh (by simp [hdir]) hdir
    · rintro ⟨v, hv, hlt⟩ _ hdir
      exact absurd ((hr.mp hdir) v hv) (not_le.mpr hlt)
  have hint : ∀ {n c : Nat}, n < t.size → t.right n = (c : Int) → 0 ≤ t.left n := by
    intro n c hn hr
    rcases node_cases h hn with hc | hc
    · omega
    · exact hc.1
  constructor
  · intro hv
    induction hv with
    | root => exact CondVisits.root
    | left _ h1 h2 h3 ih =>
      have h2' : t.left _ = _ := h2
      exact CondVisits.left ih h1 h2 ((hleft _ h1 (by omega)).mp h3)
    | right _ h1 h2 h3 ih => exact CondVisits.right ih h1 h2 ((hright _ h1 (hint h1 h2)).mp h3)
  · intro hv
    induction hv with
    | root => exact ProjVisits.root
    | left _ h1 h2 h3 ih => exact ProjVisits.left ih h1 h2 ((hleft _ h1 (by omega)).mpr h3)
    | right _ h1 h2 h3 ih => exact ProjVisits.right ih h1 h2 ((hright _ h1 (hint h1 h2)).mpr h3)

theorem sameRoute_unfolded {A : Values} (hd : Decides dir A) {t : TreeArr} {d : Nat} {b : BTree} (h : IsTree t d b) {i : Nat} :
    SameRoute t.unfolded (decided t dir) (decidedPoint t dir) (unfoldedData t data i) ↔ OnDecidedSide t A (data i) := by
  have key : ∀ n < t.size, 0 ≤ t.left n →
      (SameSide t.unfolded (decided t dir) (decidedPoint t dir) (unfoldedData t data i) n ↔
        ((∀ v ∈ A (t.feature n).toNat, v ≤ t.threshold n) → data i (t.feature n).toNat ≤ t.threshold n) ∧
        ((∀ v ∈ A (t.feature n).toNat, t.threshold n < v) → t.threshold n < data i (t.feature n).toNat)) := by
    intro n hn hl
    have hf : 0 ≤ t.feature n := by
      rcases node_cases h hn with hc | hc
      · omega
      · exact hc.2.2.1
    have hfeat : (t.unfolded.feature n).toNat = n := by
      have : ¬ t.left n < 0 := by omega
      simp [TreeArr.unfolded, this]
    have hS : n ∈ decided t dir ↔ dir (t.feature n) (t.threshold n) ≠ none := by simp [decided, hn]
    have hthr : t.unfolded.threshold n = t.threshold n := rfl
    have hl' : 0 ≤ t.unfolded.left n := hl
    unfold SameSide
    rw [hfeat, hthr, hS]
    simp only [hl', true_imp_iff]
    rw [← hd.left _ _ hf, ← hd.right _ _ hf]
    unfold unfoldedData decidedPoint
    cases hdir : dir (t.feature n) (t.threshold n) with
    | none => simp
    | some c =>
      have h10 : ¬ (1 : ℚ) ≤ 0 := by norm_num
      cases c <;> simp [h10]
  constructor
  · intro hr n hn hv hl
    exact (key n hn hl).mp (hr n ((projVisits_unfolded hd h).mpr hv))
  · intro hr n hv hl
    have hv' := (projVisits_unfolded hd h).mp hv
    have hn : n < t.size := projVisits_lt (isTree_unfolded h) hv
    exact (key n hn hl).mpr (hr n hn hv' hl) hl

theorem runD_rows {A : Values} (hd : Decides dir A) (hpush : ∀ l a c, c ∈ push l a ↔ c = a ∨ c ∈ l) {t : TreeArr} {m : Nat}
    (ht : TreeStored m t mem) {maxDepth N : Nat} (hdepth : t.maxDepth ≤ maxDepth)
    (hstop : ∃ L : List Nat, L.Nodup ∧ minSize ≤ L.length ∧ ∀ i ∈ L, i < N ∧ OnDecidedSide t A (data i)) (r : Rule) :
    (mem.runD push dir data minSize maxDepth N r).1.Nodup ∧
    ∀ i, i ∈ (mem.runD push dir data minSize maxDepth N r).1 ↔ i < N ∧ OnDecidedSide t A (data i) := by
  obtain ⟨b, hb⟩ := ht.wf
  have hseen : SeenClosed t mem := by
    intro n hn
    rcases hn with rfl | ⟨h0, h1⟩
    · exact ⟨Or.inl ht.before.2.1, Or.inl ht.before.2.2⟩
    · obtain ⟨k, rfl⟩ := Int.eq_ofNat_of_zero_le h0
      have hk : k < t.size := by exact_mod_cast h1
      obtain ⟨_, _, e3, e4⟩ := ht.holds k hk
      rw [e3, e4]
      rcases node_cases hb hk with hc | hc
      · obtain ⟨l1, l2⟩ := ht.leafChildren k hk hc.1
        exact ⟨Or.inl l1, Or.inl l2⟩
      · obtain ⟨l1, l2⟩ := child_lt hb hk
        exact ⟨Or.inr ⟨hc.1, l1⟩, Or.inr ⟨hc.2.1, l2⟩⟩
  have hq : DirQuiet t dir mem := by
    intro n hn hni
    apply hd.neg
    rcases hn with rfl | ⟨h0, h1⟩
    · exact ht.before.1
    · obtain ⟨k, rfl⟩ := Int.eq_ofNat_of_zero_le h0
      have hk : k < t.size := by exact_mod_cast h1
      rw [(ht.holds k hk).1]
      apply ht.negLeaf k hk
      by_contra hc
      exact hni ⟨h0, h1, by simpa using hc⟩
  have hb' := isTree_unfolded hb
  have hholds : (mem.unfolded t).Holds t.unfolded := by
    intro n hn
    have hn' : n < t.size := hn
    obtain ⟨e1, e2, e3, e4⟩ := ht.holds n hn'
    refine ⟨?_, e2, e3, e4⟩
    simp only [Mem.unfolded, TreeArr.unfolded, Int.toNat_natCast]
    by_cases hl : 0 ≤ t.left n
    · have : ¬ t.left n < 0 := by omega
      rw [if_pos ⟨by omega, by exact_mod_cast hn', hl⟩, if_neg this]
    · have hl' : t.left n < 0 := by omega
      rw [if_neg fun hc => hl hc.2.2, if_pos hl']
  have hlc : LeafChildren t.unfolded := ht.leafChildren
  have hneg : NegLeafFeature t.unfolded := by
    intro n _ hl
    have hl' : t.left n < 0 := hl
    simp [TreeArr.unfolded, hl']
  have hbefore : (mem.unfolded t).BeforeIsLeaf (decided t dir) := by
    refine ⟨?_, ht.before.2.1, ht.before.2.2⟩
    simp [Mem.unfolded]
  have hrows : (mem.runD push dir data minSize maxDepth N r).1 =
      ((mem.unfolded t).run push (decided t dir) (decidedPoint t dir) (unfoldedData t data) minSize maxDepth N r).1 := by
    refine (levelsD_unfold hpush hseen ht.holds hq maxDepth [0] _ _ ?_ (by simp) rfl rfl).symm
    intro n hn
    rw [List.mem_singleton.mp hn]
    exact Or.inr ⟨le_refl _, by exact_mod_cast size_pos hb⟩
  obtain ⟨mem', hm', hben, he⟩ := run_leafLike hpush hb' hlc hholds hbefore
  have hlen : minSize ≤ (routeRows t.unfolded (decided t dir) (decidedPoint t dir) (unfoldedData t data) N).length := by
    obtain ⟨L, h1, h2, h3⟩ := hstop
    refine le_trans h2 (List.Subperm.length_le (List.subperm_of_subset h1 ?_))
    intro i hi
    rw [mem_routeRows, sameRoute_unfolded hd hb]
    exact h3 i hi
  have hdep : ∀ k n, Above t.unfolded k 0 n → k ≤ maxDepth := by
    intro k n ha
    have habove : ∀ {k p n}, Above t.unfolded k p n → Above t k p n := by
      intro k p n ha
      induction ha with
      | refl => exact Above.refl _
      | step hc _ ih => exact Above.step hc ih
    exact le_trans ((C04_depth_is_height ⟨_, hb⟩).1 k n (habove ha)) hdepth
  rw [hrows, he, run_rows hpush hm' hb' hneg hben hlen hdep]
  refine ⟨List.nodup_range.filter _, fun i => ?_⟩
  rw [mem_routeRows, sameRoute_unfolded hd hb]

/-- the cells of a forest -/
theorem cellsD_rows {A : Values} (hd : Decides dir A) {ts : List TreeArr} {mems : List Mem} {m : Nat}
    (hf : List.Forall₂ (TreeStored m) ts mems) {maxDepth N : Nat} (hdepth : ∀ t ∈ ts, t.maxDepth ≤ maxDepth)
    (hstop : ∀ t ∈ ts, ∃ L : List Nat, L.Nodup ∧ minSize ≤ L.length ∧ ∀ i ∈ L, i < N ∧ OnDecidedSide t A (data i)) :
    List.Forall₂ (fun t c => c.Nodup ∧ ∀ i, i ∈ c ↔ i < N ∧ OnDecidedSide t A (data i)) ts
      (cellsD mems dir data minSize maxDepth N) := by
  unfold cellsD
  generalize Rule.init = r
  induction hf generalizing r with
  | nil => exact List.Forall₂.nil
  | @cons t mem ts mems h1 _ ih =>
    unfold forestRunD
    simp only
    refine List.Forall₂.cons (runD_rows hd mem_setInsert h1 (hdepth t (by simp)) (hstop t (by simp)) r)
      (ih (fun t ht => hdepth t (List.mem_cons_of_mem _ ht)) (fun t ht => hstop t (List.mem_cons_of_mem _ ht)) _)

end Acv

import Verif.Model.Parallel
import Verif.Lemmas.LeafShap

namespace Acv

section General
variable {Cell V : Type} [DecidableEq Cell]

/-- No two different iterations conflict: one writes no cell that the other writes or reads. -/
def RaceFree (P : Nat → List (Stmt Cell V)) : Prop :=
  ∀ i j, i ≠ j → ∀ s ∈ P i, ∀ s' ∈ P j, s.dst ≠ s'.dst ∧ s.dst ∉ s'.srcs

/-- Cells that no iteration but `i` writes. -/
def Quiet (P : Nat → List (Stmt Cell V)) (i : Nat) (c : Cell) : Prop := ∀ j, j ≠ i → ∀ s ∈ P j, s.dst ≠ c

theorem RaceFree.srcs_quiet {P : Nat → List (Stmt Cell V)} (h : RaceFree P) {i : Nat} {s : Stmt Cell V} (hs : s ∈ P i) {c : Cell}
    (hc : c ∈ s.srcs) : Quiet P i c := by
  intro j hj s' hs' he
  exact (h j i hj s' hs' s hs).2 (he ▸ hc)

theorem RaceFree.dst_quiet {P : Nat → List (Stmt Cell V)} (h : RaceFree P) {i : Nat} {s : Stmt Cell V} (hs : s ∈ P i) :
    Quiet P i s.dst := by
  intro j hj s' hs' he
  exact (h j i hj s' hs' s hs).1 he

def solo (mem : Cell → V) (pre : List (Stmt Cell V)) : Cell → V := pre.foldl Stmt.exec mem

structure IterInv (P : Nat → List (Stmt Cell V)) (mem0 : Cell → V) (c : Conf Cell V) (i : Nat) (pre : List (Stmt Cell V)) : Prop where
  split : P i = pre ++ (c.iter i).todo
  loaded : ∀ s rest, (c.iter i).todo = s :: rest → (c.iter i).loaded.length ≤ s.srcs.length ∧
    (c.iter i).loaded = (s.srcs.take (c.iter i).loaded.length).map (solo mem0 pre)
  mem : ∀ cell, Quiet P i cell → c.mem cell = solo mem0 pre cell

def Inv (P : Nat → List (Stmt Cell V)) (mem0 : Cell → V) (c : Conf Cell V) : Prop := ∀ i, ∃ pre, IterInv P mem0 c i pre

theorem inv_start (P : Nat → List (Stmt Cell V)) (mem0 : Cell → V) : Inv P mem0 (Conf.start P mem0) := by
  intro i
  refine ⟨[], ⟨rfl, ?_, fun _ _ => rfl⟩⟩
  intro s rest _
  simp [Conf.start]

theorem inv_step {P : Nat → List (Stmt Cell V)} {mem0 : Cell → V} (hP : RaceFree P) {c : Conf Cell V} (h : Inv P mem0 c) (i : Nat) :
    Inv P mem0 (c.step i) := by
  unfold Conf.step
  split
  · exact h
  · rename_i s rest htodo
    obtain ⟨pre, hi⟩ := h i
    obtain ⟨hlen, hload⟩ := hi.loaded s rest htodo
    have hs : s ∈ P i := by rw [hi.split, htodo]; simp
    split
    · rename_i hlt
      intro k
      by_cases hk : k = i
      · subst hk
        refine ⟨pre, ⟨?_, ?_, hi.mem⟩⟩
        · simp only [if_pos]; rw [hi.split, htodo]
        · intro s' rest' he
          simp only [if_pos, List.cons.injEq] at he
          obtain ⟨rfl, rfl⟩ := he
          simp only [if_pos, List.length_append, List.length_singleton]
          refine ⟨hlt, ?_⟩
          rw [List.take_succ_eq_append_getElem hlt, List.map_append, ← hload, List.map_singleton,
            hi.mem _ (hP.srcs_quiet hs (List.getElem_mem hlt))]
      · obtain ⟨prek, hkI⟩ := h k
        refine ⟨prek, ⟨?_, ?_, hkI.mem⟩⟩
        · simp only [if_neg hk]; exact hkI.split
        · simp only [if_neg hk]; exact hkI.loaded
    · rename_i hge
      have hl : (c.iter i).loaded = s.srcs.map (solo mem0 pre) := by
        rw [hload, List.take_of_length_le (by omega)]
      intro k
      by_cases hk : k = i
      · subst hk
        refine ⟨pre ++ [s], ⟨?_, ?_, ?_⟩⟩
        · simp only [if_pos]; rw [hi.split, htodo]; simp
        · intro s' rest' _
          simp
        · intro cell hq
          show setCell c.mem s.dst (s.f (c.iter k).loaded) cell = _
          rw [solo, List.foldl_append, List.foldl_cons, List.foldl_nil]
          unfold Stmt.exec setCell
          rw [hl]
          by_cases hc : cell = s.dst
          · rw [if_pos hc, if_pos hc]; rfl
          · rw [if_neg hc, if_neg hc, hi.mem cell hq]; rfl
      · obtain ⟨prek, hkI⟩ := h k
        refine ⟨prek, ⟨?_, ?_, ?_⟩⟩
        · simp only [if_neg hk]; exact hkI.split
        · simp only [if_neg hk]; exact hkI.loaded
        · intro cell hq
          show setCell c.mem s.dst _ cell = _
          unfold setCell
          rw [if_neg (fun he => hq i (Ne.symm hk) s hs he.symm), hkI.mem cell hq]

theorem inv_run {P : Nat → List (Stmt Cell V)} {mem0 : Cell → V} (hP : RaceFree P) (sched : List Nat) {c : Conf Cell V}
    (h : Inv P mem0 c) : Inv P mem0 (c.run sched) := by
  induction sched generalizing c with
  | nil => exact h
  | cons i l ih => exact ih (inv_step hP h i)

theorem run_finished {P : Nat → List (Stmt Cell V)} {mem0 : Cell → V} (hP : RaceFree P) {sched : List Nat}
    (hf : ((Conf.start P mem0).run sched).finished) {i : Nat} {cell : Cell} (hq : Quiet P i cell) :
    ((Conf.start P mem0).run sched).mem cell = solo mem0 (P i) cell := by
  obtain ⟨pre, h⟩ := inv_run hP sched (inv_start P mem0) i
  have := h.split
  rw [hf i, List.append_nil] at this
  rw [this]
  exact h.mem cell hq

theorem solo_agree {D : Cell → Prop} (prog : List (Stmt Cell V)) (hD : ∀ s ∈ prog, ∀ c ∈ s.srcs, D c) {m1 m2 : Cell → V}
    (h : ∀ c, D c → m1 c = m2 c) : ∀ c, D c → solo m1 prog c = solo m2 prog c := by
  induction prog generalizing m1 m2 with
  | nil => exact h
  | cons s l ih =>
    refine ih (fun s' hs' => hD s' (List.mem_cons_of_mem _ hs')) ?_
    intro c hc
    unfold Stmt.exec setCell
    have : s.srcs.map m1 = s.srcs.map m2 := List.map_congr_left fun a ha => h a (hD s (by simp) a ha)
    rw [this]
    split
    · rfl
    · exact h c hc

theorem solo_untouched (prog : List (Stmt Cell V)) {c : Cell} (h : ∀ s ∈ prog, s.dst ≠ c) (m : Cell → V) : solo m prog c = m c := by
  induction prog generalizing m with
  | nil => rfl
  | cons s l ih =>
    show solo (s.exec m) l c = _
    rw [ih (fun s' hs' => h s' (List.mem_cons_of_mem _ hs'))]
    unfold Stmt.exec setCell
    rw [if_neg (fun he => h s (by simp) he.symm)]

theorem seq_quiet {P : Nat → List (Stmt Cell V)} (hP : RaceFree P) {i : Nat} {cell : Cell} (hq : Quiet P i cell) (l : List Nat)
    (hi : i ∉ l) (m : Cell → V) : l.foldl (fun m i => (P i).foldl Stmt.exec m) m cell = m cell := by
  induction l generalizing m with
  | nil => rfl
  | cons a l ih =>
    rw [List.foldl_cons, ih (fun h => hi (List.mem_cons_of_mem _ h))]
    refine solo_untouched _ (fun s hs => hq a ?_ s hs) m
    rintro rfl; simp at hi

theorem seq_solo {P : Nat → List (Stmt Cell V)} (hP : RaceFree P) {i : Nat} (l : List Nat) (hl : l.Nodup) (hi : i ∈ l)
    {m m0 : Cell → V} (hm : ∀ c, Quiet P i c → m c = m0 c) :
    ∀ c, Quiet P i c → l.foldl (fun m i => (P i).foldl Stmt.exec m) m c = solo m0 (P i) c := by
  induction l generalizing m with
  | nil => simp at hi
  | cons a l ih =>
    intro c hc
    rw [List.foldl_cons]
    rw [List.nodup_cons] at hl
    by_cases ha : a = i
    · subst ha
      rw [seq_quiet hP hc l hl.1]
      exact solo_agree (P a) (fun s hs c hc => hP.srcs_quiet hs hc) hm c hc
    · refine ih hl.2 ((List.mem_cons.mp hi).resolve_left (Ne.symm ha)) ?_ c hc
      intro c hc
      rw [← hm c hc]
      exact solo_untouched _ (fun s hs => hc a ha s hs) m

theorem run_eq_seq {P : Nat → List (Stmt Cell V)} (hP : RaceFree P) {n : Nat} (hn : ∀ i, n ≤ i → P i = []) {mem0 : Cell → V}
    {sched : List Nat} (hf : ((Conf.start P mem0).run sched).finished) :
    ((Conf.start P mem0).run sched).mem = seqLoop P n mem0 := by
  funext cell
  by_cases h : ∃ i, ∃ s ∈ P i, s.dst = cell
  · obtain ⟨i, s, hs, rfl⟩ := h
    have hin : i < n := by
      by_contra hc
      rw [hn i (by omega)] at hs
      simp at hs
    rw [run_finished hP hf (hP.dst_quiet hs)]
    exact (seq_solo hP (List.range n) List.nodup_range (List.mem_range.mpr hin) (fun _ _ => rfl) _ (hP.dst_quiet hs)).symm
  · push Not at h
    have hq : ∀ i, Quiet P i cell := fun i j _ s hs => h j s hs
    rw [run_finished hP hf (hq n)]
    have := seq_quiet hP (hq n) (List.range n) (by simp) mem0
    unfold seqLoop
    rw [this, hn n le_rfl]
    rfl

theorem step_other (c : Conf Cell V) {i k : Nat} (h : k ≠ i) : (c.step i).iter k = c.iter k := by
  unfold Conf.step
  split
  · rfl
  · split <;> simp [h]

theorem run_other (sched : List Nat) {k : Nat} (h : k ∉ sched) (c : Conf Cell V) : (c.run sched).iter k = c.iter k := by
  induction sched generalizing c with
  | nil => rfl
  | cons i l ih =>
    simp only [List.mem_cons, not_or] at h
    show ((c.step i).run l).iter k = _
    rw [ih h.2, step_other c h.1]

theorem step_todo_nil (c : Conf Cell V) {i k : Nat} (h : (c.iter k).todo = []) : ((c.step i).iter k).todo = [] := by
  by_cases hk : k = i
  · subst hk; unfold Conf.step; rw [h]; exact h
  · rw [step_other c hk]; exact h

theorem run_todo_nil (sched : List Nat) {k : Nat} (c : Conf Cell V) (h : (c.iter k).todo = []) :
    ((c.run sched).iter k).todo = [] := by
  induction sched generalizing c with
  | nil => exact h
  | cons i l ih => exact ih _ (step_todo_nil c h)

theorem finished_of {P : Nat → List (Stmt Cell V)} {n : Nat} (hn : ∀ i, n ≤ i → P i = []) {mem0 : Cell → V} {sched : List Nat}
    (h : ∀ i < n, (((Conf.start P mem0).run sched).iter i).todo.length = 0) : ((Conf.start P mem0).run sched).finished := by
  intro i
  by_cases hi : i < n
  · exact List.length_eq_zero_iff.mp (h i hi)
  · exact run_todo_nil sched _ (hn i (by omega))

theorem run_append (c : Conf Cell V) (a b : List Nat) : c.run (a ++ b) = (c.run a).run b := by
  unfold Conf.run; rw [List.foldl_append]

theorem iter_completes (i : Nat) : ∀ (todo : List (Stmt Cell V)) (c : Conf Cell V), (c.iter i).todo = todo →
    ∃ n, ((c.run (List.replicate n i)).iter i).todo = [] := by
  intro todo
  induction todo with
  | nil => intro c h; exact ⟨0, h⟩
  | cons s rest ih =>
    suffices H : ∀ d (c : Conf Cell V), (c.iter i).todo = s :: rest → s.srcs.length - (c.iter i).loaded.length = d →
        ∃ n, ((c.run (List.replicate n i)).iter i).todo = [] from fun c h => H _ c h rfl
    intro d
    induction d with
    | zero =>
      intro c h hd
      have h1 : ((c.step i).iter i).todo = rest := by
        unfold Conf.step; rw [h]; simp only; rw [dif_neg (by omega)]; simp
      obtain ⟨n, hn⟩ := ih (c.step i) h1
      exact ⟨n + 1, hn⟩
    | succ d ihd =>
      intro c h hd
      have h1 : (c.step i).iter i = ⟨(c.iter i).loaded ++ [c.mem (s.srcs[(c.iter i).loaded.length]'(by omega))], s :: rest⟩ := by
        unfold Conf.step; rw [h]; simp only; rw [dif_pos (by omega)]; simp
      obtain ⟨n, hn⟩ := ihd (c.step i) (by rw [h1]) (by rw [h1]; simp; omega)
      exact ⟨n + 1, hn⟩

theorem complete_exists {P : Nat → List (Stmt Cell V)} {n : Nat} (hn : ∀ i, n ≤ i → P i = []) (mem0 : Cell → V) :
    ∃ sched, ((Conf.start P mem0).run sched).finished := by
  have : ∀ k, ∃ sched, ∀ i < k, (((Conf.start P mem0).run sched).iter i).todo = [] := by
    intro k
    induction k with
    | zero => exact ⟨[], by simp⟩
    | succ k ih =>
      obtain ⟨sched, hs⟩ := ih
      obtain ⟨r, hr⟩ := iter_completes k _ ((Conf.start P mem0).run sched) rfl
      refine ⟨sched ++ List.replicate r k, fun i hi => ?_⟩
      rw [run_append]
      by_cases hik : i = k
      · subst hik; exact hr
      · exact run_todo_nil _ _ (hs i (by omega))
  obtain ⟨sched, hs⟩ := this n
  exact ⟨sched, finished_of hn fun i hi => by rw [hs i hi]; rfl⟩

end General

/-! ## The leaf loop -/

def LCell.leaf : LCell → Nat
  | .phi l _ _ => l
  | .lmS _ l _ => l
  | .lmSi _ l _ => l

theorem leafCounterProg_owner {m : Nat} {data : List Row} {r : Rect} {v : ℚ} {x : Row} {leaf va : Nat} {g : List Nat}
    {rest : List (List Nat)} {counter : Nat} {s : Stmt LCell} (hs : s ∈ leafCounterProg m data r v x leaf va g rest counter) :
    s.dst.leaf = leaf ∧ ∀ c ∈ s.srcs, c.leaf = leaf := by
  unfold leafCounterProg at hs
  simp only [List.mem_append] at hs
  rcases hs with (hs | hs) | hs
  · simp only [List.mem_cons, List.not_mem_nil, or_false] at hs
    rcases hs with rfl | rfl <;> exact ⟨rfl, by simp⟩
  · obtain ⟨z, _, hz⟩ := List.mem_flatMap.mp hs
    split at hz
    · rcases List.mem_cons.mp hz with rfl | hz
      · exact ⟨rfl, by simp [LCell.leaf]⟩
      · split at hz
        · rw [List.mem_singleton.mp hz]; exact ⟨rfl, by simp [LCell.leaf]⟩
        · simp at hz
    · simp at hz
  · obtain ⟨j, _, rfl⟩ := List.mem_map.mp hs
    exact ⟨rfl, by simp [LCell.leaf]⟩

theorem leafProg_owner {t : TreeArr} {m : Nat} {data : List Row} {C : List (List Nat)} {x : Row} {k leaf : Nat}
    {s : Stmt LCell} (hs : s ∈ leafProg t m data C x k leaf) : s.dst.leaf = leaf ∧ ∀ c ∈ s.srcs, c.leaf = leaf := by
  unfold leafProg at hs
  split at hs
  · simp at hs
  · obtain ⟨gv, _, h⟩ := List.mem_flatMap.mp hs
    split at h
    · obtain ⟨counter, _, h⟩ := List.mem_flatMap.mp h
      exact leafCounterProg_owner h
    · simp at h

theorem leafProg_raceFree (t : TreeArr) (m : Nat) (data : List Row) (C : List (List Nat)) (x : Row) (k : Nat) :
    RaceFree (leafProg t m data C x k) := by
  intro i j hij s hs s' hs'
  obtain ⟨h1, _⟩ := leafProg_owner hs
  obtain ⟨h2, h3⟩ := leafProg_owner hs'
  refine ⟨fun he => hij ?_, fun he => hij ?_⟩
  · rw [← h1, ← h2, he]
  · rw [← h1, h3 _ he]

theorem leafProg_quiet (t : TreeArr) (m : Nat) (data : List Row) (C : List (List Nat)) (x : Row) (k : Nat) (c : LCell) :
    Quiet (leafProg t m data C x k) c.leaf c := by
  intro j hj s hs he
  exact hj (by rw [← (leafProg_owner hs).1, he])

theorem solo_append {Cell V : Type} [DecidableEq Cell] (m : Cell → V) (a b : List (Stmt Cell V)) :
    solo m (a ++ b) = solo (solo m a) b := by unfold solo; rw [List.foldl_append]

theorem solo_counts (data : List Row) (r : Rect) (S g : List Nat) (va leaf counter : Nat) (mem : LCell → ℚ) :
    let prog : List (Stmt LCell) := data.flatMap (fun z => if sat r S z then
      ⟨.lmS va leaf counter, [.lmS va leaf counter], fun l => l.headD 0 + 1⟩ ::
        (if sat r g z then [⟨.lmSi va leaf counter, [.lmSi va leaf counter], fun l => l.headD 0 + 1⟩] else []) else [])
    solo mem prog (.lmS va leaf counter) = mem (.lmS va leaf counter) + cnt data r S ∧
    solo mem prog (.lmSi va leaf counter) = mem (.lmSi va leaf counter) + (data.filter (fun z => sat r S z && sat r g z)).length ∧
    ∀ l c j, solo mem prog (.phi l c j) = mem (.phi l c j) := by
  induction data generalizing mem with
  | nil => simp [solo, cnt]
  | cons z data ih =>
    simp only [List.flatMap_cons, solo_append]
    simp only at ih
    by_cases h1 : sat r S z
    · by_cases h2 : sat r g z
      · rw [if_pos h1, if_pos h2]
        obtain ⟨a, b, c⟩ := ih (solo mem [⟨.lmS va leaf counter, [.lmS va leaf counter], fun l => l.headD 0 + 1⟩,
          ⟨.lmSi va leaf counter, [.lmSi va leaf counter], fun l => l.headD 0 + 1⟩])
        rw [a, b]
        refine ⟨?_, ?_, ?_⟩
        · simp [solo, Stmt.exec, setCell, cnt, h1]; ring
        · simp [solo, Stmt.exec, setCell, h1, h2]; ring
        · intro l c' j; rw [c]; simp [solo, Stmt.exec, setCell]
      · rw [if_pos h1, if_neg h2]
        obtain ⟨a, b, c⟩ := ih (solo mem [⟨.lmS va leaf counter, [.lmS va leaf counter], fun l => l.headD 0 + 1⟩])
        rw [a, b]
        refine ⟨?_, ?_, ?_⟩
        · simp [solo, Stmt.exec, setCell, cnt, h1]; ring
        · simp [solo, Stmt.exec, setCell, h1, h2]
        · intro l c' j; rw [c]; simp [solo, Stmt.exec, setCell]
    · rw [if_neg h1]
      obtain ⟨a, b, c⟩ := ih (solo mem [])
      rw [a, b]
      refine ⟨?_, ?_, ?_⟩
      · simp [solo, cnt, h1]
      · simp [solo, h1]
      · intro l c' j; rw [c]; simp [solo]

theorem solo_phi (g : List Nat) (va leaf counter : Nat) (T : ℚ → ℚ → ℚ) (mem : LCell → ℚ) :
    let prog : List (Stmt LCell) := g.map (fun j => ⟨.phi leaf counter j,
      [.phi leaf counter j, .lmS va leaf counter, .lmSi va leaf counter], fun l => l.getD 0 0 + T (l.getD 1 0) (l.getD 2 0)⟩)
    ∀ l c j, solo mem prog (.phi l c j) = mem (.phi l c j) +
      if l = leaf ∧ c = counter then (g.count j : ℚ) * T (mem (.lmS va leaf counter)) (mem (.lmSi va leaf counter)) else 0 := by
  induction g generalizing mem with
  | nil => simp [solo]
  | cons a g ih =>
    intro prog l c j
    simp only at ih
    show solo (Stmt.exec mem _) _ _ = _
    rw [ih]
    simp only [Stmt.exec, setCell, LCell.phi.injEq, reduceCtorEq, if_false, List.map_cons, List.map_nil,
      List.getD_cons_zero, List.getD_cons_succ]
    by_cases h : l = leaf ∧ c = counter
    · obtain ⟨rfl, rfl⟩ := h
      simp only [true_and, and_self, if_true, List.count_cons]
      by_cases hj : j = a
      · subst hj; simp; ring
      · rw [if_neg hj]; simp [Ne.symm hj]
    · rw [if_neg h, if_neg h, if_neg (fun hh => h ⟨hh.1, hh.2.1⟩)]

theorem solo_block (m : Nat) (data : List Row) (r : Rect) (v : ℚ) (x : Row) (leaf va : Nat) (g : List Nat)
    (rest : List (List Nat)) (counter : Nat) (mem : LCell → ℚ) (l c j : Nat) :
    solo mem (leafCounterProg m data r v x leaf va g rest counter) (.phi l c j) = mem (.phi l c j) +
      if l = leaf ∧ c = counter then (g.count j : ℚ) * cyTerm m data r x g rest counter * v else 0 := by
  unfold leafCounterProg
  simp only [solo_append]
  rw [solo_phi g va leaf counter (fun a b => (coefZero m (maskSel rest counter).length +
      coefLoop m rest.length (maskSel rest counter).length) *
      ((if b ≠ 0 then (if sat r (maskSel rest counter).flatten x && sat r g x then 1 else 0) * (cnt data r (List.range m) : ℚ) / b else 0) -
       (if (maskSel rest counter).flatten.length = 0 then (cnt data r (List.range m) : ℚ) / data.length else
        if a ≠ 0 then (if sat r (maskSel rest counter).flatten x then 1 else 0) * (cnt data r (List.range m) : ℚ) / a else 0)) * v)]
  obtain ⟨h1, h2, h3⟩ := solo_counts data r (maskSel rest counter).flatten g va leaf counter
    (solo mem [⟨.lmS va leaf counter, [], fun _ => 0⟩, ⟨.lmSi va leaf counter, [], fun _ => 0⟩])
  rw [h1, h2, h3]
  have e1 : solo mem [⟨.lmS va leaf counter, [], fun _ => 0⟩, ⟨.lmSi va leaf counter, [], fun _ => 0⟩] (.lmS va leaf counter) = 0 := by
    simp [solo, Stmt.exec, setCell]
  have e2 : solo mem [⟨.lmS va leaf counter, [], fun _ => 0⟩, ⟨.lmSi va leaf counter, [], fun _ => 0⟩] (.lmSi va leaf counter) = 0 := by
    simp [solo, Stmt.exec, setCell]
  have e3 : solo mem [⟨.lmS va leaf counter, [], fun _ => 0⟩, ⟨.lmSi va leaf counter, [], fun _ => 0⟩] (.phi l c j) = mem (.phi l c j) := by
    simp [solo, Stmt.exec, setCell]
  rw [e1, e2, e3, zero_add, zero_add]
  congr 1
  split
  · rw [mul_assoc _ (cyTerm m data r x g rest counter) v]; rfl
  · rfl

theorem solo_blocks {β : Type} (bs : List β) (prog : β → List (Stmt LCell)) (w : β → ℚ) (key : β → Nat × Nat) (l c j : Nat)
    (h : ∀ b ∈ bs, ∀ mem, solo mem (prog b) (.phi l c j) = mem (.phi l c j) + if l = (key b).1 ∧ c = (key b).2 then w b else 0)
    (mem : LCell → ℚ) :
    solo mem (bs.flatMap prog) (.phi l c j) = mem (.phi l c j) +
      (bs.map fun b => if l = (key b).1 ∧ c = (key b).2 then w b else 0).sum := by
  induction bs generalizing mem with
  | nil => simp [solo]
  | cons b bs ih =>
    rw [List.flatMap_cons, solo_append, ih (fun b' hb' => h b' (List.mem_cons_of_mem _ hb')), h b (by simp), List.map_cons,
      List.sum_cons, add_assoc]

/-- The (player, player number, subset number) triples of a leaf. -/
def leafBlocks (m : Nat) (C : List (List Nat)) (node : List (List Nat)) : List (List Nat × Nat × Nat) :=
  (playersCy m C).zipIdx.flatMap fun gv =>
    if gv.1 ∈ node then (List.range (2 ^ (node.erase gv.1).length)).map fun counter => (gv.1, gv.2, counter) else []

theorem leafProg_blocks {t : TreeArr} {m : Nat} {data : List Row} {C : List (List Nat)} {x : Row} {k leaf ℓ : Nat}
    (h : t.leafIdx[leaf]? = some ℓ) :
    leafProg t m data C x k leaf = (leafBlocks m C (leafPlayersCy m C (t.leafCols ℓ))).flatMap fun b =>
      leafCounterProg m data (t.leafRect ℓ) (t.value ℓ k) x leaf b.2.1 b.1 ((leafPlayersCy m C (t.leafCols ℓ)).erase b.1) b.2.2 := by
  unfold leafProg leafBlocks
  rw [h]
  simp only [List.flatMap_assoc]
  congr 1
  funext gv
  split
  · rw [List.flatMap_map]
  · rfl

theorem sum_indicator_range (K c0 : Nat) (w : ℚ) (h : c0 < K) : ((List.range K).map fun c => if c = c0 then w else 0).sum = w := by
  induction K with
  | zero => omega
  | succ K ih =>
    rw [List.range_succ, List.map_append, List.sum_append]
    by_cases hc : c0 = K
    · subst hc
      have : ((List.range c0).map fun c => if c = c0 then w else 0).sum = 0 := by
        apply List.sum_eq_zero
        intro a ha
        obtain ⟨c, hc, rfl⟩ := List.mem_map.mp ha
        rw [if_neg (by have := List.mem_range.mp hc; omega)]
      simp [this]
    · rw [ih (by omega)]; simp [Ne.symm hc]

theorem sum_blocks {β : Type} (bs : List β) (K : Nat) (key : β → Nat) (w : β → ℚ) (h : ∀ b ∈ bs, key b < K) :
    ((List.range K).map fun c => (bs.map fun b => if c = key b then w b else 0).sum).sum = (bs.map w).sum := by
  induction bs with
  | nil => simp
  | cons b bs ih =>
    simp only [List.map_cons, List.sum_cons]
    rw [sum_map_add, ih (fun b' hb' => h b' (List.mem_cons_of_mem _ hb')), sum_indicator_range _ _ _ (h b (by simp))]

theorem leafBlocks_sum (m : Nat) (data : List Row) (C : List (List Nat)) (r : Rect) (vars : List Nat) (x : Row) (j : Nat) (v : ℚ) :
    ((leafBlocks m C (leafPlayersCy m C vars)).map fun b =>
      (b.1.count j : ℚ) * cyTerm m data r x b.1 ((leafPlayersCy m C vars).erase b.1) b.2.2 * v).sum =
    cyLeafPhi m data C r vars x j * v := by
  unfold leafBlocks cyLeafPhi
  simp only
  rw [List.sum_map_mul_right]
  congr 1
  generalize leafPlayersCy m C vars = node
  have key : ∀ (l : List (List Nat)) (s : Nat), (((l.zipIdx s).flatMap fun gv =>
      if gv.1 ∈ node then (List.range (2 ^ (node.erase gv.1).length)).map fun counter => (gv.1, gv.2, counter) else []).map
      fun b => (b.1.count j : ℚ) * cyTerm m data r x b.1 (node.erase b.1) b.2.2).sum =
      (l.map fun va => if va ∈ node then ((List.range (2 ^ (node.erase va).length)).map fun counter =>
        (va.count j : ℚ) * cyTerm m data r x va (node.erase va) counter).sum else 0).sum := by
    intro l
    induction l with
    | nil => intro s; simp
    | cons a l ih =>
      intro s
      rw [List.zipIdx_cons, List.flatMap_cons, List.map_append, List.sum_append, ih, List.map_cons, List.sum_cons]
      congr 1
      split
      · rw [List.map_map]; rfl
      · rfl
  exact key _ 0

/-- What the gathering loop finds after any complete interleaving. -/
theorem gather_leaf {t : TreeArr} {m : Nat} {data : List Row} {C : List (List Nat)} {x : Row} {k leaf ℓ scaling : Nat}
    (h : t.leafIdx[leaf]? = some ℓ) (hs : ∀ g ∈ leafPlayersCy m C (t.leafCols ℓ),
      ((leafPlayersCy m C (t.leafCols ℓ)).erase g).length ≤ scaling) (j : Nat) (mem : LCell → ℚ) :
    ((List.range (2 ^ scaling)).map fun counter =>
      solo (resetPhi mem) (leafProg t m data C x k leaf) (.phi leaf counter j)).sum =
    cyLeafPhi m data C (t.leafRect ℓ) (t.leafCols ℓ) x j * t.value ℓ k := by
  rw [← leafBlocks_sum]
  rw [← sum_blocks (leafBlocks m C (leafPlayersCy m C (t.leafCols ℓ))) (2 ^ scaling) (fun b => b.2.2)]
  · congr 1
    apply List.map_congr_left
    intro c _
    rw [leafProg_blocks h, solo_blocks _ _ (fun b => (b.1.count j : ℚ) *
      cyTerm m data (t.leafRect ℓ) x b.1 ((leafPlayersCy m C (t.leafCols ℓ)).erase b.1) b.2.2 * t.value ℓ k)
      (fun b => (leaf, b.2.2)) leaf c j (fun b _ mem => solo_block ..)]
    simp [resetPhi]
  · intro b hb
    obtain ⟨gv, _, hb⟩ := List.mem_flatMap.mp hb
    split at hb
    · rename_i hg
      obtain ⟨c, hc, rfl⟩ := List.mem_map.mp hb
      exact lt_of_lt_of_le (List.mem_range.mp hc) (Nat.pow_le_pow_right (by decide) (hs _ hg))
    · simp at hb

theorem solo_nil {Cell V : Type} [DecidableEq Cell] (m : Cell → V) : solo m [] = m := rfl

theorem gather_tree {t : TreeArr} {m : Nat} {data : List Row} {C : List (List Nat)} {x : Row} {k maxLeaves scaling : Nat}
    (hmax : t.leafIdx.length ≤ maxLeaves) (hs : ∀ ℓ ∈ t.leafIdx, ∀ g ∈ leafPlayersCy m C (t.leafCols ℓ),
      ((leafPlayersCy m C (t.leafCols ℓ)).erase g).length ≤ scaling) (j : Nat) (mem : LCell → ℚ) {sched : List Nat}
    (hf : ((Conf.start (leafProg t m data C x k) (resetPhi mem)).run sched).finished) :
    gatherPhi maxLeaves scaling j ((Conf.start (leafProg t m data C x k) (resetPhi mem)).run sched).mem =
      (t.leafIdx.map fun ℓ => cyLeafPhi m data C (t.leafRect ℓ) (t.leafCols ℓ) x j * t.value ℓ k).sum := by
  unfold gatherPhi
  have hq : ∀ leaf counter, ((Conf.start (leafProg t m data C x k) (resetPhi mem)).run sched).mem (.phi leaf counter j) =
      solo (resetPhi mem) (leafProg t m data C x k leaf) (.phi leaf counter j) := fun leaf counter =>
    run_finished (leafProg_raceFree t m data C x k) hf (leafProg_quiet t m data C x k (.phi leaf counter j))
  simp only [hq]
  obtain ⟨e, rfl⟩ := Nat.exists_eq_add_of_le hmax
  rw [List.range_add, List.map_append, List.sum_append]
  have h2 : (List.map (fun leaf => ((List.range (2 ^ scaling)).map fun counter =>
      solo (resetPhi mem) (leafProg t m data C x k leaf) (.phi leaf counter j)).sum)
      ((List.range e).map (t.leafIdx.length + ·))).sum = 0 := by
    apply List.sum_eq_zero
    intro a ha
    rw [List.map_map] at ha
    obtain ⟨c, _, rfl⟩ := List.mem_map.mp ha
    have : leafProg t m data C x k (t.leafIdx.length + c) = [] := by
      unfold leafProg; rw [List.getElem?_eq_none (by omega)]
    simp [this, solo_nil, resetPhi]
  rw [h2, add_zero]
  congr 1
  apply List.ext_getElem
  · simp
  · intro i h1 h2
    simp only [List.getElem_map, List.getElem_range]
    simp only [List.length_map] at h2
    exact gather_leaf (List.getElem?_eq_getElem h2) (hs _ (List.getElem_mem h2)) j mem

end Acv

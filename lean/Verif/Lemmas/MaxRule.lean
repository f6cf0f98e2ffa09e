import Verif.Spec.Rules
import Mathlib.Tactic.Linarith
import Mathlib.Data.List.Dedup
import Mathlib.Algebra.Order.Ring.Rat

namespace Acv

theorem inClosedB_iff {m : Nat} {r : Rule} {z : Row} : inClosedB m r z = true ↔ InClosed m r z := by
  unfold inClosedB InClosed
  simp only [List.all_eq_true, List.mem_range, Bool.and_eq_true, decide_eq_true_eq]
  exact forall₂_congr fun _ _ => and_comm

theorem checkRule_iff {m N : Nat} {data : Nat → Row} {bad : Nat → Bool} {r : Rule} :
    checkRule m N data bad r = true ↔ ∀ i < N, bad i = true → ¬ InClosed m r (data i) := by
  unfold checkRule
  simp only [List.all_eq_true, List.mem_range, Bool.not_eq_true', Bool.and_eq_false_iff]
  refine forall₂_congr fun i _ => ?_
  rw [← inClosedB_iff]
  cases inClosedB m r (data i) <;> cases bad i <;> simp

theorem pick_mem {l : List ℚ} (h : l ≠ []) (k : Nat) : pick l k ∈ l := by
  unfold pick
  have : k % l.length < l.length := Nat.mod_lt _ (List.length_pos_iff.2 h)
  rw [List.getD_eq_getElem?_getD, List.getElem?_eq_getElem this]
  exact List.getElem_mem this

/-- The bounds of `c` are among the possible ones. -/
def Bnd (m : Nat) (left right : Nat → List ℚ) (c : Rule) : Prop := ∀ j < m, (c j).1 ∈ left j ∧ (c j).2 ∈ right j

theorem newRule_bnd {m : Nat} {left right : Nat → List ℚ} {c : Rule} (hc : Bnd m left right c) (d : Draw) :
    ∃ g, newRule m c left right d = some g ∧ Bnd m left right g := by
  unfold newRule
  have hL : ∀ j < m, (if d.explore then left j else (left j).filter fun v => decide (v ≤ (c j).1)) ≠ [] := by
    intro j hj
    split
    · exact List.ne_nil_of_mem (hc j hj).1
    · exact List.ne_nil_of_mem (List.mem_filter.2 ⟨(hc j hj).1, by simp⟩)
  have hR : ∀ j < m, (if d.explore then right j else (right j).filter fun v => decide ((c j).2 ≤ v)) ≠ [] := by
    intro j hj
    split
    · exact List.ne_nil_of_mem (hc j hj).2
    · exact List.ne_nil_of_mem (List.mem_filter.2 ⟨(hc j hj).2, by simp⟩)
  refine ⟨_, if_pos ?_, ?_⟩
  · simp only [List.all_eq_true, List.mem_range, Bool.and_eq_true, Bool.not_eq_true', List.isEmpty_eq_false_iff]
    exact fun j hj => ⟨hL j hj, hR j hj⟩
  · intro j hj
    simp only [if_pos hj]
    have h1 := pick_mem (hL j hj) (d.lo j)
    have h2 := pick_mem (hR j hj) (d.hi j)
    constructor
    · revert h1
      cases d.explore
      · intro h1
        exact (List.mem_filter.1 h1).1
      · exact id
    · revert h2
      cases d.explore
      · intro h2
        exact (List.mem_filter.1 h2).1
      · exact id

/-- The rule the search started from, or a rule without bad sample. -/
def OkRule (m N : Nat) (data : Nat → Row) (bad : Nat → Bool) (rule c : Rule) : Prop :=
  (∀ j < m, c j = rule j) ∨ checkRule m N data bad c = true

theorem validLoop_ok {m N : Nat} {data : Nat → Row} {bad : Nat → Bool} {left right : Nat → List ℚ} {rule c : Rule}
    (hc : Bnd m left right c) (hok : OkRule m N data bad rule c) (draws : Nat → Draw) :
    ∀ k it, ∃ g, validLoop m N data bad left right c draws k it = some g ∧ Bnd m left right g ∧ OkRule m N data bad rule g := by
  intro k
  induction k with
  | zero => exact fun it => ⟨c, rfl, hc, hok⟩
  | succ k ih =>
    intro it
    obtain ⟨g, hg, hb⟩ := newRule_bnd hc (draws it)
    unfold validLoop
    rw [hg]
    simp only
    by_cases h : checkRule m N data bad g = true
    · rw [if_pos h]
      exact ⟨g, rfl, hb, Or.inr h⟩
    · rw [if_neg h]
      exact ih (it + 1)

theorem mapM_some_all {α β : Type} {f : α → Option β} {P : β → Prop} : ∀ {l : List α},
    (∀ a ∈ l, ∃ b, f a = some b ∧ P b) → ∃ r, l.mapM f = some r ∧ r.length = l.length ∧ ∀ b ∈ r, P b
  | [], _ => ⟨[], rfl, rfl, by simp⟩
  | a :: l, h => by
    obtain ⟨b, hb, hp⟩ := h a (by simp)
    obtain ⟨r, hr, hl, hP⟩ := mapM_some_all (f := f) (P := P) (l := l) fun a ha => h a (by simp [ha])
    refine ⟨b :: r, ?_, by simp [hl], ?_⟩
    · rw [List.mapM_cons, hb, hr]
      rfl
    · intro b' hb'
      rcases List.mem_cons.1 hb' with rfl | hb'
      · exact hp
      · exact hP _ hb'

theorem genRules_ok {m N : Nat} {data : Nat → Row} {bad : Nat → Bool} {left right : Nat → List ℚ} {rule c : Rule}
    (hc : Bnd m left right c) (hok : OkRule m N data bad rule c) (nTry nGen : Nat) (draws : Nat → Nat → Draw) :
    ∃ r, genRules m N data bad left right nTry nGen c draws = some r ∧ r.length = nGen ∧
      ∀ g ∈ r, Bnd m left right g ∧ OkRule m N data bad rule g := by
  unfold genRules
  have := mapM_some_all (f := fun b => validRule m N data bad left right nTry c (draws b))
    (P := fun g => Bnd m left right g ∧ OkRule m N data bad rule g) (l := List.range nGen)
    fun b _ => validLoop_ok hc hok (draws b) (nTry + 1) 0
  simpa using this

theorem foldl_best {value : Rule → ℚ} : ∀ (cs : List Rule) (c : Rule),
    (cs.foldl (fun a b => if value a < value b then b else a) c ∈ c :: cs) ∧
    ∀ g ∈ c :: cs, value g ≤ value (cs.foldl (fun a b => if value a < value b then b else a) c)
  | [], c => by simp
  | d :: cs, c => by
    obtain ⟨h1, h2⟩ := foldl_best (value := value) cs (if value c < value d then d else c)
    simp only [List.foldl_cons]
    constructor
    · rcases List.mem_cons.1 h1 with h | h
      · rw [h]
        split <;> simp
      · simp [h]
    · intro g hg
      have hm := h2 _ List.mem_cons_self
      simp only [List.mem_cons] at hg
      rcases hg with rfl | rfl | hg
      · refine le_trans ?_ hm
        split
        · exact le_of_lt (by assumption)
        · exact le_refl _
      · refine le_trans ?_ hm
        split
        · exact le_refl _
        · exact not_lt.1 (by assumption)
      · exact h2 g (List.mem_cons_of_mem _ hg)

theorem bestCand_spec {value : Rule → ℚ} {l : List Rule} {c : Rule} (h : bestCand value l = some c) :
    c ∈ l ∧ ∀ g ∈ l, value g ≤ value c := by
  cases l with
  | nil => cases h
  | cons a l =>
    cases h
    exact foldl_best l a

/-- The invariant of the annealing loop. -/
structure AnnealOk (value : Rule → ℚ) (Good : Rule → Prop) (s : Anneal) : Prop where
  curr : Good s.curr
  best : Good s.best
  eval : s.bestEval = value s.best
  mem : s.best ∈ s.seen
  top : ∀ c ∈ s.seen, value c ≤ s.bestEval

theorem annealLoop_ok {value : Rule → ℚ} {Good : Rule → Prop} {gen : Nat → Rule → Option (List Rule)}
    (hgen : ∀ i c r, Good c → gen i c = some r → ∀ g ∈ r, Good g) (accept : Nat → Bool) (maxConv : Nat) :
    ∀ k i s s', AnnealOk value Good s → annealLoop value gen accept maxConv k i s = some s' →
      AnnealOk value Good s' ∧ (s.seen <+: s'.seen) := by
  intro k
  induction k with
  | zero =>
    intro i s s' h he
    cases he
    exact ⟨h, List.prefix_refl _⟩
  | succ k ih =>
    intro i s s' h he
    unfold annealLoop at he
    cases hg : gen i s.curr with
    | none => rw [hg] at he; cases he
    | some cands =>
      rw [hg] at he
      simp only at he
      cases hb : bestCand value cands with
      | none => rw [hb] at he; cases he
      | some cand =>
        rw [hb] at he
        simp only at he
        obtain ⟨hm, ht⟩ := bestCand_spec hb
        have hall := hgen i s.curr cands h.curr hg
        have key : ∀ t : Anneal, t = (if s.bestEval < value cand then
            { s with seen := s.seen ++ cands, best := cand, bestEval := value cand, move := 0 }
          else { s with seen := s.seen ++ cands, move := s.move + 1 }) →
          AnnealOk value Good t ∧ t.seen = s.seen ++ cands := by
          intro t htt
          by_cases hlt : s.bestEval < value cand
          · rw [if_pos hlt] at htt
            subst htt
            refine ⟨⟨h.curr, hall _ hm, rfl, by simp [hm], ?_⟩, rfl⟩
            intro c hc
            rcases List.mem_append.1 hc with hc | hc
            · exact le_trans (h.top c hc) (le_of_lt hlt)
            · exact ht c hc
          · rw [if_neg hlt] at htt
            subst htt
            refine ⟨⟨h.curr, h.best, h.eval, by simp [h.mem], ?_⟩, rfl⟩
            intro c hc
            rcases List.mem_append.1 hc with hc | hc
            · exact h.top c hc
            · exact le_trans (ht c hc) (not_lt.1 hlt)
        generalize htdef : (if s.bestEval < value cand then
            ({ s with seen := s.seen ++ cands, best := cand, bestEval := value cand, move := 0 } : Anneal)
          else { s with seen := s.seen ++ cands, move := s.move + 1 }) = t at he
        obtain ⟨ht1, ht2⟩ := key t htdef.symm
        by_cases hc : maxConv < t.move
        · rw [if_pos hc] at he
          cases he
          exact ⟨ht1, ht2 ▸ List.prefix_append _ _⟩
        · rw [if_neg hc] at he
          have hnext : AnnealOk value Good (if 0 < value cand - t.currEval ∨ accept i = true then
              { t with curr := cand, currEval := value cand } else t) ∧
              (if 0 < value cand - t.currEval ∨ accept i = true then
              { t with curr := cand, currEval := value cand } else t).seen = s.seen ++ cands := by
            split
            · exact ⟨⟨hall _ hm, ht1.best, ht1.eval, ht1.mem, ht1.top⟩, ht2⟩
            · exact ⟨ht1, ht2⟩
          obtain ⟨a, b⟩ := ih (i + 1) _ s' hnext.1 he
          exact ⟨a, List.IsPrefix.trans (hnext.2 ▸ List.prefix_append _ _) b⟩

theorem annealLoop_some {value : Rule → ℚ} {Good : Rule → Prop} {gen : Nat → Rule → Option (List Rule)}
    (hgen : ∀ i c, Good c → ∃ r, gen i c = some r ∧ r ≠ [] ∧ ∀ g ∈ r, Good g) (accept : Nat → Bool) (maxConv : Nat) :
    ∀ k i s, Good s.curr → ∃ s', annealLoop value gen accept maxConv k i s = some s' := by
  intro k
  induction k with
  | zero => exact fun i s _ => ⟨s, rfl⟩
  | succ k ih =>
    intro i s h
    obtain ⟨r, hr, hne, hall⟩ := hgen i s.curr h
    cases r with
    | nil => exact absurd rfl hne
    | cons a l =>
      obtain ⟨hm, -⟩ := bestCand_spec (value := value) (l := a :: l) rfl
      unfold annealLoop
      rw [hr]
      simp only [bestCand]
      split
      all_goals split
      all_goals first
        | exact ⟨_, rfl⟩
        | (apply ih
           split
           · exact hall _ hm
           · exact h)

theorem mem_possibleLeft {rule : Rule} {N : Nat} {rd : Nat → Rule} {sdp : Nat → ℚ} {pi : ℚ} {j : Nat} {v : ℚ} :
    v ∈ possibleLeft rule N rd sdp pi j ↔
      v = (rule j).1 ∨ ∃ i < N, pi ≤ sdp i ∧ (rd i j).1 = v ∧ v ≤ (rule j).1 := by
  unfold possibleLeft
  simp only [List.mem_dedup, List.mem_append, List.mem_filter, List.mem_map, List.mem_range, decide_eq_true_eq, List.mem_singleton]
  constructor
  · rintro (⟨⟨i, ⟨hi, hp⟩, rfl⟩, hle⟩ | h)
    · exact Or.inr ⟨i, hi, hp, rfl, hle⟩
    · exact Or.inl h
  · rintro (h | ⟨i, hi, hp, rfl, hle⟩)
    · exact Or.inr h
    · exact Or.inl ⟨⟨i, ⟨hi, hp⟩, rfl⟩, hle⟩

theorem mem_possibleRight {rule : Rule} {N : Nat} {rd : Nat → Rule} {sdp : Nat → ℚ} {pi : ℚ} {j : Nat} {v : ℚ} :
    v ∈ possibleRight rule N rd sdp pi j ↔
      v = (rule j).2 ∨ ∃ i < N, pi ≤ sdp i ∧ (rd i j).2 = v ∧ (rule j).2 ≤ v := by
  unfold possibleRight
  simp only [List.mem_dedup, List.mem_append, List.mem_filter, List.mem_map, List.mem_range, decide_eq_true_eq, List.mem_singleton]
  constructor
  · rintro (⟨⟨i, ⟨hi, hp⟩, rfl⟩, hle⟩ | h)
    · exact Or.inr ⟨i, hi, hp, rfl, hle⟩
    · exact Or.inl h
  · rintro (h | ⟨i, hi, hp, rfl, hle⟩)
    · exact Or.inr h
    · exact Or.inl ⟨⟨i, ⟨hi, hp⟩, rfl⟩, hle⟩

theorem bnd_ruleLe {m : Nat} {rule : Rule} {N : Nat} {rd : Nat → Rule} {sdp : Nat → ℚ} {pi : ℚ} {c : Rule}
    (h : Bnd m (possibleLeft rule N rd sdp pi) (possibleRight rule N rd sdp pi) c) : RuleLe m rule c := by
  intro j hj
  obtain ⟨h1, h2⟩ := h j hj
  rw [mem_possibleLeft] at h1
  rw [mem_possibleRight] at h2
  constructor
  · rcases h1 with h1 | ⟨_, _, _, _, h1⟩
    · exact le_of_eq h1
    · exact h1
  · rcases h2 with h2 | ⟨_, _, _, _, h2⟩
    · exact le_of_eq h2.symm
    · exact h2

theorem bnd_self {m : Nat} {rule : Rule} {N : Nat} {rd : Nat → Rule} {sdp : Nat → ℚ} {pi : ℚ} :
    Bnd m (possibleLeft rule N rd sdp pi) (possibleRight rule N rd sdp pi) rule :=
  fun _ _ => ⟨mem_possibleLeft.2 (Or.inl rfl), mem_possibleRight.2 (Or.inl rfl)⟩

/-! ### Volumes -/

theorem foldl_max_le {α : Type} (f : α → ℚ) : ∀ (l : List α) (a : ℚ), a ≤ l.foldl (fun a i => max a (f i)) a ∧
    ∀ i ∈ l, f i ≤ l.foldl (fun a i => max a (f i)) a
  | [], a => by simp
  | i :: l, a => by
    obtain ⟨h1, h2⟩ := foldl_max_le f l (max a (f i))
    simp only [List.foldl_cons]
    refine ⟨le_trans (le_max_left _ _) h1, ?_⟩
    intro k hk
    rcases List.mem_cons.1 hk with rfl | hk
    · exact le_trans (le_max_right _ _) h1
    · exact h2 k hk

theorem foldl_min_le {α : Type} (f : α → ℚ) : ∀ (l : List α) (a : ℚ), l.foldl (fun a i => min a (f i)) a ≤ a ∧
    ∀ i ∈ l, l.foldl (fun a i => min a (f i)) a ≤ f i
  | [], a => by simp
  | i :: l, a => by
    obtain ⟨h1, h2⟩ := foldl_min_le f l (min a (f i))
    simp only [List.foldl_cons]
    refine ⟨le_trans h1 (min_le_left _ _), ?_⟩
    intro k hk
    rcases List.mem_cons.1 hk with rfl | hk
    · exact le_trans h1 (min_le_right _ _)
    · exact h2 k hk

theorem le_colMax {data : Nat → Row} {N j i : Nat} (hi : i < N) : data i j ≤ colMax data N j :=
  (foldl_max_le (fun i => data i j) (List.range N) _).2 i (List.mem_range.2 hi)

theorem colMin_le {data : Nat → Row} {N j i : Nat} (hi : i < N) : colMin data N j ≤ data i j :=
  (foldl_min_le (fun i => data i j) (List.range N) _).2 i (List.mem_range.2 hi)

theorem colMin_le_colMax {data : Nat → Row} {N j : Nat} : colMin data N j ≤ colMax data N j :=
  le_trans (foldl_min_le (fun i => data i j) (List.range N) _).1 (foldl_max_le (fun i => data i j) (List.range N) _).1

theorem convBound_fin {mn mx v : ℚ} (h1 : -10000000000 < v) (h2 : v < 10000000000) : convBound mn mx v = v := by
  unfold convBound
  simp only
  rw [if_neg (not_le.2 h1), if_neg (not_le.2 h2)]

theorem convBound_neg {mn mx : ℚ} (h : mn < 10000000000) : convBound mn mx (-10000000000) = mn := by
  unfold convBound
  simp only
  rw [if_pos (le_refl _), if_neg (not_le.2 h)]

theorem convBound_pos {mn mx : ℚ} : convBound mn mx 10000000000 = mx := by
  unfold convBound
  simp only
  norm_num

theorem width_mono {m N : Nat} {data : Nat → Row} {a b : Rule} {j : Nat} (hj : j < m) (hN : 0 < N)
    (hd : ∀ i < N, -10000000000 < data i j ∧ data i j < 10000000000)
    (ha : BoundsInRange m N data a) (hb : BoundsInRange m N data b) (hab : RuleLe m a b) :
    0 ≤ convBound (colMin data N j) (colMax data N j) (a j).2 - convBound (colMin data N j) (colMax data N j) (a j).1 ∧
    convBound (colMin data N j) (colMax data N j) (a j).2 - convBound (colMin data N j) (colMax data N j) (a j).1 ≤
    convBound (colMin data N j) (colMax data N j) (b j).2 - convBound (colMin data N j) (colMax data N j) (b j).1 := by
  have hmn : colMin data N j < 10000000000 := lt_of_le_of_lt (colMin_le hN) (hd 0 hN).2
  have hmm : colMin data N j ≤ colMax data N j := colMin_le_colMax
  have fin : ∀ v, Between N data j v → -10000000000 < v ∧ v < 10000000000 ∧ colMin data N j ≤ v ∧ v ≤ colMax data N j := by
    rintro v ⟨⟨i, hi, h1⟩, ⟨i', hi', h2⟩⟩
    exact ⟨lt_of_lt_of_le (hd i hi).1 h1, lt_of_le_of_lt h2 (hd i' hi').2, le_trans (colMin_le hi) h1, le_trans h2 (le_colMax hi')⟩
  obtain ⟨a0, a1, a2⟩ := ha j hj
  obtain ⟨b0, b1, b2⟩ := hb j hj
  obtain ⟨l1, l2⟩ := hab j hj
  have key : ∀ r : ℚ × ℚ, (r.1 = -10000000000 ∨ Between N data j r.1) → (r.2 = 10000000000 ∨ Between N data j r.2) →
      (convBound (colMin data N j) (colMax data N j) r.1 = if r.1 = -10000000000 then colMin data N j else r.1) ∧
      (convBound (colMin data N j) (colMax data N j) r.2 = if r.2 = 10000000000 then colMax data N j else r.2) := by
    intro r h1 h2
    constructor
    · rcases h1 with h | h
      · rw [h, if_pos rfl, convBound_neg hmn]
      · obtain ⟨f1, f2, -, -⟩ := fin _ h
        rw [if_neg f1.ne', convBound_fin f1 f2]
    · rcases h2 with h | h
      · rw [h, if_pos rfl, convBound_pos]
      · obtain ⟨f1, f2, -, -⟩ := fin _ h
        rw [if_neg f2.ne, convBound_fin f1 f2]
  rw [(key _ a1 a2).1, (key _ a1 a2).2, (key _ b1 b2).1, (key _ b1 b2).2]
  have A1 := a1.imp id (fin _)
  have A2 := a2.imp id (fin _)
  have B1 := b1.imp id (fin _)
  have B2 := b2.imp id (fin _)
  rcases A1 with A1 | ⟨A1, A1', A1a, A1b⟩ <;> rcases A2 with A2 | ⟨A2, A2', A2a, A2b⟩ <;>
    rcases B1 with B1 | ⟨B1, B1', B1a, B1b⟩ <;> rcases B2 with B2 | ⟨B2, B2', B2a, B2b⟩ <;>
    constructor <;> split_ifs <;> linarith

theorem foldl_mul_mono {f g : Nat → ℚ} : ∀ (l : List Nat) (a b : ℚ), 0 ≤ a → a ≤ b → (∀ i ∈ l, 0 ≤ f i ∧ f i ≤ g i) →
    l.foldl (fun v i => v * f i) a ≤ l.foldl (fun v i => v * g i) b
  | [], _, _, _, h, _ => h
  | i :: l, a, b, h0, h, hl => by
    obtain ⟨h1, h2⟩ := hl i (by simp)
    exact foldl_mul_mono l _ _ (mul_nonneg h0 h1) (mul_le_mul h h2 h1 (le_trans h0 h)) fun k hk => hl k (by simp [hk])

end Acv

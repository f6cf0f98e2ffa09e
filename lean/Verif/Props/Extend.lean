import Verif.Model.Rules
import Verif.Props.MaxRule

/-!
# C37: rule extension (algo2)
-/

namespace Acv

theorem firstNbor_spec {a : Rule} {S : List Nat} : ∀ {l : List Rule} {r}, firstNbor a S l = some r →
    r.1 ∈ l ∧ r.2.1 = findNbor a r.1 S ∧ r.2.1 ≠ [] ∧ r.2.2.length + 1 = l.length ∧ ∀ c ∈ r.2.2, c ∈ l
  | [], r, h => by cases h
  | b :: l, r, h => by
    unfold firstNbor at h
    by_cases hb : findNbor a b S ≠ []
    · rw [if_pos hb] at h
      cases h
      exact ⟨by simp, rfl, hb, rfl, fun c hc => by simp [hc]⟩
    · rw [if_neg hb] at h
      cases hr : firstNbor a S l with
      | none => rw [hr] at h; cases h
      | some q =>
        rw [hr] at h
        cases h
        obtain ⟨h1, h2, h3, h4, h5⟩ := firstNbor_spec hr
        refine ⟨by simp [h1], h2, h3, by simp [h4], ?_⟩
        intro c hc
        rcases List.mem_cons.1 hc with rfl | hc
        · simp
        · simp [h5 c hc]

theorem mem_findNbor {a b : Rule} {S : List Nat} {kd : Nat × Bool} (h : kd ∈ findNbor a b S) :
    kd.1 ∈ S ∧ ((kd.2 = false ∧ (a kd.1).1 = (b kd.1).2) ∨ (kd.2 = true ∧ (a kd.1).2 = (b kd.1).1)) := by
  unfold findNbor at h
  obtain ⟨k, hk, he⟩ := List.mem_filterMap.1 h
  split at he
  · cases he; exact ⟨hk, Or.inl ⟨rfl, by assumption⟩⟩
  · split at he
    · cases he; exact ⟨hk, Or.inr ⟨rfl, by assumption⟩⟩
    · cases he

/-- An invariant of the extension loop is an invariant of `find_union`. -/
theorem findUnionAux_induct {S : List Nat} {P : Rule → Prop} {L : List Rule} (hstep : ∀ a b axs, P a → b ∈ L →
    axs = findNbor a b S → P (extendRec a b S axs)) :
    ∀ fuel a (l : List Rule), (∀ c ∈ l, c ∈ L) → P a → P (findUnionAux S fuel a l) := by
  intro fuel
  induction fuel with
  | zero => exact fun a l _ h => h
  | succ fuel ih =>
    intro a l hl h
    unfold findUnionAux
    cases hf : firstNbor a S l with
    | none => exact h
    | some r =>
      obtain ⟨b, axs, rest⟩ := r
      obtain ⟨h1, h2, -, -, h5⟩ := firstNbor_spec hf
      exact ih _ _ (fun c hc => hl c (h5 c hc)) (hstep a b axs h (hl b h1) h2)

/-- What one side assignment can do to a bound. -/
theorem foldl_setSide {b a0 : Rule} : ∀ (axs : List (Nat × Bool)) (a : Rule),
    (∀ j, ((axs.foldl (setSide b) a) j).1 = (a j).1 ∨ (((axs.foldl (setSide b) a) j).1 = (b j).1 ∧ (j, false) ∈ axs)) ∧
    (∀ j, ((axs.foldl (setSide b) a) j).2 = (a j).2 ∨ (((axs.foldl (setSide b) a) j).2 = (b j).2 ∧ (j, true) ∈ axs))
  | [], a => ⟨fun _ => Or.inl rfl, fun _ => Or.inl rfl⟩
  | (k, d) :: axs, a => by
    obtain ⟨h1, h2⟩ := foldl_setSide (b := b) (a0 := a0) axs (setSide b a (k, d))
    simp only [List.foldl_cons]
    constructor
    · intro j
      rcases h1 j with h | ⟨h, hm⟩
      · rw [h]
        unfold setSide
        by_cases hj : j = k
        · subst hj
          cases d
          · exact Or.inr (by simp)
          · exact Or.inl (by simp)
        · exact Or.inl (by simp [hj])
      · exact Or.inr ⟨h, by simp [hm]⟩
    · intro j
      rcases h2 j with h | ⟨h, hm⟩
      · rw [h]
        unfold setSide
        by_cases hj : j = k
        · subst hj
          cases d
          · exact Or.inl (by simp)
          · exact Or.inr (by simp)
        · exact Or.inl (by simp [hj])
      · exact Or.inr ⟨h, by simp [hm]⟩

theorem extendRec_bounds {a b : Rule} {S : List Nat} (j : Nat) :
    ((extendRec a b S (findNbor a b S) j).1 = (a j).1 ∨
      ((extendRec a b S (findNbor a b S) j).1 = (b j).1 ∧ j ∈ S ∧ (a j).1 = (b j).2)) ∧
    ((extendRec a b S (findNbor a b S) j).2 = (a j).2 ∨
      ((extendRec a b S (findNbor a b S) j).2 = (b j).2 ∧ j ∈ S ∧ (a j).2 = (b j).1)) := by
  unfold extendRec
  split
  · exact ⟨Or.inl rfl, Or.inl rfl⟩
  · obtain ⟨h1, h2⟩ := foldl_setSide (b := b) (a0 := a) (findNbor a b S) a
    constructor
    · rcases h1 j with h | ⟨h, hm⟩
      · exact Or.inl h
      · obtain ⟨hs, h'⟩ := mem_findNbor hm
        refine Or.inr ⟨h, hs, ?_⟩
        rcases h' with h' | h'
        · exact h'.2
        · cases h'.1
    · rcases h2 j with h | ⟨h, hm⟩
      · exact Or.inl h
      · obtain ⟨hs, h'⟩ := mem_findNbor hm
        refine Or.inr ⟨h, hs, ?_⟩
        rcases h' with h' | h'
        · cases h'.1
        · exact h'.2

/-- **C37.** Extending a rule never shrinks it, and never changes a column outside `S`: for every list of compatible rules
with `lo <= hi` on `S`. -/
theorem C37_contains_original {S : List Nat} (m : Nat) (a : Rule) {l : List Rule} (hl : ∀ b ∈ l, ∀ k ∈ S, (b k).1 ≤ (b k).2) :
    RuleLe m a (findUnion S a l) ∧ ∀ j, j ∉ S → findUnion S a l j = a j := by
  have := findUnionAux_induct (S := S) (L := l) (P := fun c => (∀ j, (c j).1 ≤ (a j).1 ∧ (a j).2 ≤ (c j).2) ∧ ∀ j, j ∉ S → c j = a j)
    (by
      rintro c b axs ⟨h1, h2⟩ hb rfl
      constructor
      · intro j
        obtain ⟨e1, e2⟩ := extendRec_bounds (a := c) (b := b) (S := S) j
        constructor
        · rcases e1 with e | ⟨e, hs, ht⟩
          · rw [e]; exact (h1 j).1
          · rw [e]; exact le_trans (hl b hb j hs) (ht ▸ (h1 j).1)
        · rcases e2 with e | ⟨e, hs, ht⟩
          · rw [e]; exact (h1 j).2
          · rw [e]; exact le_trans (ht ▸ (h1 j).2) (hl b hb j hs)
      · intro j hj
        obtain ⟨e1, e2⟩ := extendRec_bounds (a := c) (b := b) (S := S) j
        rw [← h2 j hj]
        refine Prod.ext ?_ ?_
        · exact e1.resolve_right fun h => hj h.2.1
        · exact e2.resolve_right fun h => hj h.2.1)
    l.length a l (fun _ h => h) ⟨fun j => ⟨le_rfl, le_rfl⟩, fun _ _ => rfl⟩
  exact ⟨fun j _ => this.1 j, this.2⟩

/-- **C37.** Every bound of the extended rule is a bound of the original or of a compatible rule; in particular the extended rule
is inside the smallest rectangle around the original and the compatible rules. -/
theorem C37_bounds (S : List Nat) (a : Rule) (l : List Rule) (j : Nat) :
    (∃ b ∈ a :: l, (findUnion S a l j).1 = (b j).1) ∧ ∃ b ∈ a :: l, (findUnion S a l j).2 = (b j).2 := by
  have := findUnionAux_induct (S := S) (L := l) (P := fun c => ∀ j, (∃ b ∈ a :: l, (c j).1 = (b j).1) ∧ ∃ b ∈ a :: l, (c j).2 = (b j).2)
    (by
      rintro c b axs h1 hb rfl j
      obtain ⟨e1, e2⟩ := extendRec_bounds (a := c) (b := b) (S := S) j
      constructor
      · rcases e1 with e | ⟨e, -⟩
        · rw [e]; exact (h1 j).1
        · exact ⟨b, by simp [hb], e⟩
      · rcases e2 with e | ⟨e, -⟩
        · rw [e]; exact (h1 j).2
        · exact ⟨b, by simp [hb], e⟩)
    l.length a l (fun _ h => h) (fun j => ⟨⟨a, by simp, rfl⟩, ⟨a, by simp, rfl⟩⟩)
  exact this j

/-- **C37, one neighbour.** What the extension by one compatible rule `b` does. The rectangles touch in a column of `S` when a bound of one is
the opposite bound of the other. If they touch nowhere, or if in some column of `S` where they do not touch `b` starts after `a` and does
not end before it, the rule stays as it is; otherwise, in every column of `S` where they touch, it takes the far bound of `b`. -/
theorem C37_one_neighbour (S : List Nat) (a b : Rule) :
    let touch := fun k => (a k).1 = (b k).2 ∨ (a k).2 = (b k).1
    let blocked := ∃ k ∈ S, ¬ touch k ∧ (a k).1 < (b k).1 ∧ (a k).2 ≤ (b k).2
    (blocked → findUnion S a [b] = a) ∧
    (¬ blocked → ∀ k, (k ∉ S ∨ ¬ touch k → findUnion S a [b] k = a k) ∧
      (k ∈ S → (a k).1 = (b k).2 → findUnion S a [b] k = ((b k).1, (a k).2)) ∧
      (k ∈ S → (a k).1 ≠ (b k).2 → (a k).2 = (b k).1 → findUnion S a [b] k = ((a k).1, (b k).2))) := by
  intro touch blocked
  have hax : ∀ k, k ∈ (findNbor a b S).map Prod.fst ↔ k ∈ S ∧ touch k := by
    intro k
    unfold findNbor
    simp only [List.mem_map, List.mem_filterMap, touch]
    constructor
    · rintro ⟨⟨k', d⟩, ⟨l, hl, hk⟩, rfl⟩
      by_cases h1 : (a l).1 = (b l).2
      · rw [if_pos h1] at hk; cases hk; exact ⟨hl, Or.inl h1⟩
      · rw [if_neg h1] at hk
        by_cases h2 : (a l).2 = (b l).1
        · rw [if_pos h2] at hk; cases hk; exact ⟨hl, Or.inr h2⟩
        · rw [if_neg h2] at hk; cases hk
    · rintro ⟨hk, h⟩
      by_cases h1 : (a k).1 = (b k).2
      · exact ⟨(k, false), ⟨k, hk, by rw [if_pos h1]⟩, rfl⟩
      · exact ⟨(k, true), ⟨k, hk, by rw [if_neg h1, if_pos (h.resolve_left h1)]⟩, rfl⟩
  have hside : ∀ k d, (k, d) ∈ findNbor a b S → d = !decide ((a k).1 = (b k).2) := by
    intro k d h
    unfold findNbor at h
    obtain ⟨l, hl, hk⟩ := List.mem_filterMap.1 h
    by_cases h1 : (a l).1 = (b l).2
    · rw [if_pos h1] at hk; cases hk; simp [h1]
    · rw [if_neg h1] at hk
      by_cases h2 : (a l).2 = (b l).1
      · rw [if_pos h2] at hk; cases hk; simp [h1]
      · rw [if_neg h2] at hk; cases hk
  have hu : findUnion S a [b] = if findNbor a b S ≠ [] then extendRec a b S (findNbor a b S) else a := by
    unfold findUnion
    simp only [List.length_singleton, findUnionAux, firstNbor]
    by_cases h : findNbor a b S ≠ []
    · simp only [if_pos h]
    · simp only [if_neg h, Option.map_none]
  have hguard : (S.any fun k => decide (k ∉ (findNbor a b S).map Prod.fst) && (!decide ((b k).1 ≤ (a k).1) && decide ((a k).2 ≤ (b k).2))) = true ↔
      blocked := by
    simp only [List.any_eq_true, Bool.and_eq_true, decide_eq_true_eq, Bool.not_eq_true', decide_eq_false_iff_not, not_le]
    constructor
    · rintro ⟨k, hk, h1, h2, h3⟩
      exact ⟨k, hk, fun ht => h1 ((hax k).2 ⟨hk, ht⟩), h2, h3⟩
    · rintro ⟨k, hk, h1, h2, h3⟩
      exact ⟨k, hk, fun ht => h1 ((hax k).1 ht).2, h2, h3⟩
  constructor
  · intro hb
    rw [hu]
    split
    · unfold extendRec; rw [if_pos (hguard.2 hb)]
    · rfl
  · intro hb k
    have he : findUnion S a [b] = (findNbor a b S).foldl (setSide b) a := by
      rw [hu]
      split
      · unfold extendRec; rw [if_neg (fun h => hb (hguard.1 h))]
      · rename_i h; rw [not_not.1 h]; rfl
    -- the fold, column by column
    have hfold : ∀ (axs : List (Nat × Bool)) (c : Rule), (∀ k d, (k, d) ∈ axs → d = !decide ((a k).1 = (b k).2)) → ∀ k,
        (k ∉ axs.map Prod.fst → axs.foldl (setSide b) c k = c k) ∧
        (k ∈ axs.map Prod.fst → axs.foldl (setSide b) c k = if (a k).1 = (b k).2 then ((b k).1, (c k).2) else ((c k).1, (b k).2)) := by
      intro axs
      induction axs with
      | nil => intro c _ k; simp
      | cons p axs ih =>
        intro c hs k
        obtain ⟨q, d⟩ := p
        have hd := hs q d (by simp)
        obtain ⟨i1, i2⟩ := ih (setSide b c (q, d)) (fun k d h => hs k d (List.mem_cons_of_mem _ h)) k
        rw [List.foldl_cons]
        by_cases hkq : k = q
        · subst hkq
          refine ⟨fun h => absurd (by simp) h, fun _ => ?_⟩
          have hset : setSide b c (k, d) k = if (a k).1 = (b k).2 then ((b k).1, (c k).2) else ((c k).1, (b k).2) := by
            unfold setSide
            rw [hd]
            by_cases h1 : (a k).1 = (b k).2 <;> simp [h1]
          by_cases hin : k ∈ axs.map Prod.fst
          · rw [i2 hin, hset]
            by_cases h1 : (a k).1 = (b k).2 <;> simp [h1]
          · rw [i1 hin, hset]
        · have hset : setSide b c (q, d) k = c k := by unfold setSide; rw [if_neg hkq]
          rw [hset] at i1 i2
          constructor
          · intro h
            exact i1 fun hc => h (by rw [List.map_cons]; exact List.mem_cons_of_mem _ hc)
          · intro h
            rw [List.map_cons] at h
            exact i2 ((List.mem_cons.1 h).resolve_left hkq)
    obtain ⟨f1, f2⟩ := hfold (findNbor a b S) a hside k
    rw [he]
    refine ⟨fun h => f1 fun hc => ?_, fun hk h => ?_, fun hk h1 h2 => ?_⟩
    · obtain ⟨h1, h2⟩ := (hax k).1 hc
      rcases h with h | h
      · exact h h1
      · exact h h2
    · rw [f2 ((hax k).2 ⟨hk, Or.inl h⟩), if_pos h]
    · rw [f2 ((hax k).2 ⟨hk, Or.inr h2⟩), if_neg h1]

/-- hypotheses met: a neighbour on the right in column 0 that covers column 1, and one that starts after it there -/
example : (findUnion [0, 1] (fun _ => (0, 1)) [fun j => if j = 0 then (1, 2) else (0, 1)]) 0 = (0, 2) ∧
    (findUnion [0, 1] (fun _ => (0, 1)) [fun j => if j = 0 then (1, 2) else (1/2, 1)]) 0 = (0, 1) := by decide +kernel

/-- The claim of C37 about the union, for the rules that `compute_sdp_maxrules(algo2=True)` really combines: every observation in the
returned rule is in the original rule or in the rule of a background row whose probability reaches `pi`. -/
def C37_union_claim : Prop :=
  ∀ (mems : List Mem) (S : List Nat) (m : Nat) (x : Row) (yx : ℚ) (data : Nat → Row) (y : Nat → ℚ) (minSize maxDepth N : Nat)
    (classifier : Bool) (t : ℚ × ℚ) (pi : ℚ), (∀ c ∈ S, c < m) → (∀ i < N, ∀ j < m, -10000000000 < data i j ∧ data i j ≤ 10000000000) →
    ∀ z, InRule m (sdpMaxRuleAlgo2 mems S x yx data y minSize maxDepth N classifier t pi) z →
      InRule m (sdpRule mems S x yx data y minSize maxDepth N classifier t).2 z ∨
      ∃ j < N, pi ≤ sdpAll mems S x yx data y minSize maxDepth N classifier t j ∧
        InRule m (rulesAll mems S x yx data y minSize maxDepth N classifier t j) z

/-- **C37, partial**: the union claim holds when `S` is a single column and the rules agree outside it (the rules of the projected
forest are unbounded outside `S`). Missing (false): two columns or more. -/
theorem C37_union_one_column_partial {k m : Nat} (hk : k < m) (a : Rule) {l : List Rule} (hl : ∀ b ∈ l, (b k).1 ≤ (b k).2)
    (ho : ∀ b ∈ l, ∀ j, j ≠ k → b j = a j) {z : Row} (hz : InRule m (findUnion [k] a l) z) :
    InRule m a z ∨ ∃ b ∈ l, InRule m b z := by
  have hmain := findUnionAux_induct (S := [k]) (L := l)
    (P := fun c => (∀ j, j ≠ k → c j = a j) ∧ ∀ v, (c k).1 < v ∧ v ≤ (c k).2 →
      ((a k).1 < v ∧ v ≤ (a k).2) ∨ ∃ b ∈ l, (b k).1 < v ∧ v ≤ (b k).2)
    (by
      rintro c b axs ⟨h0, h1⟩ hb rfl
      constructor
      · intro j hj
        obtain ⟨e1, e2⟩ := extendRec_bounds (a := c) (b := b) (S := [k]) j
        rw [← h0 j hj]
        refine Prod.ext ?_ ?_
        · exact e1.resolve_right fun h => hj (by simpa using h.2.1)
        · exact e2.resolve_right fun h => hj (by simpa using h.2.1)
      · intro v hv
        obtain ⟨e1, e2⟩ := extendRec_bounds (a := c) (b := b) (S := [k]) k
        by_cases hc : (c k).1 < v ∧ v ≤ (c k).2
        · exact h1 v hc
        · refine Or.inr ⟨b, hb, ?_⟩
          rcases e1 with e1 | ⟨e1, -, t1⟩ <;> rcases e2 with e2 | ⟨e2, -, t2⟩ <;> rw [e1, e2] at hv
          · exact absurd hv hc
          · refine ⟨?_, hv.2⟩
            rw [← t2]
            by_contra h
            exact hc ⟨hv.1, not_lt.1 h⟩
          · refine ⟨hv.1, ?_⟩
            rw [← t1]
            by_contra h
            exact hc ⟨not_le.1 h, hv.2⟩
          · have := hl b hb
            exact hv)
    l.length a l (fun _ h => h) ⟨fun _ _ => rfl, fun v hv => Or.inl hv⟩
  rcases hmain.2 (z k) (hz k hk) with h | ⟨b, hb, h⟩
  · left
    intro j hj
    by_cases hjk : j = k
    · rw [hjk]; exact h
    · have := hz j hj
      unfold findUnion at this
      rw [hmain.1 j hjk] at this
      exact this
  · right
    refine ⟨b, hb, ?_⟩
    intro j hj
    by_cases hjk : j = k
    · rw [hjk]; exact h
    · have := hz j hj
      unfold findUnion at this
      rw [hmain.1 j hjk] at this
      rw [ho b hb j hjk]
      exact this

/-- Intervals in a chain: the extension reaches 0..3 through a rule that does not touch the original. -/
example : findUnion [0] (fun j => if j = 0 then (1, 2) else (0, 9))
    [fun j => if j = 0 then (5, 6) else (0, 9), fun j => if j = 0 then (2, 3) else (0, 9), fun j => if j = 0 then (0, 1) else (0, 9)] 0 = (0, 3) := by
  decide +kernel

/-- Splits on column 0 at 1, then both sides on column 1 at 1. -/
def quadTree : TreeArr where
  size := 7
  left := fun n => ([1, 3, 5, -1, -1, -1, -1] : List Int).getD n (-1)
  right := fun n => ([2, 4, 6, -1, -1, -1, -1] : List Int).getD n (-1)
  dflt := fun n => ([1, 3, 5, -1, -1, -1, -1] : List Int).getD n (-1)
  feature := fun n => ([0, 1, 1, -2, -2, -2, -2] : List Int).getD n (-2)
  threshold := fun n => ([1, 1, 1, -2, -2, -2, -2] : List ℚ).getD n (-2)
  value := fun _ _ => 0
  weight := fun _ => 1

/-- A tree with one leaf. -/
def stubTree : TreeArr where
  size := 1
  left := fun _ => -1
  right := fun _ => -1
  dflt := fun _ => -1
  feature := fun _ => -2
  threshold := fun _ => -2
  value := fun _ _ => 0
  weight := fun _ => 1

/-- The four corners; the class is 1 on the diagonal. -/
def quadData : Nat → Row := fun i j => ([[0, 0], [2, 2], [0, 2], [2, 0]] : List (List ℚ)).getD i [] |>.getD j 0

def quadY : Nat → ℚ := fun i => if i < 2 then 1 else 0

/-- **C37, the union claim is false**: rules that touch only in a corner are merged. With the level 7/10 the rule of the corner (0, 0)
is extended to the whole plane, so that it contains the background row (0, 2) whose probability is 1/4. -/
theorem C37_corner_false :
    ¬ C37_union_claim ∧
    (∀ z : Row, (∀ j < 2, -10000000000 < z j ∧ z j ≤ 10000000000) → InRule 2 (sdpMaxRuleAlgo2 [Mem.ofTree quadTree leafJunk, Mem.ofTree stubTree leafJunk] [0, 1] (quadData 0) 1 quadData
      quadY 1 3 4 true (0, 0) (7/10)) z) ∧
    sdpRf [Mem.ofTree quadTree leafJunk, Mem.ofTree stubTree leafJunk] [0, 1] (quadData 2) 1 quadData quadY 1 3 4 true (0, 0) = 1/4 := by
  have h0 : sdpMaxRuleAlgo2 [Mem.ofTree quadTree leafJunk, Mem.ofTree stubTree leafJunk] [0, 1] (quadData 0) 1 quadData
      quadY 1 3 4 true (0, 0) (7/10) 0 = (-10000000000, 10000000000) ∧ sdpMaxRuleAlgo2 [Mem.ofTree quadTree leafJunk, Mem.ofTree stubTree leafJunk] [0, 1] (quadData 0) 1 quadData
      quadY 1 3 4 true (0, 0) (7/10) 1 = (-10000000000, 10000000000) := by decide +kernel
  have h1 : ∀ z : Row, (∀ j < 2, -10000000000 < z j ∧ z j ≤ 10000000000) → InRule 2 (sdpMaxRuleAlgo2 [Mem.ofTree quadTree leafJunk, Mem.ofTree stubTree leafJunk] [0, 1] (quadData 0) 1 quadData
      quadY 1 3 4 true (0, 0) (7/10)) z := by
    intro z hz j hj
    have : j = 0 ∨ j = 1 := by omega
    rcases this with rfl | rfl
    · rw [h0.1]; exact hz 0 hj
    · rw [h0.2]; exact hz 1 hj
  refine ⟨?_, h1, by decide +kernel⟩
  intro h
  have := h [Mem.ofTree quadTree leafJunk, Mem.ofTree stubTree leafJunk] [0, 1] 2 (quadData 0) 1 quadData
      quadY 1 3 4 true (0, 0) (7/10) (by decide) (by decide +kernel) (quadData 2) (h1 _ (by decide +kernel))
  revert this
  unfold InRule
  decide +kernel

/-- **C37.** The rule returned by `compute_sdp_maxrules(algo2=True)` contains the original rule, hence `x`, for every forest, as soon as
the values of the background rows are within `±1e10`. -/
theorem C37_algo2_contains {mems : List Mem} {S : List Nat} {m : Nat} {x : Row} {yx : ℚ} {data : Nat → Row} {y : Nat → ℚ}
    {minSize maxDepth N : Nat} {classifier : Bool} {t : ℚ × ℚ} {pi : ℚ} (hS : ∀ c ∈ S, c < m)
    (hd : ∀ i < N, ∀ j < m, -10000000000 < data i j ∧ data i j ≤ 10000000000) :
    RuleLe m (sdpRule mems S x yx data y minSize maxDepth N classifier t).2
      (sdpMaxRuleAlgo2 mems S x yx data y minSize maxDepth N classifier t pi) ∧
    ((∀ j < m, -10000000000 < x j ∧ x j ≤ 10000000000) →
      InRule m (sdpMaxRuleAlgo2 mems S x yx data y minSize maxDepth N classifier t pi) x) := by
  have hc : RuleLe m (sdpRule mems S x yx data y minSize maxDepth N classifier t).2
      (sdpMaxRuleAlgo2 mems S x yx data y minSize maxDepth N classifier t pi) := by
    refine (C37_contains_original m _ ?_).1
    intro b hb k hk
    obtain ⟨j, hj, rfl⟩ := List.mem_map.1 hb
    have hjN := List.mem_range.1 (List.mem_filter.1 hj).1
    unfold rulesAll
    split
    · have := C25_rule_contains_instance_partial mems S m yx data y minSize maxDepth N classifier t (hd j hjN) k (hS k hk)
      exact le_trans (le_of_lt this.1) this.2
    · unfold Rule.init
      norm_num
  refine ⟨hc, fun hx j hj => ?_⟩
  have hr := C25_rule_contains_instance_partial mems S m yx data y minSize maxDepth N classifier t hx
  exact ⟨lt_of_le_of_lt (hc j hj).1 (hr j hj).1, le_trans (hr j hj).2 (hc j hj).2⟩

example : (sdpRule [Mem.ofTree quadTree leafJunk, Mem.ofTree stubTree leafJunk] [0, 1] (quadData 0) 1 quadData
      quadY 1 3 4 true (0, 0)).2 0 = (-10000000000, 1) ∧ (∀ i < 4, ∀ j < 2, -10000000000 < quadData i j ∧ quadData i j ≤ 10000000000) := by
  decide +kernel

/-- The projected forest leaves the columns outside `S` unconstrained. -/
theorem forestRun_outside {push : List Int → Int → List Int} {S : List Nat} {x : Row} {data : Nat → Row} {minSize maxDepth N : Nat}
    {j : Nat} (hj : j ∉ S) : ∀ (mems : List Mem) (r : Rule), (forestRun push S x data minSize maxDepth N mems r).2 j = r j
  | [], r => rfl
  | mem :: mems, r => by
    refine Eq.trans (forestRun_outside hj mems _) ?_
    refine levels_induct (P := fun st => st.rule j = r j) ?_ _ _ _ rfl
    intro n st h
    unfold Mem.visit
    simp only
    by_cases hin : inS S (mem.feat n) = true
    · rw [if_pos hin]
      have hne : j ≠ (mem.feat n).toNat := fun e => hj (e ▸ (inS_iff.1 hin).2)
      split
      · simpa [Rule.below, hne] using h
      · simpa [Rule.above, hne] using h
    · rw [if_neg hin]
      exact h

/-- **C37, partial**: the union claim holds for every forest when `S` is a single column. -/
theorem C37_algo2_one_column_partial {mems : List Mem} {k m : Nat} (hk : k < m) {x : Row} {yx : ℚ} {data : Nat → Row} {y : Nat → ℚ}
    {minSize maxDepth N : Nat} {classifier : Bool} {t : ℚ × ℚ} {pi : ℚ}
    (hd : ∀ i < N, ∀ j < m, -10000000000 < data i j ∧ data i j ≤ 10000000000) {z : Row}
    (hz : InRule m (sdpMaxRuleAlgo2 mems [k] x yx data y minSize maxDepth N classifier t pi) z) :
    InRule m (sdpRule mems [k] x yx data y minSize maxDepth N classifier t).2 z ∨
      ∃ j < N, pi ≤ sdpAll mems [k] x yx data y minSize maxDepth N classifier t j ∧
        InRule m (rulesAll mems [k] x yx data y minSize maxDepth N classifier t j) z := by
  have ho : ∀ u j, j ≠ k → (sdpRule mems [k] u yx data y minSize maxDepth N classifier t).2 j = Rule.init j :=
    fun u j hj => forestRun_outside (by simpa using hj) mems Rule.init
  have h1 : ∀ b ∈ ((List.range N).filter fun j =>
      decide (pi ≤ sdpAll mems [k] x yx data y minSize maxDepth N classifier t j)).map
      (rulesAll mems [k] x yx data y minSize maxDepth N classifier t), (b k).1 ≤ (b k).2 := by
    intro b hb
    obtain ⟨j, hj, rfl⟩ := List.mem_map.1 hb
    have hjN := List.mem_range.1 (List.mem_filter.1 hj).1
    unfold rulesAll
    split
    · have := C25_rule_contains_instance_partial mems [k] m yx data y minSize maxDepth N classifier t (hd j hjN) k hk
      exact le_trans (le_of_lt this.1) this.2
    · unfold Rule.init
      norm_num
  have h2 : ∀ b ∈ ((List.range N).filter fun j =>
      decide (pi ≤ sdpAll mems [k] x yx data y minSize maxDepth N classifier t j)).map
      (rulesAll mems [k] x yx data y minSize maxDepth N classifier t), ∀ j, j ≠ k →
      b j = (sdpRule mems [k] x yx data y minSize maxDepth N classifier t).2 j := by
    intro b hb j hj
    obtain ⟨i, -, rfl⟩ := List.mem_map.1 hb
    rw [ho x j hj]
    unfold rulesAll
    split
    · exact ho _ j hj
    · rfl
  rcases C37_union_one_column_partial hk _ h1 h2 hz with h | ⟨b, hb, h⟩
  · exact Or.inl h
  · obtain ⟨j, hj, rfl⟩ := List.mem_map.1 hb
    obtain ⟨h1, h2⟩ := List.mem_filter.1 hj
    exact Or.inr ⟨j, List.mem_range.1 h1, by simpa using h2, h⟩

end Acv

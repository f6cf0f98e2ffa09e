import Verif.Model.Biased
import Verif.Spec.Biased
import Verif.Lemmas.ProjCell
import Verif.Props.Projected
import Mathlib.Tactic.Linarith

/-! # Lemmas on the biased rules (C79) -/

namespace Acv

theorem inRuleS_meets (S : List Nat) (r : Rule) (z : Row) : inRuleS S r z = true ↔ Meets S r z := by
  unfold inRuleS Meets
  rw [List.all_eq_true]
  refine forall_congr' fun f => forall_congr' fun _ => ?_
  simp only [Bool.and_eq_true, decide_eq_true_eq]
  exact and_comm

theorem meets_meet (S : List Nat) (a b : Rule) (z : Row) : Meets S (meet a b) z ↔ Meets S a z ∧ Meets S b z := by
  unfold Meets meet
  simp only [max_le_iff, le_min_iff]
  constructor
  · intro h
    exact ⟨fun f hf => ⟨(h f hf).1.1, (h f hf).2.1⟩, fun f hf => ⟨(h f hf).1.2, (h f hf).2.2⟩⟩
  · rintro ⟨h1, h2⟩ f hf
    exact ⟨⟨(h1 f hf).1, (h2 f hf).1⟩, ⟨(h1 f hf).2, (h2 f hf).2⟩⟩

theorem meets_foldl (S : List Nat) (rs : List Rule) : ∀ (r : Rule) (z : Row),
    Meets S (rs.foldl meet r) z ↔ ∀ a ∈ r :: rs, Meets S a z := by
  induction rs with
  | nil => intro r z; simp
  | cons b rs ih =>
    intro r z
    rw [List.foldl_cons, ih]
    simp only [List.mem_cons, forall_eq_or_imp, meets_meet]
    tauto

theorem meets_meetAll {S : List Nat} {rs : List Rule} {r : Rule} (h : meetAll rs = .ok r) (z : Row) :
    Meets S r z ↔ ∀ a ∈ rs, Meets S a z := by
  cases rs with
  | nil => cases h
  | cons b rs =>
    have : rs.foldl meet b = r := by simpa [meetAll] using h
    rw [← this, meets_foldl]

theorem meetAll_ok {rs : List Rule} (h : rs ≠ []) : ∃ r, meetAll rs = .ok r := by
  cases rs with
  | nil => exact absurd rfl h
  | cons b rs => exact ⟨_, rfl⟩

theorem meetAll_congr (f : Nat) (v : ℚ × ℚ) {rs : List Rule} (h : ∀ r ∈ rs, r f = v) {r : Rule} (hr : meetAll rs = .ok r) :
    r f = v := by
  cases rs with
  | nil => cases hr
  | cons b rs =>
    have hb : rs.foldl meet b = r := by simpa [meetAll] using hr
    rw [← hb]
    clear hb hr
    induction rs generalizing b with
    | nil => exact h b (by simp)
    | cons c rs ih =>
      rw [List.foldl_cons]
      apply ih
      intro r hr
      rcases List.mem_cons.1 hr with rfl | hr
      · show (max (b f).1 (c f).1, min (b f).2 (c f).2) = v
        rw [h b (by simp), h c (by simp), max_self, min_self]
      · exact h r (by simp [hr])

theorem meets_below (S : List Nat) (r : Rule) {f : Nat} (hf : f ∈ S) (thr : ℚ) (z : Row) :
    Meets S (r.below f thr) z ↔ Meets S r z ∧ z f ≤ thr := by
  unfold Meets Rule.below
  constructor
  · intro h
    have h1 := h f hf
    rw [if_pos rfl] at h1
    refine ⟨fun g hg => ?_, ?_⟩
    · have h2 := h g hg
      by_cases hgf : g = f
      · subst hgf
        rw [if_pos rfl] at h2
        split at h2
        · rename_i hle; exact ⟨h2.1, le_trans h2.2 hle⟩
        · exact h2
      · rwa [if_neg hgf] at h2
    · split at h1
      · exact h1.2
      · rename_i hle; exact le_trans h1.2 (le_of_lt (not_le.1 hle))
  · rintro ⟨h1, h2⟩ g hg
    by_cases hgf : g = f
    · subst hgf
      rw [if_pos rfl]
      split
      · exact ⟨(h1 g hg).1, h2⟩
      · exact h1 g hg
    · rw [if_neg hgf]; exact h1 g hg

theorem meets_above (S : List Nat) (r : Rule) {f : Nat} (hf : f ∈ S) (thr : ℚ) (z : Row) :
    Meets S (r.above f thr) z ↔ Meets S r z ∧ thr ≤ z f := by
  unfold Meets Rule.above
  constructor
  · intro h
    have h1 := h f hf
    rw [if_pos rfl] at h1
    refine ⟨fun g hg => ?_, ?_⟩
    · have h2 := h g hg
      by_cases hgf : g = f
      · subst hgf
        rw [if_pos rfl] at h2
        split at h2
        · rename_i hle; exact ⟨le_trans hle h2.1, h2.2⟩
        · exact h2
      · rwa [if_neg hgf] at h2
    · split at h1
      · exact h1.1
      · rename_i hle; exact le_trans (le_of_lt (not_le.1 hle)) h1.1
  · rintro ⟨h1, h2⟩ g hg
    by_cases hgf : g = f
    · subst hgf
      rw [if_pos rfl]
      split
      · exact ⟨h2, (h1 g hg).2⟩
      · exact h1 g hg
    · rw [if_neg hgf]; exact h1 g hg

/-- what one visited node asks of a row -/
def NodeOk (mem : Mem) (S : List Nat) (x : Row) (n : Int) (z : Row) : Prop :=
  inS S (mem.feat n) = true →
    (x (mem.feat n).toNat ≤ mem.thr n → z (mem.feat n).toNat ≤ mem.thr n) ∧
    (mem.thr n < x (mem.feat n).toNat → mem.thr n ≤ z (mem.feat n).toNat)

/-- the children pushed for one node -/
def kids (mem : Mem) (S : List Nat) (x : Row) (n : Int) : List Int :=
  if inS S (mem.feat n) then (if x (mem.feat n).toNat ≤ mem.thr n then [mem.lc n] else [mem.rc n]) else [mem.lc n, mem.rc n]

theorem visitB_fst (mem : Mem) (S : List Nat) (x : Row) (st : List Int × Rule) (n : Int) :
    (mem.visitB S x st n).1 = st.1 ++ kids mem S x n := by
  unfold Mem.visitB kids pushBack
  simp only
  split
  · split <;> rfl
  · simp

theorem visitB_meets (mem : Mem) (S : List Nat) (x : Row) (st : List Int × Rule) (n : Int) (z : Row) :
    Meets S (mem.visitB S x st n).2 z ↔ Meets S st.2 z ∧ NodeOk mem S x n z := by
  unfold Mem.visitB NodeOk
  simp only
  split
  · rename_i h
    have hS : (mem.feat n).toNat ∈ S := by
      unfold inS at h
      simp only [Bool.and_eq_true, decide_eq_true_eq] at h
      exact h.2
    split
    · rename_i hx
      simp only
      rw [meets_below S _ hS]
      refine and_congr Iff.rfl ⟨fun hz _ => ⟨fun _ => hz, fun hc => absurd hx (not_le.2 hc)⟩, fun hz => (hz h).1 hx⟩
    · rename_i hx
      simp only
      rw [meets_above S _ hS]
      refine and_congr Iff.rfl ⟨fun hz _ => ⟨fun hc => absurd hc hx, fun _ => hz⟩, fun hz => (hz h).2 (not_le.1 hx)⟩
  · rename_i h
    simp [h]

theorem visitB_other (mem : Mem) (S : List Nat) (x : Row) (st : List Int × Rule) (n : Int) {f : Nat} (hf : f ∉ S) :
    (mem.visitB S x st n).2 f = st.2 f := by
  unfold Mem.visitB
  simp only
  split
  · rename_i h
    have hS : (mem.feat n).toNat ∈ S := by
      unfold inS at h
      simp only [Bool.and_eq_true, decide_eq_true_eq] at h
      exact h.2
    have hne : f ≠ (mem.feat n).toNat := fun hc => hf (hc ▸ hS)
    split
    · show (st.2.below _ _) f = _
      unfold Rule.below
      rw [if_neg hne]
    · show (st.2.above _ _) f = _
      unfold Rule.above
      rw [if_neg hne]
  · rfl

theorem foldB_fst (mem : Mem) (S : List Nat) (x : Row) (nodes : List Int) : ∀ st : List Int × Rule,
    (nodes.foldl (mem.visitB S x) st).1 = st.1 ++ nodes.flatMap (kids mem S x) := by
  induction nodes with
  | nil => intro st; simp
  | cons n nodes ih =>
    intro st
    rw [List.foldl_cons, ih, visitB_fst, List.flatMap_cons, List.append_assoc]

theorem foldB_meets (mem : Mem) (S : List Nat) (x : Row) (z : Row) (nodes : List Int) : ∀ st : List Int × Rule,
    Meets S (nodes.foldl (mem.visitB S x) st).2 z ↔ Meets S st.2 z ∧ ∀ n ∈ nodes, NodeOk mem S x n z := by
  induction nodes with
  | nil => intro st; simp
  | cons n nodes ih =>
    intro st
    rw [List.foldl_cons, ih, visitB_meets]
    simp only [List.mem_cons, forall_eq_or_imp]
    tauto

theorem foldB_other (mem : Mem) (S : List Nat) (x : Row) {f : Nat} (hf : f ∉ S) (nodes : List Int) : ∀ st : List Int × Rule,
    (nodes.foldl (mem.visitB S x) st).2 f = st.2 f := by
  induction nodes with
  | nil => intro st; rfl
  | cons n nodes ih =>
    intro st
    rw [List.foldl_cons, ih, visitB_other mem S x st n hf]

/-- the nodes visited at a level -/
def levelNodes (mem : Mem) (S : List Nat) (x : Row) : Nat → List Int → List Int → List Int
  | 0, nodes, _ => nodes
  | k + 1, nodes, child => levelNodes mem S x k (child ++ nodes.flatMap (kids mem S x)) (child ++ nodes.flatMap (kids mem S x))

theorem levelRules_length (mem : Mem) (S : List Nat) (x : Row) : ∀ (k : Nat) (nodes child : List Int),
    (mem.levelRules S x k nodes child).length = k
  | 0, _, _ => rfl
  | k + 1, nodes, child => by
    unfold Mem.levelRules
    simp only [List.length_cons]
    rw [levelRules_length]

theorem levelRules_other (mem : Mem) (S : List Nat) (x : Row) {f : Nat} (hf : f ∉ S) : ∀ (k : Nat) (nodes child : List Int),
    ∀ r ∈ mem.levelRules S x k nodes child, r f = (-10000000000, 10000000000)
  | 0, _, _, r, h => by cases h
  | k + 1, nodes, child, r, h => by
    unfold Mem.levelRules at h
    simp only [List.mem_cons] at h
    rcases h with rfl | h
    · rw [foldB_other mem S x hf]; rfl
    · exact levelRules_other mem S x hf k _ _ r h

/-- a row meets the bounds of the first `d` levels -/
theorem levelRules_take (mem : Mem) (S : List Nat) (x z : Row) : ∀ (k d : Nat) (nodes child : List Int), d ≤ k →
    ((∀ r ∈ (mem.levelRules S x k nodes child).take d, Meets S r z) ↔
      ∀ l < d, Meets S Rule.init z ∧ ∀ n ∈ levelNodes mem S x l nodes child, NodeOk mem S x n z)
  | 0, d, _, _, h => by
    have : d = 0 := by omega
    subst this
    simp
  | k + 1, 0, _, _, _ => by simp
  | k + 1, d + 1, nodes, child, h => by
    unfold Mem.levelRules
    simp only [List.take_succ_cons, List.mem_cons, forall_eq_or_imp]
    rw [foldB_meets, foldB_fst, levelRules_take mem S x z k d _ _ (by omega)]
    constructor
    · rintro ⟨h1, h2⟩ l hl
      cases l with
      | zero => exact h1
      | succ l => exact h2 l (by omega)
    · intro hh
      exact ⟨hh 0 (by omega), fun l hl => hh (l + 1) (by omega)⟩

/-- the first levels, with the tree alone -/
theorem projAt_lt {t : TreeArr} {d b} (h : IsTree t d b) {S : List Nat} {x : Row} {k n : Nat} (hp : ProjAt t S x k n) :
    n < t.size ∧ ProjVisits t S x n := by
  have : ProjVisits t S x n := by
    induction hp with
    | root => exact ProjVisits.root
    | left _ h1 h2 h3 ih => exact ProjVisits.left ih h1 h2 h3
    | right _ h1 h2 h3 ih => exact ProjVisits.right ih h1 h2 h3
  exact ⟨projVisits_lt h this, this⟩

section
variable {mem : Mem} {S : List Nat} {m : Nat} {x : Row} {t : TreeArr}

theorem kids_neg (h : TreeIn S m t mem) : kids mem S x (-1) = [-1, -1] := by
  obtain ⟨h1, h2, h3⟩ := h.before
  unfold kids
  have : inS S (mem.feat (-1)) = false := by
    rw [Bool.eq_false_iff]
    intro hc
    exact h1 (inS_iff.mp hc)
  rw [this, h2, h3]
  rfl

theorem kids_sound (h : TreeIn S m t mem) {n : Nat} (hn : n < t.size) {k : Nat} (hp : ProjAt t S x k n) {c : Int}
    (hc : c ∈ kids mem S x n) : c = -1 ∨ ∃ q : Nat, c = q ∧ ProjAt t S x (k + 1) q := by
  obtain ⟨b, hb⟩ := h.wf
  obtain ⟨e1, e2, e3, e4⟩ := h.holds n hn
  unfold kids at hc
  rw [e1, e2, e3, e4] at hc
  rcases node_cases hb hn with ⟨hl, _⟩ | ⟨h1, h2, h3, _⟩
  · rw [inS_feat_false h.negLeaf hn hl] at hc
    obtain ⟨l1, l2⟩ := h.leafChildren n hn hl
    rw [l1, l2] at hc
    left
    simpa using hc
  · right
    obtain ⟨l, hl⟩ := Int.eq_ofNat_of_zero_le h1
    obtain ⟨r, hr⟩ := Int.eq_ofNat_of_zero_le h2
    split at hc
    · rename_i hs
      split at hc
      · rename_i hx
        exact ⟨l, by rw [← hl]; simpa using hc, ProjAt.left hp hn hl fun _ => hx⟩
      · rename_i hx
        exact ⟨r, by rw [← hr]; simpa using hc, ProjAt.right hp hn hr fun _ => not_le.1 hx⟩
    · rename_i hs
      have hs' : (t.feature n).toNat ∉ S := fun hm => hs (inS_iff.mpr ⟨h3, hm⟩)
      simp only [List.mem_cons, List.not_mem_nil, or_false] at hc
      rcases hc with rfl | rfl
      · exact ⟨l, hl, ProjAt.left hp hn hl fun hm => absurd hm hs'⟩
      · exact ⟨r, hr, ProjAt.right hp hn hr fun hm => absurd hm hs'⟩

theorem kids_complete (h : TreeIn S m t mem) {k q : Nat} (hq : ProjAt t S x (k + 1) q) :
    ∃ n : Nat, n < t.size ∧ ProjAt t S x k n ∧ (q : Int) ∈ kids mem S x n := by
  obtain ⟨b, hb⟩ := h.wf
  cases hq with
  | @left _ n _ hp hn hl hx =>
    refine ⟨n, hn, hp, ?_⟩
    obtain ⟨e1, e2, e3, e4⟩ := h.holds n hn
    unfold kids
    rw [e1, e2, e3, e4, hl]
    split
    · rename_i hs
      rw [if_pos (hx (inS_iff.mp hs).2)]
      simp
    · simp
  | @right _ n _ hp hn hr hx =>
    refine ⟨n, hn, hp, ?_⟩
    obtain ⟨e1, e2, e3, e4⟩ := h.holds n hn
    unfold kids
    rw [e1, e2, e3, e4, hr]
    split
    · rename_i hs
      rw [if_neg (not_le.2 (hx (inS_iff.mp hs).2))]
      simp
    · simp

theorem levelNodes_spec (h : TreeIn S m t mem) : ∀ (k p : Nat) (C : List Int),
    (∀ c ∈ C, c = -1 ∨ ∃ j q : Nat, c = q ∧ 1 ≤ j ∧ j ≤ p ∧ ProjAt t S x j q) →
    (∀ j q : Nat, 1 ≤ j → j ≤ p → ProjAt t S x j q → (q : Int) ∈ C) → 1 ≤ p →
    (∀ c ∈ levelNodes mem S x k C C, c = -1 ∨ ∃ j q : Nat, c = q ∧ 1 ≤ j ∧ j ≤ p + k ∧ ProjAt t S x j q) ∧
    (∀ j q : Nat, 1 ≤ j → j ≤ p + k → ProjAt t S x j q → (q : Int) ∈ levelNodes mem S x k C C)
  | 0, p, C, h1, h2, _ => ⟨h1, h2⟩
  | k + 1, p, C, h1, h2, hp => by
    obtain ⟨b, hb⟩ := h.wf
    unfold levelNodes
    have := levelNodes_spec h k (p + 1) (C ++ C.flatMap (kids mem S x)) ?_ ?_ (by omega)
    · have e : p + 1 + k = p + (k + 1) := by omega
      rw [e] at this
      exact this
    · intro c hc
      rcases List.mem_append.1 hc with hc | hc
      · rcases h1 c hc with h | ⟨j, q, h3, h4, h5, h6⟩
        · exact Or.inl h
        · exact Or.inr ⟨j, q, h3, h4, by omega, h6⟩
      · obtain ⟨n, hn, hc⟩ := List.mem_flatMap.1 hc
        rcases h1 n hn with rfl | ⟨j, q, rfl, h4, h5, h6⟩
        · rw [kids_neg h] at hc
          left; simpa using hc
        · rcases kids_sound h (projAt_lt hb h6).1 h6 hc with h | ⟨q', h7, h8⟩
          · exact Or.inl h
          · exact Or.inr ⟨j + 1, q', h7, by omega, by omega, h8⟩
    · intro j q hj1 hj2 hq
      by_cases hj : j ≤ p
      · exact List.mem_append.2 (Or.inl (h2 j q hj1 hj hq))
      · have : j = p + 1 := by omega
        subst this
        obtain ⟨n, hn, hn2, hn3⟩ := kids_complete h hq
        exact List.mem_append.2 (Or.inr (List.mem_flatMap.2 ⟨n, h2 p n hp (le_refl _) hn2, hn3⟩))

theorem nodeOk_neg (h : TreeIn S m t mem) (z : Row) : NodeOk mem S x (-1) z := by
  intro hc
  exact absurd (inS_iff.mp hc) h.before.1

theorem projAt_zero {q : Nat} (h : ProjAt t S x 0 q) : q = 0 := by cases h; rfl

theorem levelNodes_root (h : TreeIn S m t mem) (z : Row) (l : Nat) :
    (∀ n ∈ levelNodes mem S x l [0] [], NodeOk mem S x n z) ↔
      ∀ j q : Nat, (if l = 0 then j = 0 else 1 ≤ j ∧ j ≤ l) → ProjAt t S x j q → NodeOk mem S x q z := by
  obtain ⟨b, hb⟩ := h.wf
  cases l with
  | zero =>
    simp only [if_true, levelNodes, List.mem_singleton, forall_eq]
    constructor
    · rintro h0 j q rfl hq
      rw [projAt_zero hq]; exact h0
    · intro hh
      exact hh 0 0 rfl ProjAt.root
  | succ l =>
    simp only [Nat.succ_ne_zero, if_false]
    unfold levelNodes
    have hsz := size_pos hb
    have := levelNodes_spec (x := x) h l 1 ([] ++ [(0 : Int)].flatMap (kids mem S x)) ?_ ?_ (le_refl _)
    · constructor
      · intro hh j q hj hq
        exact hh q (this.2 j q hj.1 (by omega) hq)
      · intro hh n hn
        rcases this.1 n hn with rfl | ⟨j, q, rfl, h4, h5, h6⟩
        · exact nodeOk_neg h z
        · exact hh j q ⟨h4, by omega⟩ h6
    · intro c hc
      simp only [List.nil_append, List.flatMap_cons, List.flatMap_nil, List.append_nil] at hc
      rcases kids_sound h hsz ProjAt.root hc with h | ⟨q', h7, h8⟩
      · exact Or.inl h
      · exact Or.inr ⟨1, q', h7, le_refl _, le_refl _, h8⟩
    · intro j q hj1 hj2 hq
      have : j = 0 + 1 := by omega
      subst this
      obtain ⟨n, hn, hn2, hn3⟩ := kids_complete h hq
      rw [projAt_zero hn2] at hn3
      simpa using hn3

theorem nodeOk_held (h : TreeIn S m t mem) {q : Nat} (hq : q < t.size) (z : Row) :
    NodeOk mem S x q z ↔ (0 ≤ t.feature q → (t.feature q).toNat ∈ S →
      (x (t.feature q).toNat ≤ t.threshold q → z (t.feature q).toNat ≤ t.threshold q) ∧
      (t.threshold q < x (t.feature q).toNat → t.threshold q ≤ z (t.feature q).toNat)) := by
  obtain ⟨e1, e2, -, -⟩ := h.holds q hq
  unfold NodeOk
  rw [e1, e2, inS_iff]
  tauto

theorem firstLevels_iff (h : TreeIn S m t mem) {k d : Nat} (hd : 1 ≤ d) (hk : d ≤ k) (z : Row) :
    (∀ r ∈ (mem.levelRules S x k [0] []).take d, Meets S r z) ↔ FirstLevels t S x d z := by
  obtain ⟨b, hb⟩ := h.wf
  rw [levelRules_take mem S x z k d _ _ hk]
  unfold FirstLevels
  constructor
  · intro hh
    refine ⟨(hh 0 (by omega)).1, ?_⟩
    intro j hj q hq hlt hf hS
    have h1 := (hh j hj).2
    rw [levelNodes_root h] at h1
    refine (nodeOk_held h hlt z).1 (h1 j q ?_ hq) hf hS
    split
    · assumption
    · omega
  · rintro ⟨h1, h2⟩ l hl
    refine ⟨h1, ?_⟩
    rw [levelNodes_root h]
    intro j q hj hq
    have hlt := (projAt_lt hb hq).1
    rw [nodeOk_held h hlt]
    intro hf hS
    refine h2 j ?_ q hq hlt hf hS
    split at hj <;> omega

end

theorem compileTree_ok {S : List Nat} {data : Nat → Row} {N minSize : Nat} {levels : List Rule} : ∀ {D : Nat} {r : Rule},
    compileTree S data N minSize levels D = .ok r →
    ∃ d, 1 ≤ d ∧ d ≤ D ∧ meetAll (levels.take d) = .ok r ∧ minSize < countIn S data N r ∧
      ∀ d' r', d < d' → d' ≤ D → meetAll (levels.take d') = .ok r' → countIn S data N r' ≤ minSize
  | 0, r, h => by cases h
  | D + 1, r, h => by
    unfold compileTree at h
    cases hm : meetAll (levels.take (D + 1)) with
    | error e => rw [hm] at h; cases h
    | ok r0 =>
      rw [hm] at h
      simp only at h
      split at h
      · rename_i hle
        obtain ⟨d, h1, h2, h3, h4, h5⟩ := compileTree_ok h
        refine ⟨d, h1, by omega, h3, h4, ?_⟩
        intro d' r' hd hd' hr'
        by_cases he : d' = D + 1
        · subst he
          rw [hm] at hr'
          cases hr'
          exact hle
        · exact h5 d' r' hd (by omega) hr'
      · rename_i hle
        cases h
        exact ⟨D + 1, by omega, le_refl _, hm, not_le.1 hle, fun d' r' h1 h2 => by omega⟩

theorem compileTree_error {S : List Nat} {data : Nat → Row} {N minSize : Nat} {levels : List Rule} : ∀ {D : Nat},
    D ≤ levels.length →
    ((∃ e, compileTree S data N minSize levels D = .error e) ↔
      ∀ d r, 1 ≤ d → d ≤ D → meetAll (levels.take d) = .ok r → countIn S data N r ≤ minSize)
  | 0, _ => ⟨fun _ d r h1 h2 => by omega, fun _ => ⟨_, rfl⟩⟩
  | D + 1, hl => by
    have hne : levels.take (D + 1) ≠ [] := by
      intro hc
      have : (levels.take (D + 1)).length = 0 := by rw [hc]; rfl
      rw [List.length_take] at this
      omega
    obtain ⟨r0, hr0⟩ := meetAll_ok hne
    unfold compileTree
    rw [hr0]
    simp only
    split
    · rename_i hle
      rw [compileTree_error (by omega)]
      constructor
      · intro h d r h1 h2 h3
        by_cases he : d = D + 1
        · subst he
          rw [hr0] at h3
          cases h3
          exact hle
        · exact h d r h1 (by omega) h3
      · intro h d r h1 h2 h3
        exact h d r h1 (by omega) h3
    · rename_i hle
      constructor
      · rintro ⟨e, h⟩; cases h
      · intro h
        exact absurd (h (D + 1) r0 (by omega) (le_refl _) hr0) hle

theorem mapMx_ok {α β : Type} {f : α → Except String β} : ∀ {l : List α} {rs : List β}, l.mapM f = .ok rs →
    List.Forall₂ (fun a b => f a = .ok b) l rs
  | [], rs, h => by
    rw [List.mapM_nil] at h
    cases h
    exact List.Forall₂.nil
  | a :: l, rs, h => by
    rw [List.mapM_cons] at h
    cases ha : f a with
    | error e => rw [ha] at h; cases h
    | ok b =>
      rw [ha] at h
      cases hl : l.mapM f with
      | error e => rw [hl] at h; cases h
      | ok bs =>
        rw [hl] at h
        cases h
        exact List.Forall₂.cons ha (mapMx_ok hl)

theorem mapMx_error {α β : Type} {f : α → Except String β} : ∀ {l : List α},
    (∃ e, l.mapM f = .error e) ↔ ∃ a ∈ l, ∃ e, f a = .error e
  | [] => by
    constructor
    · rintro ⟨e, h⟩; rw [List.mapM_nil] at h; cases h
    · rintro ⟨a, ha, -⟩; cases ha
  | a :: l => by
    rw [List.mapM_cons]
    cases ha : f a with
    | error e =>
      exact ⟨fun _ => ⟨a, by simp, e, ha⟩, fun _ => ⟨e, rfl⟩⟩
    | ok b =>
      have ih := mapMx_error (f := f) (l := l)
      cases hl : l.mapM f with
      | error e =>
        rw [hl] at ih
        refine ⟨fun _ => ?_, fun _ => ⟨e, rfl⟩⟩
        obtain ⟨a', h1, h2⟩ := ih.1 ⟨e, rfl⟩
        exact ⟨a', by simp [h1], h2⟩
      | ok bs =>
        rw [hl] at ih
        constructor
        · rintro ⟨e, h⟩; cases h
        · rintro ⟨a', h1, e, h2⟩
          rcases List.mem_cons.1 h1 with rfl | h1
          · rw [ha] at h2; cases h2
          · obtain ⟨e', he'⟩ := ih.2 ⟨a', h1, e, h2⟩
            cases he'

end Acv

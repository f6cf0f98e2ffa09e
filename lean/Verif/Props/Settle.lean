import Verif.Props.Nested
import Verif.Model.Rules

/-!
# C128: cleaning a list of rules a second time
-/

namespace Acv

theorem npUnique_ext {l l' : List Box} (h : ∀ b, b ∈ l ↔ b ∈ l') : npUnique l = npUnique l' := by
  obtain ⟨h1, m1⟩ := C38_unique_sorted l
  obtain ⟨h2, m2⟩ := C38_unique_sorted l'
  have n1 := npUnique_nodup l
  have n2 := npUnique_nodup l'
  have hp : (npUnique l).Perm (npUnique l') := (List.perm_ext_iff_of_nodup n1 n2).2 fun b => by rw [m1, m2, h]
  exact hp.eq_of_pairwise (fun a b _ _ hab hba => absurd hba (List.lt_asymm hab)) h1 h2

/-- The result of `remove_in` is determined by the set of its rules. -/
theorem removeIn_ext {m : Nat} {ra rb : List Box} (h : ∀ b, b ∈ removeIn m ra ↔ b ∈ removeIn m rb) : removeIn m ra = removeIn m rb := by
  unfold removeIn at h ⊢
  refine npUnique_ext fun b => ?_
  have := h b
  rwa [(C38_unique_sorted _).2, (C38_unique_sorted _).2] at this

/-- **C128, order and repetition**: the result of `remove_in` depends on the rules only, not on their order or on how often they occur. -/
theorem C128_order {m : Nat} {ra rb : List Box} (hlen : ∀ r ∈ ra, r.length = m) (h : ∀ r, r ∈ ra ↔ r ∈ rb) : removeIn m ra = removeIn m rb := by
  refine removeIn_ext fun b => ?_
  rw [(C38_remove_in hlen).2.1, (C38_remove_in fun r hr => hlen r ((h r).2 hr)).2.1, h]
  simp only [h]

/-- **C128, in parts**: nested rules may be removed from a part of the rules first. -/
theorem C128_parts {m : Nat} {ra rb : List Box} (hlen : ∀ r ∈ ra ++ rb, r.length = m) : removeIn m (removeIn m ra ++ rb) = removeIn m (ra ++ rb) := by
  have ha : ∀ r ∈ ra, r.length = m := fun r hr => hlen r (List.mem_append_left _ hr)
  obtain ⟨-, hmem, hcov, -⟩ := C38_remove_in ha
  have hlen' : ∀ r ∈ removeIn m ra ++ rb, r.length = m := by
    intro r hr
    rcases List.mem_append.1 hr with hr | hr
    · exact ha r ((hmem r).1 hr).1
    · exact hlen r (List.mem_append_right _ hr)
  refine removeIn_ext fun b => ?_
  rw [(C38_remove_in hlen').2.1, (C38_remove_in hlen).2.1]
  constructor
  · rintro ⟨h1, h2⟩
    have hb : b ∈ ra ++ rb := by
      rcases List.mem_append.1 h1 with h | h
      · exact List.mem_append_left _ ((hmem b).1 h).1
      · exact List.mem_append_right _ h
    refine ⟨hb, fun r' hr' hi => ?_⟩
    rcases List.mem_append.1 hr' with h | h
    · obtain ⟨r'', h3, h4⟩ := hcov r' h
      have e := h2 r'' (List.mem_append_left _ h3) fun s hs => ⟨(hi s hs).1.trans' (h4 s hs).1, (hi s hs).2.trans (h4 s hs).2⟩
      subst e
      rcases List.mem_append.1 h1 with h5 | h5
      · exact ((hmem r'').1 h5).2 r' h hi
      · exact (((hmem r'').1 h3).2 r' h hi)
    · exact h2 r' (List.mem_append_right _ h) hi
  · rintro ⟨h1, h2⟩
    refine ⟨?_, fun r' hr' hi => ?_⟩
    · rcases List.mem_append.1 h1 with h | h
      · exact List.mem_append_left _ ((hmem b).2 ⟨h, fun r' hr' => h2 r' (List.mem_append_left _ hr')⟩)
      · exact List.mem_append_right _ h
    · rcases List.mem_append.1 hr' with h | h
      · exact h2 r' (List.mem_append_left _ ((hmem r').1 h).1) hi
      · exact h2 r' (List.mem_append_right _ h) hi

/-- **C128, again**: removing nested rules a second time changes nothing. -/
theorem C128_again {m : Nat} {ra : List Box} (hlen : ∀ r ∈ ra, r.length = m) : removeIn m (removeIn m ra) = removeIn m ra := by
  have := C128_parts (m := m) (ra := ra) (rb := []) (by simpa using hlen)
  simpa using this

/-- **C128, `remove_in_wsdp`**: a second call on its own result changes nothing. -/
theorem C128_wsdp_again {α : Type} {m : Nat} {ra : List Box} {sa : List ℚ} {wa : List α} (hs : sa.length = ra.length) (hw : wa.length = ra.length) :
    removeInWsdp m (removeInWsdp m ra sa wa).1 (removeInWsdp m ra sa wa).2.1 (removeInWsdp m ra sa wa).2.2 = removeInWsdp m ra sa wa := by
  obtain ⟨keep, hsub, h1, -, -, -, h2⟩ := C38_wsdp_partial () (m := m) (ra := ra) (sa := sa) (wa := List.replicate ra.length ()) hs (by simp)
  have hK : (removeInWsdp m ra sa wa).1 = keep.map fun j => ra.getD j [] := h1
  have hnd : keep.Nodup := hsub.nodup List.nodup_range
  have hnil : removeList m (removeInWsdp m ra sa wa).1 = [] := by
    rw [List.eq_nil_iff_forall_not_mem]
    intro j hj
    have hjl : j < (removeInWsdp m ra sa wa).1.length := by
      unfold removeList at hj
      simp only [List.mem_flatMap, List.mem_filter, List.mem_range] at hj
      obtain ⟨_, _, h, _⟩ := hj
      exact h
    obtain ⟨i, hi, hne, hincl⟩ := (mem_removeList hjl).1 hj
    rw [hK] at hjl hi hincl
    rw [List.length_map] at hjl hi
    simp only [List.getD_eq_getElem?_getD, List.getElem?_map, List.getElem?_eq_getElem hi, List.getElem?_eq_getElem hjl, Option.map_some,
      Option.getD_some] at hincl
    refine h2 keep[i] (List.getElem_mem _) keep[j] (List.getElem_mem _) (fun e => hne ((hnd.getElem_inj_iff).1 e)) ?_
    simpa only [List.getD_eq_getElem?_getD] using hincl
  have hdel : ∀ {β : Type} (l : List β), npDelete l [] = l := by
    intro β l
    unfold npDelete
    simp [List.zipIdx_map_fst]
  show (npDelete _ _, npDelete _ _, npDelete _ _) = _
  rw [hnil, hdel, hdel, hdel]

/-- `C128_order`, `C128_parts` and `C128_again` on three rules, one of them nested. -/
example : (∀ r ∈ ([[(0, 1)], [(0, 2)], [(3, 4)]] : List Box), r.length = 1) ∧ removeIn 1 [[(0, 1)], [(0, 2)], [(3, 4)]] = [[(0, 2)], [(3, 4)]] ∧
    removeIn 1 [[(3, 4)], [(0, 2)], [(0, 1)], [(0, 2)]] = [[(0, 2)], [(3, 4)]] := by decide +kernel

/-! ## Growing a rule -/

/-- What C128 asks of the growth of a rule (`find_union`): a second call with the same rules changes nothing. -/
def C128_grow_claim : Prop := ∀ (S : List Nat) (a : Rule) (l : List Rule), (∀ b ∈ l, ∀ k, (b k).1 ≤ (b k).2) →
  findUnion S (findUnion S a l) l = findUnion S a l

/-- and the order of the rules does not matter. -/
def C128_grow_order_claim : Prop := ∀ (S : List Nat) (a : Rule) (l l' : List Rule), (∀ b ∈ l, ∀ k, (b k).1 ≤ (b k).2) → l.Perm l' →
  findUnion S a l' = findUnion S a l

/-- The rectangle with the given sides in columns 0 and 1. -/
def rule2 (p q : ℚ × ℚ) : Rule := fun j => if j = 0 then p else q

/-- The unit square, a neighbour to the right that sticks out above, and the neighbour above. -/
def squareRules : List Rule := [rule2 (1, 2) (1/2, 3/2), rule2 (0, 1) (1, 2)]

/-- **C128 is false of the growth of a rule**, used by `compute_sdp_maxrules(algo2=True)`: a neighbour that does not fit is dropped for good, although it fits
after the next one was added. The first call ends with `[0, 1] x [0, 2]`; a second call, or the other order of the rules, gives `[0, 2] x [0, 2]`. -/
theorem C128_grow_false : ¬ C128_grow_claim ∧ ¬ C128_grow_order_claim := by
  have hp : ∀ b ∈ squareRules, ∀ k, (b k).1 ≤ (b k).2 := by
    intro b hb k
    simp only [squareRules, List.mem_cons, List.not_mem_nil, or_false] at hb
    rcases hb with rfl | rfl <;> unfold rule2 <;> split <;> norm_num
  constructor
  · intro h
    have := congrFun (h [0, 1] (rule2 (0, 1) (0, 1)) squareRules hp) 0
    revert this
    decide +kernel
  · intro h
    have := congrFun (h [0, 1] (rule2 (0, 1) (0, 1)) squareRules squareRules.reverse hp (List.reverse_perm _).symm) 0
    revert this
    decide +kernel

theorem C128_grow_values : (∀ j < 2, findUnion [0, 1] (rule2 (0, 1) (0, 1)) squareRules j = rule2 (0, 1) (0, 2) j) ∧
    ∀ j < 2, findUnion [0, 1] (rule2 (0, 1) (0, 1)) squareRules.reverse j = rule2 (0, 2) (0, 2) j := by decide +kernel

end Acv

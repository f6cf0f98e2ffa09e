import Verif.Model.Counterfactual
import Verif.Spec.Counterfactual
import Verif.Props.MaxRule
import Verif.Props.Nested
import Verif.Props.GlobalRules
import Verif.Props.Cdp

namespace Acv

/-! ## Sampling -/

theorem mem_possible {N : Nat} {data : Nat → Row} {cond : Rule} {s : Nat} {v : ℚ} :
    v ∈ possible N data cond s ↔ ∃ i < N, data i s = v ∧ (cond s).1 ≤ v ∧ v ≤ (cond s).2 := by
  unfold possible
  simp only [List.mem_map, List.mem_filter, List.mem_range, Bool.and_eq_true, decide_eq_true_eq]
  constructor
  · rintro ⟨i, ⟨hi, h1, h2⟩, rfl⟩
    exact ⟨i, hi, rfl, h1, h2⟩
  · rintro ⟨i, hi, rfl, h1, h2⟩
    exact ⟨i, ⟨hi, h1, h2⟩, rfl⟩

theorem possible_nil {N : Nat} {data : Nat → Row} {cond : Rule} {s : Nat} :
    possible N data cond s = [] ↔ ∀ i < N, ¬ ((cond s).1 ≤ data i s ∧ data i s ≤ (cond s).2) := by
  rw [List.eq_nil_iff_forall_not_mem]
  simp only [mem_possible]
  constructor
  · exact fun h i hi hc => h _ ⟨i, hi, rfl, hc⟩
  · rintro h v ⟨i, hi, rfl, hc⟩
    exact h i hi hc

theorem newValue_draw (N : Nat) (data : Nat → Row) (cond : Rule) (s k : Nat) :
    NewValue N data cond s (if possible N data cond s = [] then (cond s).1 else pick (possible N data cond s) k) := by
  split
  · next h => exact Or.inr ⟨possible_nil.1 h, rfl⟩
  · next h => exact Or.inl (mem_possible.1 (pick_mem h k))

theorem genCand_aux (N : Nat) (data : Nat → Row) (cond : Rule) (draw : Nat → Nat) : ∀ (l : List (Nat × Nat)) (x : Row),
    (∀ j, j ∉ l.map Prod.fst → (l.foldl (fun c p => fun j =>
      if j = p.1 then (if possible N data cond p.1 = [] then (cond p.1).1 else pick (possible N data cond p.1) (draw p.2)) else c j) x) j =
        x j) ∧
    ∀ j ∈ l.map Prod.fst, NewValue N data cond j ((l.foldl (fun c p => fun j =>
      if j = p.1 then (if possible N data cond p.1 = [] then (cond p.1).1 else pick (possible N data cond p.1) (draw p.2)) else c j) x) j) := by
  intro l
  induction l with
  | nil => exact fun x => ⟨fun _ _ => rfl, by simp⟩
  | cons p l ih =>
    intro x
    rw [List.foldl_cons]
    obtain ⟨h1, h2⟩ := ih (fun j =>
      if j = p.1 then (if possible N data cond p.1 = [] then (cond p.1).1 else pick (possible N data cond p.1) (draw p.2)) else x j)
    constructor
    · intro j hj
      simp only [List.map_cons, List.mem_cons, not_or] at hj
      rw [h1 j hj.2, if_neg hj.1]
    · intro j hj
      by_cases hl : j ∈ l.map Prod.fst
      · exact h2 j hl
      · rw [h1 j hl]
        simp only [List.map_cons, List.mem_cons, hl, or_false] at hj
        subst hj
        rw [if_pos rfl]
        exact newValue_draw _ _ _ _ _

theorem genCand_sampleOf {N : Nat} {data : Nat → Row} {cond : Rule} {S : List Nat} {x c : Row} (hc : ∀ j, j ∉ S → c j = x j)
    (draw : Nat → Nat) : SampleOf N data cond S x (genCand N data cond S c draw) := by
  obtain ⟨h1, h2⟩ := genCand_aux N data cond draw S.zipIdx c
  have e : S.zipIdx.map Prod.fst = S := by simp
  rw [e] at h1 h2
  exact ⟨fun j hj => (h1 j hj).trans (hc j hj), h2⟩

theorem foldl_bestRow {score : Row → ℚ} : ∀ (cs : List Row) (c : Row),
    (cs.foldl (fun a b => if score a < score b then b else a) c ∈ c :: cs) ∧
    ∀ g ∈ c :: cs, score g ≤ score (cs.foldl (fun a b => if score a < score b then b else a) c) := by
  intro cs
  induction cs with
  | nil => intro c; simp
  | cons d cs ih =>
    intro c
    rw [List.foldl_cons]
    obtain ⟨h1, h2⟩ := ih (if score c < score d then d else c)
    constructor
    · rcases List.mem_cons.1 h1 with h | h
      · rw [h]
        split <;> simp
      · simp [h]
    · intro g hg
      have hh := h2 (if score c < score d then d else c) (by simp)
      rcases List.mem_cons.1 hg with rfl | hg
      · refine le_trans ?_ hh
        split
        · next h => exact le_of_lt h
        · exact le_rfl
      · rcases List.mem_cons.1 hg with rfl | hg
        · refine le_trans ?_ hh
          split
          · exact le_rfl
          · next h => exact not_lt.1 h
        · exact h2 g (by simp [hg])

theorem bestRow_spec {score : Row → ℚ} {l : List Row} {c : Row} (h : bestRow score l = some c) :
    c ∈ l ∧ ∀ g ∈ l, score g ≤ score c := by
  cases l with
  | nil => cases h
  | cons a l =>
    obtain rfl := Option.some.inj h
    exact foldl_bestRow l a

/-- The state of the loop: the current row and the best row are good, the score of the best row is the reported one and the
largest so far. -/
structure SampleOk (score : Row → ℚ) (Good : Row → Prop) (s : Sample) : Prop where
  curr : Good s.curr
  seen : ∀ c ∈ s.seen, Good c
  eval : s.bestEval = score s.best
  mem : s.best ∈ s.seen
  top : ∀ c ∈ s.seen, score c ≤ s.bestEval

theorem sampleLoop_ok {score : Row → ℚ} {Good : Row → Prop} {gen : Nat → Row → Option (List Row)}
    (hgen : ∀ i c r, Good c → gen i c = some r → ∀ g ∈ r, Good g) (accept : Nat → Bool) (maxConv : Nat) :
    ∀ k i s s', SampleOk score Good s → sampleLoop score gen accept maxConv k i s = some s' → SampleOk score Good s' := by
  intro k
  induction k with
  | zero =>
    intro i s s' h he
    cases he
    exact h
  | succ k ih =>
    intro i s s' h he
    unfold sampleLoop at he
    cases hg : gen i s.curr with
    | none => rw [hg] at he; cases he
    | some cands =>
      rw [hg] at he
      simp only at he
      cases hb : bestRow score cands with
      | none => rw [hb] at he; cases he
      | some cand =>
        rw [hb] at he
        simp only at he
        obtain ⟨hm, ht⟩ := bestRow_spec hb
        have hall := hgen i s.curr cands h.curr hg
        have hseen : ∀ c ∈ s.seen ++ cands, Good c := by
          intro c hc
          rcases List.mem_append.1 hc with hc | hc
          · exact h.seen c hc
          · exact hall c hc
        have key : ∀ t : Sample, t = (if s.bestEval < score cand then
            { s with seen := s.seen ++ cands, best := cand, bestEval := score cand, move := 0 }
          else { s with seen := s.seen ++ cands, move := s.move + 1 }) → SampleOk score Good t := by
          intro t htt
          by_cases hlt : s.bestEval < score cand
          · rw [if_pos hlt] at htt
            subst htt
            refine ⟨h.curr, hseen, rfl, by simp [hm], ?_⟩
            intro c hc
            rcases List.mem_append.1 hc with hc | hc
            · exact le_trans (h.top c hc) (le_of_lt hlt)
            · exact ht c hc
          · rw [if_neg hlt] at htt
            subst htt
            refine ⟨h.curr, hseen, h.eval, by simp [h.mem], ?_⟩
            intro c hc
            rcases List.mem_append.1 hc with hc | hc
            · exact h.top c hc
            · exact le_trans (ht c hc) (not_lt.1 hlt)
        generalize htdef : (if s.bestEval < score cand then
            ({ s with seen := s.seen ++ cands, best := cand, bestEval := score cand, move := 0 } : Sample)
          else { s with seen := s.seen ++ cands, move := s.move + 1 }) = t at he
        have ht1 := key t htdef.symm
        by_cases hc : 0 < t.bestEval ∧ maxConv < t.move
        · rw [if_pos hc] at he
          cases he
          exact ht1
        · rw [if_neg hc] at he
          refine ih (i + 1) _ s' ?_ he
          split
          · exact ⟨hall _ hm, ht1.seen, ht1.eval, ht1.mem, ht1.top⟩
          · exact ht1

theorem sampleLoop_some {score : Row → ℚ} {Good : Row → Prop} {gen : Nat → Row → Option (List Row)}
    (hgen : ∀ i c, Good c → ∃ r, gen i c = some r ∧ r ≠ [] ∧ ∀ g ∈ r, Good g) (accept : Nat → Bool) (maxConv : Nat) :
    ∀ k i s, Good s.curr → ∃ s', sampleLoop score gen accept maxConv k i s = some s' := by
  intro k
  induction k with
  | zero => exact fun i s _ => ⟨s, rfl⟩
  | succ k ih =>
    intro i s h
    obtain ⟨r, hr, hne, hall⟩ := hgen i s.curr h
    cases r with
    | nil => exact absurd rfl hne
    | cons a l =>
      obtain ⟨hm, -⟩ := bestRow_spec (score := score) (l := a :: l) rfl
      unfold sampleLoop
      rw [hr]
      simp only [bestRow]
      split
      all_goals split
      all_goals first
        | exact ⟨_, rfl⟩
        | (apply ih
           split
           · exact hall _ hm
           · exact h)

theorem mapM_get_some {α β : Type} {f : α → Option β} : ∀ {l : List α} {r : List β}, l.mapM f = some r →
    r.length = l.length ∧ ∀ (i : Nat) (a : α), l[i]? = some a → f a = r[i]?
  | [], r, h => by
    simp only [List.mapM_nil, Option.pure_def, Option.some.injEq] at h
    subst h
    exact ⟨rfl, fun i a h => by simp at h⟩
  | x :: l, r, h => by
    rw [List.mapM_cons] at h
    rcases hx : f x with _ | y
    · rw [hx] at h; simp at h
    · rcases hl : l.mapM f with _ | ys
      · rw [hx, hl] at h; simp at h
      · rw [hx, hl] at h
        simp only [Option.bind_eq_bind, Option.bind_some, Option.pure_def, Option.some.injEq] at h
        subst h
        obtain ⟨h1, h2⟩ := mapM_get_some hl
        refine ⟨by simp [h1], ?_⟩
        intro i a hi
        cases i with
        | zero => simp only [List.getElem?_cons_zero, Option.some.injEq] at hi ⊢; rw [← hi, hx]
        | succ i => simp only [List.getElem?_cons_succ] at hi ⊢; exact h2 i a hi

theorem mapM_mem {α β : Type} {f : α → Option β} : ∀ {l : List α} {r : List β}, l.mapM f = some r →
    ∀ b ∈ r, ∃ a ∈ l, f a = some b := by
  intro l
  induction l with
  | nil =>
    intro r h
    rw [List.mapM_nil] at h
    cases h
    simp
  | cons a l ih =>
    intro r h b hb
    rw [List.mapM_cons] at h
    cases hf : f a with
    | none => rw [hf] at h; cases h
    | some c =>
      cases hl : l.mapM f with
      | none => rw [hf, hl] at h; cases h
      | some cs =>
        rw [hf, hl] at h
        obtain rfl : c :: cs = r := Option.some.inj h
        rcases List.mem_cons.1 hb with rfl | hb
        · exact ⟨a, by simp, hf⟩
        · obtain ⟨a', ha', h'⟩ := ih hl b hb
          exact ⟨a', by simp [ha'], h'⟩

/-! ## `np.argmax` -/

theorem argmaxNan_lt {l : List (Option ℚ)} (h : l ≠ []) : argmaxNan l < l.length := by
  unfold argmaxNan
  split
  · next h => exact h
  · next hn =>
    rw [List.idxOf_lt_length_iff] at hn ⊢
    obtain ⟨v, hv, hmem, -⟩ := npMax_spec l h fun o ho e => hn (e ▸ ho)
    rw [hv]
    exact hmem

theorem argmaxNan_nan {l : List (Option ℚ)} (h : none ∈ l) : l.getD (argmaxNan l) (some 0) = none := by
  have hlt := List.idxOf_lt_length_iff.2 h
  unfold argmaxNan
  rw [if_pos hlt, List.getD_eq_getElem?_getD, List.getElem?_eq_getElem hlt, Option.getD_some]
  exact List.getElem_idxOf hlt

theorem argmaxNan_max {l : List (Option ℚ)} (hne : l ≠ []) (h : none ∉ l) :
    ∃ v, l.getD (argmaxNan l) none = some v ∧ ∀ b, some b ∈ l → b ≤ v := by
  obtain ⟨v, hv, hmem, hmax⟩ := npMax_spec l hne fun o ho e => h (e ▸ ho)
  refine ⟨v, ?_, hmax⟩
  unfold argmaxNan
  rw [if_neg (fun hc => h (List.idxOf_lt_length_iff.1 hc)), hv]
  have hlt := List.idxOf_lt_length_iff.2 hmem
  rw [List.getD_eq_getElem?_getD, List.getElem?_eq_getElem hlt, Option.getD_some]
  exact List.getElem_idxOf hlt

theorem argmaxQ_spec {α : Type} {f : α → ℚ} {l : List α} (hne : l ≠ []) (d : α) :
    l.getD (argmaxQ (l.map f)) d ∈ l ∧ ∀ a ∈ l, f a ≤ f (l.getD (argmaxQ (l.map f)) d) := by
  unfold argmaxQ
  rw [List.map_map]
  have hne' : l.map (some ∘ f) ≠ [] := by simpa using hne
  have hlt := argmaxNan_lt hne'
  rw [List.length_map] at hlt
  obtain ⟨v, hv, hmax⟩ := argmaxNan_max hne' (by simp)
  generalize argmaxNan (l.map (some ∘ f)) = k at hlt hv
  rw [List.getD_eq_getElem?_getD, List.getElem?_eq_getElem hlt, Option.getD_some]
  rw [List.getD_eq_getElem?_getD, List.getElem?_map, List.getElem?_eq_getElem hlt] at hv
  have hv' : f l[k] = v := by simpa using hv
  refine ⟨List.getElem_mem hlt, fun a ha => ?_⟩
  rw [hv']
  exact hmax _ (List.mem_map.2 ⟨a, ha, rfl⟩)

/-! ## Rounding -/

theorem roundCents_near (v : ℚ) : |roundCents v - v| ≤ 1/200 := by
  unfold roundCents
  have h1 := Int.floor_le (v * 100)
  have h2 := Int.lt_floor_add_one (v * 100)
  rw [abs_le]
  simp only
  split
  · constructor <;> linarith
  · split
    · push_cast
      constructor <;> linarith
    · split
      · constructor <;> linarith
      · push_cast
        constructor <;> linarith

theorem roundCents_mono {a b : ℚ} (h : a ≤ b) : roundCents a ≤ roundCents b := by
  have hk : ⌊a * 100⌋ ≤ ⌊b * 100⌋ := Int.floor_le_floor (by linarith)
  have key : ∀ v : ℚ, roundCents v * 100 = ((if v * 100 - ⌊v * 100⌋ < 1/2 then ⌊v * 100⌋ else if 1/2 < v * 100 - ⌊v * 100⌋ then
      ⌊v * 100⌋ + 1 else if ⌊v * 100⌋ % 2 = 0 then ⌊v * 100⌋ else ⌊v * 100⌋ + 1 : Int) : ℚ) := by
    intro v
    unfold roundCents
    simp only
    rw [div_mul_cancel₀]
    norm_num
  have : roundCents a * 100 ≤ roundCents b * 100 := by
    rw [key, key]
    apply Int.cast_le.2
    rcases lt_or_eq_of_le hk with hlt | he
    · have hA : (if a * 100 - ⌊a * 100⌋ < 1/2 then ⌊a * 100⌋ else if 1/2 < a * 100 - ⌊a * 100⌋ then
          ⌊a * 100⌋ + 1 else if ⌊a * 100⌋ % 2 = 0 then ⌊a * 100⌋ else ⌊a * 100⌋ + 1 : Int) ≤ ⌊a * 100⌋ + 1 := by
        split_ifs <;> omega
      have hB : ⌊b * 100⌋ ≤ (if b * 100 - ⌊b * 100⌋ < 1/2 then ⌊b * 100⌋ else if 1/2 < b * 100 - ⌊b * 100⌋ then
          ⌊b * 100⌋ + 1 else if ⌊b * 100⌋ % 2 = 0 then ⌊b * 100⌋ else ⌊b * 100⌋ + 1 : Int) := by
        split_ifs <;> omega
      omega
    · rw [← he]
      have hle : a * 100 - (⌊a * 100⌋ : ℚ) ≤ b * 100 - (⌊a * 100⌋ : ℚ) := by linarith
      generalize a * 100 - (⌊a * 100⌋ : ℚ) = p at hle ⊢
      generalize b * 100 - (⌊a * 100⌋ : ℚ) = q at hle ⊢
      split_ifs <;> first | omega | (exfalso; linarith)
  linarith

theorem ruleOf_roundBox (b : Box) (s : Nat) (h : s < b.length) :
    ruleOf (roundBox b) s = (roundCents (ruleOf b s).1, roundCents (ruleOf b s).2) := by
  unfold ruleOf roundBox
  simp [List.getD_eq_getElem?_getD, List.getElem?_map, List.getElem?_eq_getElem h]

theorem ruleOf_boxOf {m : Nat} (r : Rule) {s : Nat} (h : s < m) : ruleOf (boxOf m r) s = r s := by
  unfold ruleOf boxOf
  simp [List.getD_eq_getElem?_getD, List.getElem?_map, h]

@[simp] theorem boxOf_length (m : Nat) (r : Rule) : (boxOf m r).length = m := by simp [boxOf]

theorem inBoxM_iff {m : Nat} {b : Box} {z : Row} : InBoxM m b z ↔ InClosed m (ruleOf b) z := Iff.rfl

/-! ## Annealing of the leaves -/

theorem mem_crLeft {rule : Rule} {others : List Rule} {j : Nat} {v : ℚ} :
    v ∈ crLeft rule others j ↔ (∃ r ∈ others, (r j).1 = v ∧ v < (rule j).1) ∨ v = (rule j).1 := by
  unfold crLeft
  simp only [List.mem_dedup, List.mem_append, List.mem_filter, List.mem_map, decide_eq_true_eq, List.mem_singleton]
  constructor
  · rintro (⟨⟨r, hr, h⟩, hlt⟩ | h)
    · exact Or.inl ⟨r, hr, h, hlt⟩
    · exact Or.inr h
  · rintro (⟨r, hr, h, hlt⟩ | h)
    · exact Or.inl ⟨⟨r, hr, h⟩, hlt⟩
    · exact Or.inr h

theorem mem_crRight {rule : Rule} {others : List Rule} {j : Nat} {v : ℚ} :
    v ∈ crRight rule others j ↔ (∃ r ∈ others, (r j).2 = v ∧ (rule j).2 < v) ∨ v = (rule j).2 := by
  unfold crRight
  simp only [List.mem_dedup, List.mem_append, List.mem_filter, List.mem_map, decide_eq_true_eq, List.mem_singleton]
  constructor
  · rintro (⟨⟨r, hr, h⟩, hlt⟩ | h)
    · exact Or.inl ⟨r, hr, h, hlt⟩
    · exact Or.inr h
  · rintro (⟨r, hr, h, hlt⟩ | h)
    · exact Or.inl ⟨⟨r, hr, h⟩, hlt⟩
    · exact Or.inr h

theorem crBnd_self {m : Nat} {rule : Rule} {others : List Rule} : Bnd m (crLeft rule others) (crRight rule others) rule :=
  fun _ _ => ⟨mem_crLeft.2 (Or.inr rfl), mem_crRight.2 (Or.inr rfl)⟩

theorem crBnd_le {m : Nat} {rule c : Rule} {others : List Rule} (h : Bnd m (crLeft rule others) (crRight rule others) c) :
    RuleLe m rule c := by
  intro j hj
  obtain ⟨h1, h2⟩ := h j hj
  constructor
  · rcases mem_crLeft.1 h1 with ⟨_, _, _, hlt⟩ | he
    · exact le_of_lt hlt
    · exact le_of_eq he
  · rcases mem_crRight.1 h2 with ⟨_, _, _, hlt⟩ | he
    · exact le_of_lt hlt
    · exact le_of_eq he.symm

theorem crBad_iff {m : Nat} {data : Nat → Row} {rule : Rule} {others : List Rule} {i : Nat} :
    crBad m data rule others i = true ↔ ¬ InClosed m rule (data i) ∧ ∀ r ∈ others, ¬ InClosed m r (data i) := by
  unfold crBad
  simp only [Bool.not_eq_true', Bool.or_eq_false_iff, List.any_eq_false, ← inClosedB_iff, Bool.not_eq_true]

end Acv

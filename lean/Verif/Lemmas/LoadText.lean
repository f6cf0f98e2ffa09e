import Verif.Spec.LoadText
import Verif.Props.LoadJson

/-!
# Splitting texts
-/

namespace Acv

theorem splitGo_append {c : Char} {r : List Char} (b : List Char) : ∀ (a cur : List Char), c ∉ a →
    splitGo (c :: r) (a ++ b) 0 cur = splitGo (c :: r) b 0 (a.reverse ++ cur)
  | [], cur, _ => rfl
  | x :: a, cur, h => by
    simp only [List.mem_cons, not_or] at h
    have : (c :: r).isPrefixOf (x :: (a ++ b)) = false := by
      simp [List.isPrefixOf, h.1]
    simp only [List.cons_append, splitGo, this]
    rw [if_neg (by decide), splitGo_append b a (x :: cur) h.2]
    simp

theorem splitGo_skip (sep b cur : List Char) : ∀ u : List Char, splitGo sep (u ++ b) u.length cur = splitGo sep b 0 cur
  | [] => by simp
  | x :: u => by simpa [splitGo] using splitGo_skip sep b cur u

theorem isPrefixOf_append (a b : List Char) : a.isPrefixOf (a ++ b) = true := by
  rw [List.isPrefixOf_iff_prefix]; exact List.prefix_append ..

theorem splitGo_sep (c : Char) (r b cur : List Char) : splitGo (c :: r) ((c :: r) ++ b) 0 cur = cur.reverse :: splitGo (c :: r) b 0 [] := by
  have h := isPrefixOf_append (c :: r) b
  simp only [List.cons_append] at h
  simp only [List.cons_append, splitGo, h, if_true, List.length_cons, Nat.add_sub_cancel]
  rw [splitGo_skip]

theorem splitGo_head (sep : List Char) : ∀ (s : List Char) (k : Nat) (cur : List Char), ∃ h t, splitGo sep s k cur = (cur.reverse ++ h) :: t
  | [], _, cur => ⟨[], [], by simp [splitGo]⟩
  | _ :: s, k + 1, cur => splitGo_head sep s k cur
  | c :: s, 0, cur => by
    unfold splitGo
    split
    · exact ⟨[], _, by simp; rfl⟩
    · obtain ⟨h, t, e⟩ := splitGo_head sep s 0 (c :: cur)
      exact ⟨c :: h, t, by rw [e]; simp⟩

/-- A text without the first character of the separator is one piece. -/
theorem pySplit_none {c : Char} {r s : List Char} (h : c ∉ s) : pySplit (c :: r) s = [s] := by
  have := splitGo_append (r := r) [] s [] h
  simp only [List.append_nil] at this
  rw [pySplit, this]
  simp [splitGo]

/-- The piece before a separator. -/
theorem pySplit_sep {c : Char} {r a : List Char} (b : List Char) (h : c ∉ a) : pySplit (c :: r) (a ++ (c :: r) ++ b) = a :: pySplit (c :: r) b := by
  rw [pySplit, List.append_assoc, splitGo_append _ _ _ h, splitGo_sep]
  simp [pySplit]

theorem pySplit_head {c : Char} {r d : List Char} (b : List Char) (h : c ∉ d) : ∃ u t, pySplit (c :: r) (d ++ b) = (d ++ u) :: t := by
  rw [pySplit, splitGo_append _ _ _ h]
  obtain ⟨u, t, e⟩ := splitGo_head (c :: r) b 0 (d.reverse ++ [])
  exact ⟨u, t, by rw [e]; simp⟩

/-- The field after a key, up to the comma. -/
theorem field_comma {c : Char} {r a d : List Char} (rest : List Char) (ha : c ∉ a) (hd : c ∉ d) (hc : c ≠ ',') (hk : ',' ∉ d) :
    ∃ p, (pySplit (c :: r) (a ++ (c :: r) ++ (d ++ ',' :: rest)))[1]? = some p ∧ (pySplit [','] p)[0]? = some d := by
  rw [pySplit_sep _ ha]
  obtain ⟨u, t, e⟩ := pySplit_head (c := c) (r := r) (d := d ++ [',']) rest (by simp [hd, hc])
  refine ⟨(d ++ [',']) ++ u, ?_, ?_⟩
  · rw [show d ++ ',' :: rest = (d ++ [',']) ++ rest by simp, e]
    rfl
  · rw [pySplit_sep _ hk]
    rfl

/-- The field after a key, at the end of the text. -/
theorem field_end {c : Char} {r a d : List Char} (ha : c ∉ a) (hd : c ∉ d) (hk : ',' ∉ d) :
    (pySplit (c :: r) (a ++ (c :: r) ++ d))[1]? = some d ∧ (pySplit [','] d)[0]? = some d := by
  rw [pySplit_sep _ ha, pySplit_none hd, pySplit_none hk]
  exact ⟨rfl, rfl⟩

theorem pyIn_none {c : Char} {r : List Char} : ∀ {s : List Char}, c ∉ s → pyIn (c :: r) s = false
  | [], _ => rfl
  | x :: s, h => by
    simp only [List.mem_cons, not_or] at h
    simp [pyIn, List.isPrefixOf, h.1, pyIn_none h.2]

theorem pyIn_one {c : Char} : ∀ {s : List Char}, c ∈ s → pyIn [c] s = true
  | x :: s, h => by
    rcases List.mem_cons.1 h with rfl | h
    · simp [pyIn, List.isPrefixOf]
    · simp [pyIn, pyIn_one h]

/-! ### Numbers -/

theorem num_digit {n : Nat} {c : Char} (h : c ∈ num n) : c.isDigit = true := Nat.isDigit_of_mem_toDigits (by decide) (by decide) h

theorem num_not {n : Nat} {c : Char} (h : c.isDigit = false) : c ∉ num n := fun hm => by rw [num_digit hm] at h; cases h

theorem digit_not_white {c : Char} (h : c.isDigit = true) : c.isWhitespace = false := by
  simp only [Char.isWhitespace]
  by_contra hc
  simp only [Bool.not_eq_false, Bool.or_eq_true, beq_iff_eq, decide_eq_true_eq] at hc
  rcases hc with ((rfl | rfl) | rfl) | rfl <;> revert h <;> decide

theorem lstrip_num (n : Nat) (s : List Char) : lstrip (num n ++ s) = num n ++ s := by
  have hne : num n ≠ [] := Nat.toDigits_ne_nil
  obtain ⟨c, r, e⟩ := List.exists_cons_of_ne_nil hne
  have : c.isWhitespace = false := digit_not_white (num_digit (n := n) (by rw [e]; simp))
  simp [e, lstrip, this]

theorem lstrip_tabs (d : Nat) (s : List Char) : lstrip (List.replicate d '\t' ++ s) = lstrip s := by
  induction d with
  | zero => simp
  | succ d ih => rw [List.replicate_succ, List.cons_append, lstrip, List.dropWhile_cons_of_pos (by decide)]; exact ih

theorem pyInt_num (n : Nat) : pyInt (num n) = some n := by
  have h1 : lstrip (num n) = num n := by simpa using lstrip_num n []
  have h2 : lstrip (num n).reverse = (num n).reverse := by
    have hne : (num n).reverse ≠ [] := by simp [num, Nat.toDigits_ne_nil]
    obtain ⟨c, r, e⟩ := List.exists_cons_of_ne_nil hne
    have : c.isWhitespace = false := digit_not_white (num_digit (n := n) (by rw [← List.mem_reverse, e]; simp))
    simp [e, lstrip, this]
  unfold pyInt
  simp only [h1, h2, List.reverse_reverse]
  rw [if_pos ⟨Nat.toDigits_ne_nil, List.all_eq_true.2 fun c hc => num_digit hc⟩]
  exact congrArg some Nat.ofDigitChars_ten_toDigits

theorem IsNumber.not {s : List Char} (h : IsNumber s) {c : Char}
    (hc : c ∉ ['0', '1', '2', '3', '4', '5', '6', '7', '8', '9', '.', 'e', '+', '-']) : c ∉ s := fun hm => hc (h c hm)

/-! ### Lines and the dictionary -/

theorem split_lines : ∀ (l : List Char) (ls : List (List Char)), (∀ x ∈ l :: ls, '\n' ∉ x) →
    pySplit ['\n'] (((l :: ls).flatMap (· ++ ['\n'])).dropLast) = l :: ls
  | l, [], h => by
    have : (([l] : List (List Char)).flatMap (· ++ ['\n'])).dropLast = l := by simp
    rw [this, pySplit_none (h l (by simp))]
  | l, m :: ls, h => by
    have h1 : ((l :: m :: ls).flatMap (· ++ ['\n'])).dropLast = l ++ ['\n'] ++ (((m :: ls).flatMap (· ++ ['\n'])).dropLast) := by
      rw [List.flatMap_cons, List.dropLast_append_of_ne_nil]
      simp
    rw [h1, pySplit_sep _ (h l (by simp)), split_lines m ls fun x hx => h x (by simp [List.mem_cons] at hx ⊢; tauto)]

theorem dictPut_fresh {key : Nat} {v : List Char} : ∀ {d : List (Nat × List Char)}, key ∉ d.map (·.1) → dictPut key v d = d ++ [(key, v)]
  | [], _ => rfl
  | p :: d, h => by
    simp only [List.map_cons, List.mem_cons, not_or] at h
    simp [dictPut, Ne.symm h.1, dictPut_fresh h.2]

theorem dictLine_eq (d : List (Nat × List Char)) (i : Nat) {v : List Char} (hv : ':' ∉ v) :
    dictLine d (num i ++ [':'] ++ v) = some (dictPut i v d) := by
  unfold dictLine
  rw [pySplit_sep _ (num_not (by decide)), pySplit_none hv]
  simp [pyInt_num]

end Acv

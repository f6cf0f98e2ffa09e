import Verif.Model.Rounded
import Verif.Spec.Rounded
import Verif.Lemmas.Parallel
import Verif.Props.ParallelMachine
import Verif.Props.CombDouble
import Verif.Lemmas.LeafShap
import Verif.Lemmas.ActiveShap
import Mathlib.Tactic.GCongr
import Mathlib.Tactic.Positivity

/-!
# Rounding errors: calculus and closed forms
-/

namespace Acv

/-- `y` is a computed value of `x`: `x` is at most `a` in size and `y` is `x` up to `e` roundings of numbers of size `a`. -/
def Approx (u : ℚ) (e : Nat) (a x y : ℚ) : Prop := |x| ≤ a ∧ |y - x| ≤ ((1 + u) ^ e - 1) * a

theorem one_le_pow_u {u : ℚ} (hu : 0 ≤ u) (e : Nat) : 1 ≤ (1 + u) ^ e := one_le_pow₀ (by linarith)

theorem Approx.exact {u : ℚ} (hu : 0 ≤ u) (e : Nat) {a x : ℚ} (h : |x| ≤ a) : Approx u e a x x := by
  refine ⟨h, ?_⟩
  rw [sub_self, abs_zero]
  exact mul_nonneg (by linarith [one_le_pow_u hu e]) (le_trans (abs_nonneg _) h)

theorem Approx.mono {u : ℚ} (hu : 0 ≤ u) {e e' : Nat} {a a' x y : ℚ} (h : Approx u e a x y) (he : e ≤ e') (ha : a ≤ a') : Approx u e' a' x y := by
  have h0 : 0 ≤ a := le_trans (abs_nonneg _) h.1
  refine ⟨le_trans h.1 ha, le_trans h.2 ?_⟩
  have h1 : (1 + u) ^ e ≤ (1 + u) ^ e' := pow_le_pow_right₀ (by linarith) he
  have h2 := one_le_pow_u hu e
  exact mul_le_mul (by linarith) ha h0 (by linarith)

theorem Approx.rnd {u : ℚ} {rnd : ℚ → ℚ} (hr : RelErr rnd u) (hu : 0 ≤ u) {e : Nat} {a x y : ℚ} (h : Approx u e a x y) :
    Approx u (e + 1) a x (rnd y) := by
  refine ⟨h.1, ?_⟩
  have h1 := hr y
  have h2 : |y| ≤ (1 + u) ^ e * a := by
    have : |y| ≤ |y - x| + |x| := by
      calc |y| = |(y - x) + x| := by ring_nf
        _ ≤ _ := abs_add_le _ _
    have := h.1
    have := h.2
    linarith
  have h3 : |rnd y - x| ≤ |rnd y - y| + |y - x| := by
    calc |rnd y - x| = |(rnd y - y) + (y - x)| := by ring_nf
      _ ≤ _ := abs_add_le _ _
  have h4 : u * |y| ≤ u * ((1 + u) ^ e * a) := mul_le_mul_of_nonneg_left h2 hu
  have h5 := h.2
  rw [pow_succ]
  linarith

theorem Approx.add {u : ℚ} {e : Nat} {a b x x' y y' : ℚ} (h : Approx u e a x y) (h' : Approx u e b x' y') :
    Approx u e (a + b) (x + x') (y + y') := by
  refine ⟨le_trans (abs_add_le _ _) (add_le_add h.1 h'.1), ?_⟩
  have e1 : y + y' - (x + x') = (y - x) + (y' - x') := by ring
  rw [e1, mul_add]
  exact le_trans (abs_add_le _ _) (add_le_add h.2 h'.2)

theorem Approx.neg {u : ℚ} {e : Nat} {a x y : ℚ} (h : Approx u e a x y) : Approx u e a (-x) (-y) := by
  refine ⟨by rw [abs_neg]; exact h.1, ?_⟩
  have e1 : -y - -x = -(y - x) := by ring
  rw [e1, abs_neg]
  exact h.2

theorem Approx.sub {u : ℚ} {e : Nat} {a b x x' y y' : ℚ} (h : Approx u e a x y) (h' : Approx u e b x' y') :
    Approx u e (a + b) (x - x') (y - y') := by
  rw [sub_eq_add_neg, sub_eq_add_neg]
  exact h.add h'.neg

theorem Approx.mul {u : ℚ} (hu : 0 ≤ u) {e e' : Nat} {a b x x' y y' : ℚ} (h : Approx u e a x y) (h' : Approx u e' b x' y') :
    Approx u (e + e') (a * b) (x * x') (y * y') := by
  have ha : 0 ≤ a := le_trans (abs_nonneg _) h.1
  have hb : 0 ≤ b := le_trans (abs_nonneg _) h'.1
  refine ⟨by rw [abs_mul]; exact mul_le_mul h.1 h'.1 (abs_nonneg _) ha, ?_⟩
  have hy : |y| ≤ (1 + u) ^ e * a := by
    have : |y| ≤ |y - x| + |x| := by
      calc |y| = |(y - x) + x| := by ring_nf
        _ ≤ _ := abs_add_le _ _
    have := h.1
    have := h.2
    linarith
  have e1 : y * y' - x * x' = y * (y' - x') + (y - x) * x' := by ring
  rw [e1]
  refine le_trans (abs_add_le _ _) ?_
  rw [abs_mul, abs_mul]
  have h1 : |y| * |y' - x'| ≤ ((1 + u) ^ e * a) * (((1 + u) ^ e' - 1) * b) :=
    mul_le_mul hy h'.2 (abs_nonneg _) (mul_nonneg (by linarith [one_le_pow_u hu e]) ha)
  have h2 : |y - x| * |x'| ≤ (((1 + u) ^ e - 1) * a) * b :=
    mul_le_mul h.2 h'.1 (abs_nonneg _) (mul_nonneg (by linarith [one_le_pow_u hu e]) ha)
  rw [pow_add]
  nlinarith [h1, h2]

theorem Approx.divExact {u : ℚ} {e : Nat} {a x y c : ℚ} (hc : 0 < c) (h : Approx u e a x y) : Approx u e (a / c) (x / c) (y / c) := by
  refine ⟨by rw [abs_div, abs_of_pos hc]; gcongr; exact h.1, ?_⟩
  rw [← sub_div, abs_div, abs_of_pos hc, ← mul_div_assoc]
  gcongr
  exact h.2

/-- Accumulation of computed values. -/
theorem Approx.foldl {u : ℚ} {rnd : ℚ → ℚ} (hr : RelErr rnd u) (hu : 0 ≤ u) {β : Type} (A X Y : β → ℚ) :
    ∀ (l : List β) (e : Nat) (a0 x0 y0 : ℚ), Approx u e a0 x0 y0 → (∀ b ∈ l, Approx u e (A b) (X b) (Y b)) →
      Approx u (e + l.length) (a0 + (l.map A).sum) (x0 + (l.map X).sum) (l.foldl (fun p b => rnd (p + Y b)) y0)
  | [], e, a0, x0, y0, h, _ => by simpa using h
  | b :: l, e, a0, x0, y0, h, hl => by
    rw [List.foldl_cons]
    have h1 := Approx.foldl hr hu A X Y l (e + 1) (a0 + A b) (x0 + X b) (rnd (y0 + Y b)) ((h.add (hl b (by simp))).rnd hr hu)
      (fun b' hb' => (hl b' (by simp [hb'])).mono hu (by omega) (le_refl _))
    simp only [List.length_cons, List.map_cons, List.sum_cons, ← add_assoc]
    convert h1 using 1
    omega

/-- `(1 + u) ^ e - 1` is at most `2 e u` as long as `e u` is at most one half. -/
theorem pow_sub_one_le {u : ℚ} (hu : 0 ≤ u) (e : Nat) (he : e * u ≤ 1 / 2) : (1 + u) ^ e - 1 ≤ 2 * e * u := by
  have h1 : ∀ n : Nat, n ≤ e → (1 + u) ^ n * (1 - n * u) ≤ 1 := by
    intro n
    induction n with
    | zero => intro _; simp
    | succ n ih =>
      intro hn
      have ih := ih (by omega)
      have hn' : ((n + 1 : Nat) : ℚ) * u ≤ 1 / 2 := le_trans (mul_le_mul_of_nonneg_right (by exact_mod_cast hn) hu) he
      have hp := one_le_pow_u hu n
      push_cast at hn' ⊢
      rw [pow_succ]
      have : (1 + u) * (1 - (n + 1) * u) ≤ 1 - n * u := by nlinarith [mul_nonneg hu hu, Nat.cast_nonneg (α := ℚ) n]
      have h3 : (1 + u) ^ n * ((1 + u) * (1 - (n + 1) * u)) ≤ (1 + u) ^ n * (1 - n * u) := mul_le_mul_of_nonneg_left this (by linarith)
      linarith
  have h2 := h1 e (le_refl _)
  have hp := one_le_pow_u hu e
  have hx : 0 ≤ (e : ℚ) * u := mul_nonneg (Nat.cast_nonneg _) hu
  nlinarith

/-! ## Double precision -/

theorem roundEven_near (z : ℚ) : |(roundEven z : ℚ) - z| ≤ 1 / 2 := by
  unfold roundEven
  have h1 : ((z.floor : Int) : ℚ) ≤ z := Rat.floor_le z
  have h2 : z < ((z.floor : Int) : ℚ) + 1 := by
    have := Rat.lt_floor_add_one z
    exact_mod_cast this
  simp only
  rw [abs_le]
  split_ifs <;> push_cast <;> constructor <;> linarith

theorem toDouble_relErr {q : ℚ} (hq : 0 ≤ q) : |toDouble q - q| ≤ 1 / 2 ^ 53 * |q| := by
  unfold toDouble
  rcases hq.eq_or_lt with rfl | hpos
  · simp
  · rw [if_neg (by linarith)]
    set e := Int.log 2 q
    have hs : (0 : ℚ) < 2 ^ (e - 52) := zpow_pos (by norm_num) _
    have hle : (2 : ℚ) ^ e ≤ q := by
      have := Int.zpow_log_le_self (b := 2) (by norm_num) hpos
      exact_mod_cast this
    have h1 := roundEven_near (q / 2 ^ (e - 52))
    have h2 : (roundEven (q / 2 ^ (e - 52)) : ℚ) * 2 ^ (e - 52) - q = ((roundEven (q / 2 ^ (e - 52)) : ℚ) - q / 2 ^ (e - 52)) * 2 ^ (e - 52) := by
      rw [sub_mul, div_mul_cancel₀ _ hs.ne']
    rw [h2, abs_mul, abs_of_pos hs, abs_of_pos hpos]
    have h3 : (2 : ℚ) ^ (e - 52) = 2 ^ e * (1 / 2 ^ 52) := by
      rw [zpow_sub₀ (by norm_num), div_eq_mul_one_div]
      norm_num
    rw [h3] at h1 hs ⊢
    nlinarith

theorem roundDouble_relErr : RelErr roundDouble (1 / 2 ^ 53) := by
  intro q
  unfold roundDouble
  split
  · have h := toDouble_relErr (q := -q) (by linarith)
    rw [abs_neg] at h
    have e1 : - toDouble (-q) - q = -(toDouble (-q) - -q) := by ring
    rw [e1, abs_neg]
    exact h
  · exact toDouble_relErr (by linarith)

theorem roundDouble_keeps : KeepsIntegers roundDouble := by
  intro n hn
  unfold roundDouble
  rw [if_neg (by simp), toDouble_keeps n hn]

/-! ## What the routine leaves in its tables, for any arithmetic -/

section
variable {V : Type}

theorem solo_phiM (add : V → V → V) (z : V) (g : List Nat) (va leaf counter : Nat) (T : V → V → V) (mem : LCell → V) :
    let prog : List (Stmt LCell V) := g.map (fun j => ⟨.phi leaf counter j,
      [.phi leaf counter j, .lmS va leaf counter, .lmSi va leaf counter], fun l => add (l.getD 0 z) (T (l.getD 1 z) (l.getD 2 z))⟩)
    ∀ l c j, solo mem prog (.phi l c j) =
      if l = leaf ∧ c = counter then
        (List.replicate (g.count j) ()).foldl (fun p _ => add p (T (mem (.lmS va leaf counter)) (mem (.lmSi va leaf counter)))) (mem (.phi l c j))
      else mem (.phi l c j) := by
  induction g generalizing mem with
  | nil => simp [solo]
  | cons a g ih =>
    intro prog l c j
    simp only at ih
    show solo (Stmt.exec mem _) _ _ = _
    rw [ih]
    simp only [Stmt.exec, setCell, LCell.phi.injEq, reduceCtorEq, if_false, List.map_cons, List.map_nil,
      List.getD_cons_zero, List.getD_cons_succ]
    by_cases h : l = leaf ∧ c = counter
    · obtain ⟨rfl, rfl⟩ := h
      simp only [true_and, and_self, if_true, List.count_cons]
      by_cases hj : j = a
      · subst hj
        simp [List.replicate_succ]
      · rw [if_neg hj]; simp [Ne.symm hj]
    · rw [if_neg h, if_neg h, if_neg (fun hh => h ⟨hh.1, hh.2.1⟩)]

theorem solo_blocksM {β : Type} (add : V → V → V) (bs : List β) (prog : β → List (Stmt LCell V)) (w : β → V) (n : β → Nat) (key : β → Nat × Nat)
    (l c j : Nat) (h : ∀ b ∈ bs, ∀ mem, solo mem (prog b) (.phi l c j) = if l = (key b).1 ∧ c = (key b).2 then
      (List.replicate (n b) ()).foldl (fun p _ => add p (w b)) (mem (.phi l c j)) else mem (.phi l c j)) (mem : LCell → V) :
    solo mem (bs.flatMap prog) (.phi l c j) =
      (bs.flatMap fun b => if l = (key b).1 ∧ c = (key b).2 then List.replicate (n b) b else []).foldl (fun p b => add p (w b)) (mem (.phi l c j)) := by
  induction bs generalizing mem with
  | nil => simp [solo]
  | cons b bs ih =>
    rw [List.flatMap_cons, solo_append, ih (fun b' hb' => h b' (List.mem_cons_of_mem _ hb')), h b (by simp), List.flatMap_cons, List.foldl_append]
    congr 1
    split
    · generalize mem (.phi l c j) = p
      induction n b generalizing p with
      | zero => rfl
      | succ k ihk => rw [List.replicate_succ, List.replicate_succ, List.foldl_cons, List.foldl_cons, ihk]
    · rfl

theorem leafProgM_blocks {A : Machine V} {coef0 : Nat → Nat → V} {coef : Nat → Nat → Nat → V} {t : TreeArr} {value : Nat → V} {m : Nat} {data : List Row}
    {C : List (List Nat)} {x : Row} {leaf ℓ : Nat} (h : t.leafIdx[leaf]? = some ℓ) :
    leafProgM A coef0 coef t value m data C x leaf = (leafBlocks m C (leafPlayersCy m C (t.leafCols ℓ))).flatMap fun b =>
      leafCounterProgM A coef0 coef m data (t.leafRect ℓ) (value ℓ) x leaf b.2.1 b.1 ((leafPlayersCy m C (t.leafCols ℓ)).erase b.1) b.2.2 := by
  unfold leafProgM leafBlocks
  rw [h]
  simp only [List.flatMap_assoc]
  congr 1
  funext gv
  split
  · rw [List.flatMap_map]
  · rfl

end


/-! ## The routine with a rounding -/

theorem solo_countsRnd {rnd : ℚ → ℚ} (hk : KeepsIntegers rnd) (data : List Row) (r : Rect) (S g : List Nat) (va leaf counter : Nat) (mem : LCell → ℚ)
    (a b : Nat) (ha : mem (.lmS va leaf counter) = a) (hb : mem (.lmSi va leaf counter) = b) (ha' : a + data.length ≤ 2 ^ 53) (hb' : b + data.length ≤ 2 ^ 53) :
    let prog : List (Stmt LCell) := data.flatMap (fun z => if sat r S z then
      ⟨.lmS va leaf counter, [.lmS va leaf counter], fun l => rnd (l.headD (rnd (0 : Nat)) + rnd (1 : Nat))⟩ ::
        (if sat r g z then [⟨.lmSi va leaf counter, [.lmSi va leaf counter], fun l => rnd (l.headD (rnd (0 : Nat)) + rnd (1 : Nat))⟩] else []) else [])
    solo mem prog (.lmS va leaf counter) = ((a + cnt data r S : Nat) : ℚ) ∧
    solo mem prog (.lmSi va leaf counter) = ((b + (data.filter (fun z => sat r S z && sat r g z)).length : Nat) : ℚ) ∧
    ∀ l c j, solo mem prog (.phi l c j) = mem (.phi l c j) := by
  have h1 : rnd ((1 : Nat) : ℚ) = 1 := by rw [hk 1 (by norm_num)]; simp
  have hinc : ∀ n : Nat, n + 1 ≤ 2 ^ 53 → rnd ((n : ℚ) + 1) = ((n + 1 : Nat) : ℚ) := fun n hn => by
    rw [← hk (n + 1) hn]; push_cast; rfl
  induction data generalizing mem a b with
  | nil => simp [solo, cnt, ha, hb]
  | cons z data ih =>
    simp only [List.length_cons] at ha' hb'
    simp only [List.flatMap_cons, solo_append]
    simp only at ih
    by_cases hS : sat r S z
    · by_cases hg : sat r g z
      · rw [if_pos hS, if_pos hg]
        obtain ⟨A, B, c⟩ := ih (solo mem [⟨.lmS va leaf counter, [.lmS va leaf counter], fun l => rnd (l.headD (rnd (0 : Nat)) + rnd (1 : Nat))⟩,
          ⟨.lmSi va leaf counter, [.lmSi va leaf counter], fun l => rnd (l.headD (rnd (0 : Nat)) + rnd (1 : Nat))⟩]) (a + 1) (b + 1)
          (by rw [h1]; simp only [solo, List.foldl_cons, List.foldl_nil, Stmt.exec, setCell, List.map_cons, List.map_nil, List.headD_cons,
                reduceCtorEq, if_false, if_true, ha]; exact hinc a (by omega))
          (by rw [h1]; simp only [solo, List.foldl_cons, List.foldl_nil, Stmt.exec, setCell, List.map_cons, List.map_nil, List.headD_cons,
                reduceCtorEq, if_false, if_true, hb]; exact hinc b (by omega)) (by omega) (by omega)
        rw [A, B]
        refine ⟨?_, ?_, ?_⟩
        · simp [cnt, hS]; ring
        · simp [hS, hg]; ring
        · intro l c' j; rw [c]; simp [solo, Stmt.exec, setCell]
      · rw [if_pos hS, if_neg hg]
        obtain ⟨A, B, c⟩ := ih (solo mem [⟨.lmS va leaf counter, [.lmS va leaf counter], fun l => rnd (l.headD (rnd (0 : Nat)) + rnd (1 : Nat))⟩]) (a + 1) b
          (by rw [h1]; simp only [solo, List.foldl_cons, List.foldl_nil, Stmt.exec, setCell, List.map_cons, List.map_nil, List.headD_cons,
                if_true, ha]; exact hinc a (by omega))
          (by simp [solo, Stmt.exec, setCell, hb]) (by omega) (by omega)
        rw [A, B]
        refine ⟨?_, ?_, ?_⟩
        · simp [cnt, hS]; ring
        · simp [hS, hg]
        · intro l c' j; rw [c]; simp [solo, Stmt.exec, setCell]
    · rw [if_neg hS]
      obtain ⟨A, B, c⟩ := ih (solo mem []) a b (by simp [solo, ha]) (by simp [solo, hb]) (by omega) (by omega)
      rw [A, B]
      refine ⟨?_, ?_, ?_⟩
      · simp [cnt, hS]
      · simp [hS]
      · intro l c' j; rw [c]; simp [solo]

/-- What one player and one subset number add, with a rounding. -/
def termRnd (rnd : ℚ → ℚ) (m : Nat) (data : List Row) (r : Rect) (x : Row) (va : List Nat) (rest : List (List Nat)) (counter : Nat) (v : ℚ) : ℚ :=
  let sel := maskSel rest counter
  let S := sel.flatten
  let lm := cnt data r (List.range m)
  let lmS := cnt data r S
  let lmSi := (data.filter (fun z => sat r S z && sat r va z)).length
  let cs := if sat r S x then 1 else 0
  let csi := if sat r S x && sat r va x then 1 else 0
  let pS : ℚ := if S.length = 0 then rnd ((lm : ℚ) / data.length) else if (lmS : ℚ) ≠ 0 then rnd (((cs * lm : Nat) : ℚ) / lmS) else 0
  let pSi : ℚ := if (lmSi : ℚ) ≠ 0 then rnd (((csi * lm : Nat) : ℚ) / lmSi) else 0
  rnd (rnd (rnd (coefZeroRnd rnd m sel.length + coefLoopRnd rnd m rest.length sel.length) * rnd (pSi - pS)) * v)

theorem cnt_le (data : List Row) (r : Rect) (S : List Nat) : cnt data r S ≤ data.length := List.length_filter_le _ _

theorem solo_blockRnd {rnd : ℚ → ℚ} (hk : KeepsIntegers rnd) (m : Nat) (data : List Row) (hd : data.length ≤ 2 ^ 53) (r : Rect) (v : ℚ) (x : Row)
    (leaf va : Nat) (g : List Nat) (rest : List (List Nat)) (counter : Nat) (mem : LCell → ℚ) (l c j : Nat) :
    solo mem (leafCounterProgM (roundMachine rnd) (coefZeroRnd rnd) (coefLoopRnd rnd) m data r v x leaf va g rest counter) (.phi l c j) =
      if l = leaf ∧ c = counter then
        (List.replicate (g.count j) ()).foldl (fun p _ => rnd (p + termRnd rnd m data r x g rest counter v)) (mem (.phi l c j))
      else mem (.phi l c j) := by
  have k0 : rnd 0 = 0 := by have := hk 0 (by norm_num); simpa using this
  have k1 : rnd 1 = 1 := by have := hk 1 (by norm_num); simpa using this
  have kn : ∀ n : Nat, n ≤ data.length → rnd n = n := fun n hn => hk n (by omega)
  unfold leafCounterProgM
  simp only [solo_append]
  refine Eq.trans (solo_phiM (fun a b => rnd (a + b)) (rnd (0 : Nat)) g va leaf counter (fun a b =>
      rnd (rnd (rnd (coefZeroRnd rnd m (maskSel rest counter).length + coefLoopRnd rnd m rest.length (maskSel rest counter).length) *
        rnd ((if decide (b ≠ 0) then rnd (rnd (rnd ((if sat r (maskSel rest counter).flatten x && sat r g x then 1 else 0 : Nat) : ℚ) *
              rnd (cnt data r (List.range m))) / b) else rnd (0 : Nat)) -
          (if (maskSel rest counter).flatten.length = 0 then rnd (rnd (cnt data r (List.range m)) / rnd data.length)
            else if decide (a ≠ 0) then rnd (rnd (rnd ((if sat r (maskSel rest counter).flatten x then 1 else 0 : Nat) : ℚ) *
              rnd (cnt data r (List.range m))) / a) else rnd (0 : Nat)))) * v)) _ l c j) ?_
  obtain ⟨h1, h2, h3⟩ := solo_countsRnd hk data r (maskSel rest counter).flatten g va leaf counter
    (solo mem [⟨.lmS va leaf counter, [], fun _ => rnd (0 : Nat)⟩, ⟨.lmSi va leaf counter, [], fun _ => rnd (0 : Nat)⟩]) 0 0
    (by simp [solo, Stmt.exec, setCell, k0]) (by simp [solo, Stmt.exec, setCell, k0]) (by omega) (by omega)
  simp only [roundMachine]
  simp only [h1, h2, h3]
  have e3 : solo mem [⟨.lmS va leaf counter, [], fun _ => rnd (0 : Nat)⟩, ⟨.lmSi va leaf counter, [], fun _ => rnd (0 : Nat)⟩] (.phi l c j) =
      mem (.phi l c j) := by
    simp [solo, Stmt.exec, setCell]
  simp only [e3, zero_add]
  have hcs : ∀ (b : Bool), rnd (rnd ((if b then 1 else 0 : Nat) : ℚ) * (cnt data r (List.range m) : ℚ)) =
      (((if b then 1 else 0) * cnt data r (List.range m) : Nat) : ℚ) := by
    intro b
    cases b
    · simp [k0]
    · simp only [if_true, Nat.cast_one, k1, one_mul]; exact kn _ (cnt_le ..)
  have hT : ∀ q q' : ℚ, q = q' → ∀ p, (List.replicate (g.count j) ()).foldl (fun p _ => rnd (p + q)) p =
      (List.replicate (g.count j) ()).foldl (fun p _ => rnd (p + q')) p := by rintro q _ rfl p; rfl
  split
  · apply hT
    unfold termRnd
    simp only [hcs, kn _ (cnt_le data r (List.range m)), kn _ (le_refl _), Nat.cast_zero, k0, decide_eq_true_eq]
  · rfl

/-! ## The error of one term -/

theorem binomialRnd_eq {rnd : ℚ → ℚ} (hk : KeepsIntegers rnd) {N : Nat} (hN : N ≤ 51) (k : Nat) : binomialRnd rnd N k = N.choose k := by
  have h1 : combRnd rnd N k = N.choose k := by
    refine C14_rounded hk (by omega) ?_
    by_cases hk : k ≤ N
    · rw [← combIntLong_eq (by unfold ulongMax; omega)]
      exact small_products N (by omega) k (by omega)
    · rw [Nat.choose_eq_zero_of_lt (by omega)]
      omega
  unfold binomialRnd
  rw [h1]
  dsimp only
  split
  · rfl
  · rename_i h; exact (not_not.mp h).symm

theorem choose_small {N : Nat} (hN : N ≤ 51) (k : Nat) : N.choose k ≤ 2 ^ 53 :=
  le_trans (Nat.choose_le_two_pow N k) (Nat.pow_le_pow_right (by norm_num) (by omega))

theorem coefZero_nonneg {m : Nat} (hm : m ≤ 52) (s : Nat) : 0 ≤ coefZero m s := by
  unfold coefZero
  rw [binomialC_eq (by unfold ulongMax; omega)]
  split <;> positivity

theorem coefZeroRnd_approx {rnd : ℚ → ℚ} {u : ℚ} (hr : RelErr rnd u) (hu : 0 ≤ u) (hk : KeepsIntegers rnd) {m : Nat} (hm : m ≤ 52) (s : Nat) :
    Approx u 1 (coefZero m s) (coefZero m s) (coefZeroRnd rnd m s) := by
  have h0 := coefZero_nonneg hm s
  unfold coefZero coefZeroRnd at *
  rw [binomialC_eq (by unfold ulongMax; omega)] at *
  rw [binomialRnd_eq hk (by omega)]
  split
  · exact (Approx.exact hu 0 (by rw [abs_of_nonneg (by positivity)])).rnd hr hu
  · exact Approx.exact hu 1 (by simp)

theorem foldl_guard {α : Type} (g : α → ℚ) (f : ℚ → α → ℚ) : ∀ (l : List α) (c : ℚ), (∀ a ∈ l, g a ≠ 0) →
    l.foldl (fun acc a => if g a ≠ 0 then f acc a else 0) c = l.foldl f c
  | [], _, _ => rfl
  | a :: l, c, h => by
    rw [List.foldl_cons, List.foldl_cons, if_pos (h a (by simp)), foldl_guard g f l _ (fun b hb => h b (by simp [hb]))]

theorem coefLoop_sum {m k s : Nat} (hkm : k < m) (hs : s ≤ k) (hm : m ≤ 52) :
    coefLoop m k s = ((List.range' 1 (m - k - 1)).map fun l => ((m - k - 1).choose l : ℚ) / ((m - 1).choose (l + s) : ℚ)).sum := by
  unfold coefLoop
  simp only [binomialC_eq (show m - 1 < ulongMax by unfold ulongMax; omega), binomialC_eq (show m - k - 1 < ulongMax by unfold ulongMax; omega)]
  rw [foldl_guard_sum, zero_add]
  intro l hl
  have := List.mem_range'_1.mp hl
  have := Nat.choose_pos (show l + s ≤ m - 1 by omega)
  positivity

theorem coefLoopRnd_approx {rnd : ℚ → ℚ} {u : ℚ} (hr : RelErr rnd u) (hu : 0 ≤ u) (hk : KeepsIntegers rnd) {m k s : Nat} (hkm : k < m) (hs : s ≤ k)
    (hm : m ≤ 52) : Approx u m (coefLoop m k s) (coefLoop m k s) (coefLoopRnd rnd m k s) := by
  rw [coefLoop_sum hkm hs hm]
  unfold coefLoopRnd
  simp only [binomialRnd_eq hk (show m - 1 ≤ 51 by omega), binomialRnd_eq hk (show m - k - 1 ≤ 51 by omega), one_mul,
    hk _ (choose_small (show m - k - 1 ≤ 51 by omega) _)]
  rw [foldl_guard (fun l => ((m - 1).choose (l + s) : ℚ))
    (fun coef l => rnd (coef + rnd (((m - k - 1).choose l : ℚ) / ((m - 1).choose (l + s) : ℚ))))]
  · have h := Approx.foldl hr hu (fun l => ((m - k - 1).choose l : ℚ) / ((m - 1).choose (l + s) : ℚ))
      (fun l => ((m - k - 1).choose l : ℚ) / ((m - 1).choose (l + s) : ℚ))
      (fun l => rnd (((m - k - 1).choose l : ℚ) / ((m - 1).choose (l + s) : ℚ))) (List.range' 1 (m - k - 1)) 1 0 0 0
      (Approx.exact hu 1 (by simp)) (fun l _ => (Approx.exact hu 0 (by rw [abs_of_nonneg (by positivity)])).rnd hr hu)
    rw [zero_add] at h
    exact h.mono hu (by rw [List.length_range']; omega) (le_refl _)
  · intro l hl
    have := List.mem_range'_1.mp hl
    have := Nat.choose_pos (show l + s ≤ m - 1 by omega)
    positivity

theorem ratio_le_one {a b : Nat} (h : a ≤ b) : |(a : ℚ) / b| ≤ 1 := by
  rw [abs_of_nonneg (by positivity)]
  exact div_le_one_of_le₀ (by exact_mod_cast h) (by positivity)

/-- The error of one term: at most `m + 5` roundings of numbers of size twice the weight times the leaf value. -/
theorem termRnd_approx {rnd : ℚ → ℚ} {u : ℚ} (hr : RelErr rnd u) (hu : 0 ≤ u) (hk : KeepsIntegers rnd) {m : Nat} (hm : m ≤ 52) (data : List Row)
    (r : Rect) (x : Row) {va : List Nat} {rest : List (List Nat)} (counter : Nat) (v : ℚ) (hrest : rest.length < m) (hva : ∀ s ∈ va, s < m)
    (hsel : ∀ c ∈ rest, ∀ s ∈ c, s < m) :
    Approx u (m + 5) ((coefZero m (maskSel rest counter).length + coefLoop m rest.length (maskSel rest counter).length) * 2 * |v|)
      (cyTerm m data r x va rest counter * v) (termRnd rnd m data r x va rest counter v) := by
  have hsub := maskSel_sublist rest counter
  have hlen : (maskSel rest counter).length ≤ rest.length := hsub.length_le
  have hc : Approx u (m + 1) (coefZero m (maskSel rest counter).length + coefLoop m rest.length (maskSel rest counter).length)
      (coefZero m (maskSel rest counter).length + coefLoop m rest.length (maskSel rest counter).length)
      (rnd (coefZeroRnd rnd m (maskSel rest counter).length + coefLoopRnd rnd m rest.length (maskSel rest counter).length)) :=
    (((coefZeroRnd_approx hr hu hk hm _).mono hu (by omega) (le_refl _)).add (coefLoopRnd_approx hr hu hk hrest hlen hm)).rnd hr hu
  have hS : ∀ s ∈ (maskSel rest counter).flatten, s < m := by
    intro s hs
    obtain ⟨c, hc, hsc⟩ := List.mem_flatten.mp hs
    exact hsel c (hsub.subset hc) s hsc
  have hlmS : cnt data r (List.range m) ≤ cnt data r (maskSel rest counter).flatten := by
    unfold cnt
    rw [← List.countP_eq_length_filter, ← List.countP_eq_length_filter]
    apply List.countP_mono_left
    intro z _ hz
    rw [sat_iff] at hz ⊢
    exact fun s hs => hz s (List.mem_range.mpr (hS s hs))
  have hlmSi : cnt data r (List.range m) ≤ (data.filter (fun z => sat r (maskSel rest counter).flatten z && sat r va z)).length := by
    unfold cnt
    rw [← List.countP_eq_length_filter, ← List.countP_eq_length_filter]
    apply List.countP_mono_left
    intro z _ hz
    rw [Bool.and_eq_true]
    rw [sat_iff] at hz
    exact ⟨sat_iff.mpr fun s hs => hz s (List.mem_range.mpr (hS s hs)), sat_iff.mpr fun s hs => hz s (List.mem_range.mpr (hva s hs))⟩
  have hind : ∀ (b : Bool) (n : Nat), cnt data r (List.range m) ≤ n →
      Approx u 1 1 ((((if b then 1 else 0 : ℚ)) * (cnt data r (List.range m) : ℚ)) / n) (rnd ((((if b then 1 else 0) * cnt data r (List.range m) : Nat) : ℚ) / n)) := by
    intro b n hn
    have e1 : ((if b then 1 else 0 : ℚ)) * (cnt data r (List.range m) : ℚ) = (((if b then 1 else 0) * cnt data r (List.range m) : Nat) : ℚ) := by
      cases b <;> simp
    rw [e1]
    refine (Approx.exact hu 0 (ratio_le_one ?_)).rnd hr hu
    cases b <;> simp [hn]
  have hpS : Approx u 1 1 (if (maskSel rest counter).flatten.length = 0 then (cnt data r (List.range m) : ℚ) / data.length
        else if (cnt data r (maskSel rest counter).flatten : ℚ) ≠ 0 then
          (if sat r (maskSel rest counter).flatten x then 1 else 0) * (cnt data r (List.range m) : ℚ) / cnt data r (maskSel rest counter).flatten else 0)
      (if (maskSel rest counter).flatten.length = 0 then rnd ((cnt data r (List.range m) : ℚ) / data.length)
        else if (cnt data r (maskSel rest counter).flatten : ℚ) ≠ 0 then
          rnd ((((if sat r (maskSel rest counter).flatten x then 1 else 0) * cnt data r (List.range m) : Nat) : ℚ) /
            cnt data r (maskSel rest counter).flatten) else 0) := by
    split
    · exact (Approx.exact hu 0 (ratio_le_one (cnt_le ..))).rnd hr hu
    · split
      · exact hind _ _ hlmS
      · exact Approx.exact hu 1 (by simp)
  have hpSi : Approx u 1 1 (if ((data.filter (fun z => sat r (maskSel rest counter).flatten z && sat r va z)).length : ℚ) ≠ 0 then
          (if sat r (maskSel rest counter).flatten x && sat r va x then 1 else 0) * (cnt data r (List.range m) : ℚ) /
            (data.filter (fun z => sat r (maskSel rest counter).flatten z && sat r va z)).length else 0)
      (if ((data.filter (fun z => sat r (maskSel rest counter).flatten z && sat r va z)).length : ℚ) ≠ 0 then
          rnd ((((if sat r (maskSel rest counter).flatten x && sat r va x then 1 else 0) * cnt data r (List.range m) : Nat) : ℚ) /
            (data.filter (fun z => sat r (maskSel rest counter).flatten z && sat r va z)).length) else 0) := by
    split
    · exact hind _ _ hlmSi
    · exact Approx.exact hu 1 (by simp)
  have h := ((((hc.mul hu ((hpSi.sub hpS).rnd hr hu)).rnd hr hu).mul hu (Approx.exact hu 0 (le_refl |v|))).rnd hr hu)
  have e2 : m + 1 + (1 + 1) + 1 + 0 + 1 = m + 5 := by omega
  rw [e2] at h
  norm_num only at h
  exact h

end Acv

import Verif.Lemmas.RoundedShap
import Verif.Props.Shapley
import Verif.Props.SdpReg

/-!
# C103: predictions and Shapley values in double precision
-/

namespace Acv

/-- **C103, the rounding.** Rounding to double precision (to nearest, ties to even, either sign) changes a number by at most `2 ^ -53` of its size, and does
not change the integers up to `2 ^ 53`. -/
theorem C103_rounding : RelErr roundDouble (1 / 2 ^ 53) ∧ KeepsIntegers roundDouble := ⟨roundDouble_relErr, roundDouble_keeps⟩

example : roundDouble (1 / 3) = 6004799503160661 / 18014398509481984 ∧ roundDouble (-(2 ^ 53 + 1)) = -2 ^ 53 := by decide +kernel

/-- Rounding to an integer gives one of the two nearest, and the even one of two equally near. -/
theorem roundEven_nearest (z : ℚ) : (∀ n : Int, |(roundEven z : ℚ) - z| ≤ |(n : ℚ) - z|) ∧
    (|(roundEven z : ℚ) - z| = 1 / 2 → roundEven z % 2 = 0) := by
  have h1 : ((z.floor : Int) : ℚ) ≤ z := Rat.floor_le z
  have h2 : z < ((z.floor : Int) : ℚ) + 1 := by
    have := Rat.lt_floor_add_one z
    exact_mod_cast this
  constructor
  · intro n
    have hn : (n : ℚ) ≤ z.floor ∨ (z.floor : ℚ) + 1 ≤ n := by
      rcases lt_or_ge z.floor n with h | h
      · exact Or.inr (by exact_mod_cast h)
      · exact Or.inl (by exact_mod_cast h)
    have hlow : min (z - z.floor) (z.floor + 1 - z) ≤ |(n : ℚ) - z| := by
      rcases hn with h | h
      · exact (min_le_left _ _).trans (by rw [abs_sub_comm]; exact le_trans (by linarith) (le_abs_self _))
      · exact (min_le_right _ _).trans (le_trans (by linarith) (le_abs_self _))
    refine le_trans ?_ hlow
    unfold roundEven
    simp only
    rw [abs_le]
    split_ifs <;> push_cast <;> constructor <;> first
      | (rw [neg_le]; apply le_min <;> linarith)
      | (apply le_min <;> linarith)
  · intro h
    unfold roundEven at h ⊢
    simp only at h ⊢
    split_ifs with a b c
    · rw [if_pos a, abs_sub_comm, abs_of_nonneg (by linarith)] at h
      linarith
    · rw [if_neg a, if_pos b, abs_of_nonneg (by push_cast; linarith)] at h
      push_cast at h
      linarith
    · exact c
    · omega

theorem toDouble_form {q : ℚ} (hq : 0 < q) : ∃ n e : Int, toDouble q = n * 2 ^ e ∧ (2 : ℚ) ^ 52 * 2 ^ e ≤ q ∧ q < 2 ^ 53 * 2 ^ e ∧
    n = roundEven (q / 2 ^ e) := by
  refine ⟨roundEven (q / 2 ^ (Int.log 2 q - 52)), Int.log 2 q - 52, by unfold toDouble; rw [if_neg (by linarith)], ?_, ?_, rfl⟩
  · have h := Int.zpow_log_le_self (b := 2) (by norm_num) hq
    have e1 : (2 : ℚ) ^ 52 * 2 ^ (Int.log 2 q - 52) = 2 ^ Int.log 2 q := by
      rw [← zpow_natCast, ← zpow_add₀ (by norm_num)]
      congr 1
      push_cast
      ring
    rw [e1]
    exact_mod_cast h
  · have h := Int.lt_zpow_succ_log_self (b := 2) (by norm_num) q
    have e1 : (2 : ℚ) ^ 53 * 2 ^ (Int.log 2 q - 52) = 2 ^ (Int.log 2 q + 1) := by
      rw [← zpow_natCast, ← zpow_add₀ (by norm_num)]
      congr 1
      push_cast
      ring
    rw [e1]
    exact_mod_cast h

theorem toDouble_isDouble_nearest {q : ℚ} (hq : 0 ≤ q) : IsDouble (toDouble q) ∧ ∀ v, IsDouble v → |toDouble q - q| ≤ |v - q| := by
  rcases hq.eq_or_lt with rfl | hpos
  · refine ⟨⟨0, 0, by norm_num, by simp [toDouble]⟩, fun v _ => ?_⟩
    simp [toDouble]
  obtain ⟨n, e, he, h1, h2, hn⟩ := toDouble_form hpos
  have hs : (0 : ℚ) < 2 ^ e := zpow_pos (by norm_num) _
  have hz1 : (2 : ℚ) ^ 52 ≤ q / 2 ^ e := (le_div_iff₀ hs).mpr h1
  have hz2 : q / 2 ^ e < 2 ^ 53 := (div_lt_iff₀ hs).mpr h2
  obtain ⟨hnear, _⟩ := roundEven_nearest (q / 2 ^ e)
  have hint : ∀ k : Int, |toDouble q - q| ≤ |(k : ℚ) * 2 ^ e - q| := by
    intro k
    have ex : ∀ y : ℚ, y * 2 ^ e - q = (y - q / 2 ^ e) * 2 ^ e := fun y => by rw [sub_mul, div_mul_cancel₀ _ hs.ne']
    rw [he, ex, ex, abs_mul, abs_mul, hn]
    exact mul_le_mul_of_nonneg_right (hnear k) (abs_nonneg _)
  constructor
  · refine ⟨n, e, ?_, he⟩
    have ha := hnear (2 ^ 53)
    have hb := hnear (2 ^ 52)
    rw [← hn] at ha hb
    have hA : |(2 : ℚ) ^ 53 - q / 2 ^ e| = 2 ^ 53 - q / 2 ^ e := abs_of_nonneg (by linarith)
    have hB : |(2 : ℚ) ^ 52 - q / 2 ^ e| = q / 2 ^ e - 2 ^ 52 := by rw [abs_sub_comm, abs_of_nonneg (by linarith)]
    norm_num only at hA hB ha hb
    rw [hA] at ha
    rw [hB] at hb
    have hu := (abs_le.mp ha).2
    have hl := (abs_le.mp hb).1
    have h3 : (n : ℚ) ≤ 2 ^ 53 := by linarith
    have h4 : (2 : ℚ) ^ 52 ≤ n := by linarith
    have h3' : n ≤ 2 ^ 53 := by exact_mod_cast h3
    have h4' : (2 : Int) ^ 52 ≤ n := by exact_mod_cast h4
    rw [abs_of_nonneg (le_trans (by positivity) h4')]
    exact h3'
  · rintro v ⟨m, f, hm, rfl⟩
    by_cases hef : e ≤ f
    · obtain ⟨c, rfl⟩ := Int.le.dest hef
      have := hint (m * 2 ^ c)
      refine this.trans (le_of_eq ?_)
      push_cast
      rw [zpow_add₀ (by norm_num), zpow_natCast]
      congr 1
      ring
    · have hfe : f ≤ e - 1 := by omega
      have hv : (m : ℚ) * 2 ^ f ≤ 2 ^ 52 * 2 ^ e := by
        have hm' : (m : ℚ) ≤ 2 ^ 53 := by exact_mod_cast (le_abs_self m).trans hm
        have hp : (0 : ℚ) < 2 ^ f := zpow_pos (by norm_num) _
        have hmono : (2 : ℚ) ^ f ≤ 2 ^ (e - 1) := zpow_le_zpow_right₀ (by norm_num) hfe
        have e1 : (2 : ℚ) ^ (e - 1) = 2 ^ e / 2 := by rw [zpow_sub₀ (by norm_num)]; norm_num
        calc (m : ℚ) * 2 ^ f ≤ 2 ^ 53 * 2 ^ f := mul_le_mul_of_nonneg_right hm' hp.le
          _ ≤ 2 ^ 53 * 2 ^ (e - 1) := by gcongr
          _ = 2 ^ 52 * 2 ^ e := by rw [e1]; ring
      have := hint (2 ^ 52)
      push_cast at this
      refine this.trans ?_
      rw [abs_sub_comm, abs_of_nonneg (by linarith), abs_sub_comm, abs_of_nonneg (by linarith)]
      linarith

/-- **C103, the rounding is to nearest.** The rounded number has 53 significant bits, and no number with 53 significant bits is nearer. -/
theorem C103_nearest (q : ℚ) : IsDouble (roundDouble q) ∧ ∀ v, IsDouble v → |roundDouble q - q| ≤ |v - q| := by
  unfold roundDouble
  split
  · obtain ⟨⟨n, e, h1, h2⟩, h3⟩ := toDouble_isDouble_nearest (q := -q) (by linarith)
    refine ⟨⟨-n, e, by rwa [abs_neg], by rw [h2]; push_cast; ring⟩, ?_⟩
    rintro v ⟨m, f, hm, rfl⟩
    have := h3 (-(m * 2 ^ f)) ⟨-m, f, by rwa [abs_neg], by push_cast; ring⟩
    have e1 : ∀ a : ℚ, -a - -q = -(a - q) := fun a => by ring
    rw [e1, abs_neg] at this
    refine le_trans (le_of_eq ?_) this
    rw [← abs_neg]
    congr 1
    ring
  · exact toDouble_isDouble_nearest (by linarith)

/-- **C103, ties.** Half way between two neighbouring numbers with 53 significant bits, the one with the even significand is taken; and the rounding is odd. -/
theorem C103_ties : (∀ n e : Int, (2 : ℚ) ^ 52 ≤ n → (n : ℚ) < 2 ^ 53 →
      roundDouble ((n + 1 / 2) * 2 ^ e) = (if n % 2 = 0 then (n : ℚ) else n + 1) * 2 ^ e) ∧
    ∀ q, roundDouble (-q) = -roundDouble q := by
  constructor
  · intro n e h1 h2
    have hs : (0 : ℚ) < 2 ^ e := zpow_pos (by norm_num) _
    have h2' : (n : ℚ) + 1 ≤ 2 ^ 53 := by
      have : n < 2 ^ 53 := by exact_mod_cast h2
      have : n + 1 ≤ 2 ^ 53 := this
      exact_mod_cast this
    have hq : (0 : ℚ) < (n + 1 / 2) * 2 ^ e := by
      apply mul_pos _ hs
      have : (0 : ℚ) < 2 ^ 52 := by positivity
      linarith
    have hlog : Int.log 2 (((n : ℚ) + 1 / 2) * 2 ^ e) = 52 + e := by
      have hb : (1 : Nat) < 2 := by norm_num
      apply le_antisymm
      · have : ((n : ℚ) + 1 / 2) * 2 ^ e < ((2 : Nat) : ℚ) ^ (52 + e + 1) := by
          have e1 : (((2 : Nat) : ℚ)) ^ (52 + e + 1) = 2 ^ 53 * 2 ^ e := by
            push_cast
            rw [← zpow_natCast, ← zpow_add₀ (by norm_num)]
            congr 1
            push_cast
            ring
          rw [e1]
          exact mul_lt_mul_of_pos_right (by linarith) hs
        have := (Int.lt_zpow_iff_log_lt hb hq).mp this
        omega
      · have : ((2 : Nat) : ℚ) ^ (52 + e) ≤ ((n : ℚ) + 1 / 2) * 2 ^ e := by
          have e1 : (((2 : Nat) : ℚ)) ^ (52 + e) = 2 ^ 52 * 2 ^ e := by
            push_cast
            rw [← zpow_natCast, ← zpow_add₀ (by norm_num)]
            congr 1
          rw [e1]
          exact mul_le_mul_of_nonneg_right (by linarith) hs.le
        exact (Int.zpow_le_iff_le_log hb hq).mp this
    unfold roundDouble toDouble
    rw [if_neg (by linarith), if_neg (by linarith), hlog, show 52 + e - 52 = e by ring, mul_div_cancel_right₀ _ hs.ne']
    congr 1
    have hf : ((n : ℚ) + 1 / 2).floor = n := by
      apply le_antisymm
      · have := Rat.floor_le ((n : ℚ) + 1 / 2)
        have h : (((n : ℚ) + 1 / 2).floor : ℚ) < n + 1 := by linarith
        have h' : ((n : ℚ) + 1 / 2).floor < n + 1 := by exact_mod_cast h
        omega
      · exact Rat.le_floor_iff.mpr (by linarith)
    unfold roundEven
    simp only [hf]
    rw [if_neg (by linarith), if_neg (by linarith)]
    split <;> push_cast <;> rfl
  · intro q
    rcases lt_trichotomy q 0 with h | h | h
    · unfold roundDouble
      rw [if_neg (by linarith), if_pos h, neg_neg]
    · subst h
      simp [roundDouble, toDouble]
    · unfold roundDouble
      rw [if_pos (by linarith), if_neg (by linarith), neg_neg]

/-- The tie between `2 ^ 53` and `2 ^ 53 + 2` goes down, the next one goes up. -/
example : roundDouble (2 ^ 53 + 1) = 2 ^ 53 ∧ roundDouble (2 ^ 53 + 3) = 2 ^ 53 + 4 ∧ IsDouble (1 / 4) := by
  refine ⟨by decide +kernel, by decide +kernel, 1, -2, by norm_num, by norm_num⟩

theorem predictRnd_approx {rnd : ℚ → ℚ} {u : ℚ} (hr : RelErr rnd u) (hu : 0 ≤ u) {ts : List TreeArr} {d : Nat} (h : ∀ t ∈ ts, WellFormed t d)
    (base : Nat → ℚ) (x : Obs) (k : Nat) (leaf : TreeArr → Nat) (hleaf : ∀ t ∈ ts, EndsIn t x (leaf t)) (L : Nat) (hL : L ≤ ts.length) :
    ∃ y, (pack ts).predictRnd rnd L base x k = some y ∧
      Approx u (L + 1) (|base k| + ((ts.take L).map fun t => |t.value (leaf t) k|).sum) (base k + ((ts.take L).map fun t => t.value (leaf t) k).sum) y := by
  unfold Packed.predictRnd
  induction L with
  | zero =>
    refine ⟨_, rfl, ?_⟩
    have := (Approx.exact hu 0 (le_refl |base k|)).rnd hr hu
    simpa using this
  | succ L ih =>
    have hj : L < ts.length := by omega
    obtain ⟨y, hy, ha⟩ := ih (by omega)
    refine ⟨rnd (y + (ts[L]).value (leaf ts[L]) k), ?_, ?_⟩
    · rw [List.range_succ, List.foldlM_append, hy]
      obtain ⟨b, hb⟩ := h ts[L] (List.getElem_mem hj)
      have hw := pack_walk hj x b hb.enc (fun n hn => (hb.all n).mp hn) (maxNodes ts) (by
        have := b.height_lt; rw [ids_length hb] at this
        have := size_le_maxNodes (List.getElem_mem hj); omega)
      rw [hb.root] at hw
      have hl : leaf ts[L] = b.descendObs ts[L] x := (endsIn_iff hb x _).mp (hleaf _ (List.getElem_mem hj))
      have hsz : b.descendObs ts[L] x < (ts[L]).size := (hb.all _).mp (b.leaves_sub _ (descendObs_mem x b))
      have hc := pack_cell hj hsz
      have hv : (pack ts).value (L * maxNodes ts + b.descendObs ts[L] x) k = (ts[L]).value (leaf ts[L]) k := by
        rw [hl]; simp [pack, hc.1, hc.2, hj, hsz]
      have hm : (pack ts).maxNodes = maxNodes ts := rfl
      simp only [Option.bind_eq_bind, Option.bind_some, List.foldlM_cons, List.foldlM_nil, hm, hw, Option.map_some, hv]
      rfl
    · rw [List.take_succ, List.getElem?_eq_getElem hj]
      simp only [Option.toList_some, List.map_append, List.map_cons, List.map_nil, List.sum_append, List.sum_cons, List.sum_nil, add_zero]
      rw [← add_assoc, ← add_assoc]
      exact (ha.add (Approx.exact hu _ (le_refl _))).rnd hr hu

/-- **C103, predictions.** With a rounding of relative error `u` after every addition, `predict` still terminates for every row, and differs from the exact
prediction by at most `(1 + u) ^ (L + 1) - 1` times the sum of the sizes of the offset and of the leaf values, `L` being the number of trees used. -/
theorem C103_predict {rnd : ℚ → ℚ} {u : ℚ} (hr : RelErr rnd u) (hu : 0 ≤ u) {ts : List TreeArr} {d : Nat} (h : ∀ t ∈ ts, WellFormed t d)
    (dl arg : Option Int) (base : Nat → ℚ) (x : Obs) (k : Nat) (leaf : TreeArr → Nat) (hleaf : ∀ t ∈ ts, EndsIn t x (leaf t)) :
    ∃ y z, ensemblePredictRnd rnd ts dl arg base x k = some y ∧ ensemblePredict ts dl arg base x k = some z ∧
      |y - z| ≤ ((1 + u) ^ (effLimit ts.length dl arg + 1) - 1) *
        (|base k| + ((ts.take (effLimit ts.length dl arg)).map fun t => |t.value (leaf t) k|).sum) := by
  obtain ⟨y, hy, ha⟩ := predictRnd_approx hr hu h base x k leaf hleaf _ (effLimit_le ts.length dl arg)
  exact ⟨y, _, hy, (C03_predict_is_sum_of_leaf_values h dl arg base x k).2 leaf hleaf, ha.2⟩

/-- **C103, predictions in double precision**: with fewer than `2 ^ 52` trees, the error is at most `(L + 1) 2 ^ -52` times the sum of the sizes. -/
theorem C103_predict_double {ts : List TreeArr} {d : Nat} (h : ∀ t ∈ ts, WellFormed t d) (dl arg : Option Int) (base : Nat → ℚ) (x : Obs) (k : Nat)
    (leaf : TreeArr → Nat) (hleaf : ∀ t ∈ ts, EndsIn t x (leaf t)) (hts : ts.length < 2 ^ 52) :
    ∃ y z, ensemblePredictRnd roundDouble ts dl arg base x k = some y ∧ ensemblePredict ts dl arg base x k = some z ∧
      |y - z| ≤ (effLimit ts.length dl arg + 1) / 2 ^ 52 *
        (|base k| + ((ts.take (effLimit ts.length dl arg)).map fun t => |t.value (leaf t) k|).sum) := by
  obtain ⟨y, z, hy, hz, he⟩ := C103_predict roundDouble_relErr (by norm_num) h dl arg base x k leaf hleaf
  refine ⟨y, z, hy, hz, le_trans he ?_⟩
  have hL := effLimit_le ts.length dl arg
  have h1 : ((effLimit ts.length dl arg + 1 : Nat) : ℚ) ≤ 2 ^ 52 := by
    have : effLimit ts.length dl arg + 1 ≤ 2 ^ 52 := by omega
    exact_mod_cast this
  have h2 := pow_sub_one_le (u := 1 / 2 ^ 53) (by norm_num) (effLimit ts.length dl arg + 1) (by
    rw [mul_one_div, div_le_iff₀ (by norm_num)]
    refine le_trans h1 ?_
    norm_num)
  refine mul_le_mul_of_nonneg_right (le_trans h2 (le_of_eq ?_)) (add_nonneg (abs_nonneg _) (List.sum_nonneg ?_))
  · push_cast; ring
  · intro q hq
    obtain ⟨t, _, rfl⟩ := List.mem_map.mp hq
    exact abs_nonneg _

example : (∀ t ∈ [stumpAt 0 1 (1 / 3) 5, stumpAt 0 1 2 6], WellFormed t 1) ∧
    ensemblePredictRnd roundDouble [stumpAt 0 1 (1 / 3) 5, stumpAt 0 1 2 6] none none (fun _ => 1 / 10) (full fun _ => 0) 0 =
      some (roundDouble (roundDouble (roundDouble (1 / 10) + 1 / 3) + 2)) := by
  refine ⟨by simp [stumpAt_wf], by decide +kernel⟩

/-- **C103, Shapley values.** With a rounding of relative error `u` after every operation (exact on the integers up to `2 ^ 53`), at most 52 columns and at
most `2 ^ 53` background rows, the computed Shapley value of any column differs from the exact one by at most `(1 + u) ^ E - 1` times twice the sum of the
sizes of all leaf values. `E` is the number of columns plus 7 plus the number of cells added up: the trees times the size of the table. -/
theorem C103_shapley {rnd : ℚ → ℚ} {u : ℚ} (hr : RelErr rnd u) (hu : 0 ≤ u) (hk : KeepsIntegers rnd) {ts : List TreeArr} {m : Nat}
    (hts : ∀ t ∈ ts, WellFormed t m) (hm0 : 0 < m) (hm : m ≤ 52) {data : List Row} (hd : data.length ≤ 2 ^ 53) {C : List (List Nat)} (hC : ValidGroups m C)
    (x : Row) (j k : Nat) {maxLeaves scaling : Nat} (hmax : ∀ t ∈ ts, t.leafIdx.length ≤ maxLeaves)
    (hbuf : ∀ t ∈ ts, ∀ ℓ ∈ t.leafIdx, ∀ g ∈ leafPlayersCy m C (t.leafCols ℓ), ((leafPlayersCy m C (t.leafCols ℓ)).erase g).length ≤ scaling)
    (scratch : LCell → ℚ) :
    |shapRnd rnd ts m data C x j k maxLeaves scaling scratch - shapCy ts m data C x j k| ≤
      ((1 + u) ^ (m + 7 + ts.length * (maxLeaves * 2 ^ scaling)) - 1) * (2 * (ts.map fun t => (t.leafIdx.map fun ℓ => |t.value ℓ k|).sum).sum) := by
  have h := shapSequential_approx hr hu hk hm hd hC x j k ts hts hmax hbuf hm0 scratch (m + 6) 0 0 0 (le_refl _) (Approx.exact hu _ (by simp))
  rw [zero_div, zero_add, zero_add] at h
  have e1 : m + 6 + ts.length * (maxLeaves * 2 ^ scaling) + 1 = m + 7 + ts.length * (maxLeaves * 2 ^ scaling) := by omega
  rw [e1] at h
  exact h.2

/-- Without rounding the routine returns the exact values. -/
theorem C103_exact {ts : List TreeArr} {m : Nat} (hts : ∀ t ∈ ts, WellFormed t m) (hm0 : 0 < m) (hm : m ≤ 52) {data : List Row}
    (hd : data.length ≤ 2 ^ 53) {C : List (List Nat)} (hC : ValidGroups m C) (x : Row) (j k : Nat) {maxLeaves scaling : Nat}
    (hmax : ∀ t ∈ ts, t.leafIdx.length ≤ maxLeaves)
    (hbuf : ∀ t ∈ ts, ∀ ℓ ∈ t.leafIdx, ∀ g ∈ leafPlayersCy m C (t.leafCols ℓ), ((leafPlayersCy m C (t.leafCols ℓ)).erase g).length ≤ scaling)
    (scratch : LCell → ℚ) : shapRnd id ts m data C x j k maxLeaves scaling scratch = shapCy ts m data C x j k := by
  have h := C103_shapley (rnd := id) (u := 0) (fun q => by simp) (le_refl _) (fun n _ => rfl) hts hm0 hm hd hC x j k hmax hbuf scratch
  rw [add_zero, one_pow, sub_self, zero_mul] at h
  exact sub_eq_zero.mp (abs_nonpos_iff.mp h)

/-- **C103, Shapley values in double precision, every schedule.** However the leaf iterations of each tree are interleaved, the value computed in double
precision is within `E 2 ^ -51` times the sum of the sizes of all leaf values of the exact Shapley value, as long as `E` is at most `2 ^ 52`. -/
theorem C103_shapley_double {ts : List TreeArr} {m : Nat} (hts : ∀ t ∈ ts, WellFormed t m) (hm0 : 0 < m) (hm : m ≤ 52) {data : List Row}
    (hd : data.length ≤ 2 ^ 53) {C : List (List Nat)} (hC : ValidGroups m C) (x : Row) (j k : Nat) {maxLeaves scaling : Nat}
    (hmax : ∀ t ∈ ts, t.leafIdx.length ≤ maxLeaves)
    (hbuf : ∀ t ∈ ts, ∀ ℓ ∈ t.leafIdx, ∀ g ∈ leafPlayersCy m C (t.leafCols ℓ), ((leafPlayersCy m C (t.leafCols ℓ)).erase g).length ≤ scaling)
    (hE : m + 7 + ts.length * (maxLeaves * 2 ^ scaling) ≤ 2 ^ 52) (scheds : List (List Nat)) (scratch : LCell → ℚ)
    (hf : ∀ c ∈ (shapParallelM (roundMachine roundDouble) (coefZeroRnd roundDouble) (coefLoopRnd roundDouble) m data C x j maxLeaves scaling
      (ts.map fun t => (t, fun ℓ => t.value ℓ k)) scheds scratch 0).2, c.finished) :
    |(shapParallelM (roundMachine roundDouble) (coefZeroRnd roundDouble) (coefLoopRnd roundDouble) m data C x j maxLeaves scaling
      (ts.map fun t => (t, fun ℓ => t.value ℓ k)) scheds scratch 0).1 - shapCy ts m data C x j k| ≤
      ((m + 7 + ts.length * (maxLeaves * 2 ^ scaling) : Nat) : ℚ) / 2 ^ 51 * (ts.map fun t => (t.leafIdx.map fun ℓ => |t.value ℓ k|).sum).sum := by
  rw [C13_shapley_any_arithmetic _ _ _ m data C x j maxLeaves scaling _ scheds scratch 0 hf]
  refine le_trans (C103_shapley roundDouble_relErr (by norm_num) roundDouble_keeps hts hm0 hm hd hC x j k hmax hbuf scratch) ?_
  generalize m + 7 + ts.length * (maxLeaves * 2 ^ scaling) = E at hE
  have h1 : (E : ℚ) ≤ 2 ^ 52 := by exact_mod_cast hE
  have h2 := pow_sub_one_le (u := 1 / 2 ^ 53) (by norm_num) E (by
    rw [mul_one_div, div_le_iff₀ (by norm_num)]
    refine le_trans h1 ?_
    norm_num)
  have h3 : 0 ≤ (ts.map fun t => (t.leafIdx.map fun ℓ => |t.value ℓ k|).sum).sum := by
    refine List.sum_nonneg ?_
    intro q hq
    obtain ⟨t, _, rfl⟩ := List.mem_map.mp hq
    refine List.sum_nonneg ?_
    intro q hq
    obtain ⟨ℓ, _, rfl⟩ := List.mem_map.mp hq
    exact abs_nonneg _
  refine le_trans (mul_le_mul_of_nonneg_right h2 (by linarith)) (le_of_eq ?_)
  ring

/-- Two columns, three background rows, one leaf after the other: the value is the exact one up to rounding, and not exact. -/
example : (∀ t ∈ [exTree], WellFormed t 3) ∧ ValidGroups 3 [[2, 1]] ∧ (∀ t ∈ [exTree], t.leafIdx.length ≤ 3) ∧
    (∀ t ∈ [exTree], ∀ ℓ ∈ t.leafIdx, ∀ g ∈ leafPlayersCy 3 [[2, 1]] (t.leafCols ℓ),
      ((leafPlayersCy 3 [[2, 1]] (t.leafCols ℓ)).erase g).length ≤ 2) ∧
    |shapRnd roundDouble [exTree] 3 exData [[2, 1]] (fun _ => 2) 0 0 3 2 (fun _ => 7) - 95 / 12| < 1 / 2 ^ 47 ∧
    shapRnd roundDouble [exTree] 3 exData [[2, 1]] (fun _ => 2) 0 0 3 2 (fun _ => 7) ≠ 95 / 12 ∧
    shapCy [exTree] 3 exData [[2, 1]] (fun _ => 2) 0 0 = 95 / 12 := by
  refine ⟨by simp [exTree_wf3], Or.inr ⟨by simp, by simp, by simp⟩, ?_, ?_, ?_, ?_, ?_⟩
  · simp only [List.mem_singleton, forall_eq]; decide +kernel
  · simp only [List.mem_singleton, forall_eq]; decide +kernel
  all_goals decide +kernel

/-- **C103, efficiency in double precision.** The computed Shapley values of the players sum, up to the number of columns times the bound of
`C103_shapley`, to the exact prediction minus the mean prediction over the background data. -/
theorem C103_efficiency {rnd : ℚ → ℚ} {u : ℚ} (hr : RelErr rnd u) (hu : 0 ≤ u) (hk : KeepsIntegers rnd) {ts : List TreeArr} {m : Nat}
    (hts : ∀ t ∈ ts, WellFormed t m) (hm0 : 0 < m) (hm : m ≤ 52) {data : List Row} (hd : data.length ≤ 2 ^ 53) (hdata : data ≠ []) {C : List (List Nat)}
    (hC : ValidGroups m C) (x : Row) (k : Nat) {maxLeaves scaling : Nat} (hmax : ∀ t ∈ ts, t.leafIdx.length ≤ maxLeaves)
    (hbuf : ∀ t ∈ ts, ∀ ℓ ∈ t.leafIdx, ∀ g ∈ leafPlayersCy m C (t.leafCols ℓ), ((leafPlayersCy m C (t.leafCols ℓ)).erase g).length ≤ scaling)
    (base : Nat → ℚ) (P : Row → ℚ) (hP : ∀ z, ensemblePredict ts none none base (full z) k = some (P z))
    (hleaf : ∀ t ∈ ts, ∀ ℓ, EndsIn t (full x) ℓ → ∃ z ∈ data, EndsIn t (full z) ℓ)
    (rep : List Nat → Nat) (hrep : ∀ g ∈ playerSet m C, rep g ∈ g) (scratch : LCell → ℚ) :
    |∑ g ∈ playerSet m C, shapRnd rnd ts m data C x (rep g) k maxLeaves scaling scratch - (P x - (data.map P).sum / data.length)| ≤
      m * (((1 + u) ^ (m + 7 + ts.length * (maxLeaves * 2 ^ scaling)) - 1) * (2 * (ts.map fun t => (t.leafIdx.map fun ℓ => |t.value ℓ k|).sum).sum)) := by
  rw [← C07_efficiency hts hdata hC (by unfold ulongMax; omega) x k base P hP hleaf rep hrep, ← Finset.sum_sub_distrib]
  refine le_trans (Finset.abs_sum_le_sum_abs _ _) ?_
  refine le_trans (Finset.sum_le_card_nsmul _ _ _ fun g _ => C103_shapley hr hu hk hts hm0 hm hd hC x (rep g) k hmax hbuf scratch) ?_
  rw [nsmul_eq_mul]
  refine mul_le_mul_of_nonneg_right (by exact_mod_cast playerSet_card hC) ?_
  exact le_trans (abs_nonneg _) (C103_shapley hr hu hk hts hm0 hm hd hC x 0 k hmax hbuf scratch)

/-- One would wish that the prediction in double precision does not depend on the order of the trees. -/
def C103_order_claim : Prop :=
  ∀ (ts ts' : List TreeArr) (d : Nat) (base : Nat → ℚ) (x : Obs) (k : Nat), (∀ t ∈ ts, WellFormed t d) → ts.Perm ts' →
    ensemblePredictRnd roundDouble ts none none base x k = ensemblePredictRnd roundDouble ts' none none base x k

/-- One would wish that the columns of a model that always predicts 0 get the value 0. -/
def C103_null_claim : Prop :=
  ∀ (ts : List TreeArr) (m : Nat) (data : List Row) (x : Row) (j k : Nat), (∀ t ∈ ts, WellFormed t m) → j < m →
    (∀ z, ensemblePredict ts none none (fun _ => 0) (full z) k = some 0) →
    shapRnd roundDouble ts m data [[]] x j k 2 0 (fun _ => 0) = 0

/-- **C103, what rounding breaks.** Both claims fail. The trees `2 ^ 53`, `1`, `1` predict `2 ^ 53` in this order and `2 ^ 53 + 2` in the reverse order; and
an ensemble of three stumps whose leaf values cancel, so that it predicts 0 everywhere, gets the Shapley value `-1/2`. -/
theorem C103_cancellation_false : ¬ C103_order_claim ∧ ¬ C103_null_claim ∧
    (ensemblePredictRnd roundDouble [stumpAt 0 1 (2 ^ 53) 0, stumpAt 0 1 1 0, stumpAt 0 1 1 0] none none (fun _ => 0) (full fun _ => 0) 0 = some (2 ^ 53) ∧
     ensemblePredictRnd roundDouble [stumpAt 0 1 1 0, stumpAt 0 1 1 0, stumpAt 0 1 (2 ^ 53) 0] none none (fun _ => 0) (full fun _ => 0) 0 =
      some (2 ^ 53 + 2)) ∧
    ((∀ z, ensemblePredict [stumpAt 0 1 1 (2 ^ 60), stumpAt 0 1 0 (-2 ^ 60), stumpAt 0 1 (-1) 0] none none (fun _ => 0) (full z) 0 = some 0) ∧
      shapRnd roundDouble [stumpAt 0 1 1 (2 ^ 60), stumpAt 0 1 0 (-2 ^ 60), stumpAt 0 1 (-1) 0] 1 [fun _ => 0, fun _ => 2] [[]] (fun _ => 0) 0 0 2 0
        (fun _ => 0) = -1 / 2) := by
  have h1 : ensemblePredictRnd roundDouble [stumpAt 0 1 (2 ^ 53) 0, stumpAt 0 1 1 0, stumpAt 0 1 1 0] none none (fun _ => 0) (full fun _ => 0) 0 =
      some (2 ^ 53) := by decide +kernel
  have h2 : ensemblePredictRnd roundDouble [stumpAt 0 1 1 0, stumpAt 0 1 1 0, stumpAt 0 1 (2 ^ 53) 0] none none (fun _ => 0) (full fun _ => 0) 0 =
      some (2 ^ 53 + 2) := by decide +kernel
  have h3 : ∀ z, ensemblePredict [stumpAt 0 1 1 (2 ^ 60), stumpAt 0 1 0 (-2 ^ 60), stumpAt 0 1 (-1) 0] none none (fun _ => 0) (full z) 0 = some 0 := by
    intro z
    have hst : ∀ a b : ℚ, EndsIn (stumpAt 0 1 a b) (full z) (if z 0 ≤ 1 then 1 else 2) := by
      intro a b
      refine (endsIn_iff (stumpAt_isTree (m := 1) (by norm_num) 1 a b) _ _).mpr ?_
      simp [BTree.descendObs, full]
    have := (C03_predict_is_sum_of_leaf_values (d := 1) (ts := [stumpAt 0 1 1 (2 ^ 60), stumpAt 0 1 0 (-2 ^ 60), stumpAt 0 1 (-1) 0])
      (by simp [stumpAt_wf]) none none (fun _ => 0) (full z) 0).2 (fun _ => if z 0 ≤ 1 then 1 else 2) (by simp [hst])
    rw [this]
    by_cases hz : z 0 ≤ 1 <;> simp [effLimit, stumpAt, hz]
  have h4 : shapRnd roundDouble [stumpAt 0 1 1 (2 ^ 60), stumpAt 0 1 0 (-2 ^ 60), stumpAt 0 1 (-1) 0] 1 [fun _ => 0, fun _ => 2] [[]] (fun _ => 0) 0 0 2 0
        (fun _ => 0) = -1 / 2 := by decide +kernel
  refine ⟨fun h => ?_, fun h => ?_, ⟨h1, h2⟩, h3, h4⟩
  · have := h [stumpAt 0 1 (2 ^ 53) 0, stumpAt 0 1 1 0, stumpAt 0 1 1 0] [stumpAt 0 1 1 0, stumpAt 0 1 1 0, stumpAt 0 1 (2 ^ 53) 0] 1 (fun _ => 0)
      (full fun _ => 0) 0 (by simp [stumpAt_wf]) (List.perm_append_comm (l₁ := [stumpAt 0 1 (2 ^ 53) 0]) (l₂ := [stumpAt 0 1 1 0, stumpAt 0 1 1 0]))
    rw [h1, h2] at this
    norm_num at this
  have := h [stumpAt 0 1 1 (2 ^ 60), stumpAt 0 1 0 (-2 ^ 60), stumpAt 0 1 (-1) 0] 1 [fun _ => 0, fun _ => 2] (fun _ => 0) 0 0
    (by simp [stumpAt_wf]) (by norm_num) h3
  rw [h4] at this
  norm_num at this

end Acv

import Verif.Lemmas.LoadLgb
import Verif.Props.Tree

/-!
# C44: LightGBM trees
-/

namespace Acv

/-- The arrays left by `np.empty`. -/
def exJunk : TreeArr := ⟨0, fun _ => 77, fun _ => 78, fun _ => 79, fun _ => 80, fun _ => 81, fun _ _ => 82, fun _ => 83⟩

/-- A dump with two splits and three leaves, numbered as LightGBM does. -/
def exDump : LgbNode :=
  .split 0 1 (.le 3) true .nan 5 10 (.leaf 0 2 4)
    (.split 1 0 (.le 1) false .nan 6 6 (.leaf 2 7 1) (.leaf 1 9 5))

theorem exDump_ok : LgbDump 3 exDump where
  numeric := ⟨⟨3, rfl⟩, trivial, ⟨1, rfl⟩, trivial, trivial⟩
  splits := by decide
  leaves := by decide
  root := by decide

/-- **C44, structure.** Every numeric dump is loaded without exception into a well-formed tree of `2 * num_leaves - 1` nodes. -/
theorem C44_structure (junk : TreeArr) (scaling : ℚ) {nl : Nat} {T : LgbNode} (h : LgbDump nl T) {d : Nat} (hd : ∀ f ∈ T.features, f < d) :
    ∃ t, lgbLoad junk scaling nl T = .ok t ∧ t.size = 2 * nl - 1 ∧ WellFormed t d := by
  obtain ⟨t, h1, h2, -, h4⟩ := lgbLoad_isTree junk scaling h hd
  refine ⟨_, h1, ?_, _, isTree_value _ h4⟩
  show t.size = _
  rw [h2]
  have := LgbNode.leafIds_ne_nil h.numeric
  have hl := h.leaves.length_eq
  rw [List.length_range] at hl
  have : T.leafIds.length ≠ 0 := by simpa using this
  omega

example : ∀ f ∈ exDump.features, f < 2 := by decide

/-- The claim of C44: the loaded tree ends, for every observation, in a leaf with the value LightGBM predicts, times the scaling. -/
def C44_claim (T : LgbNode) : Prop :=
  ∀ (junk : TreeArr) (scaling : ℚ) (nl : Nat), T.splits.Perm (List.range (nl - 1)) → T.leafIds.Perm (List.range nl) →
    (T.splits.head? = some 0 ∨ T.splits = []) → ∀ x : Obs, ∃ t ℓ, lgbLoad junk scaling nl T = .ok t ∧ t.leafOf x = some ℓ ∧
      ∀ k, t.value ℓ k = T.predict x * scaling

/-- **C44 (partial).** For numeric dumps and observations whose missing values are handled through `default_left`, the loaded tree ends in a
leaf with the value LightGBM predicts, times the scaling, and with the number of training rows of that leaf. Missing: categorical splits
(`C44_category_false`), NaN where `missing_type` is `"None"` or `"Zero"` (`C44_nan_false`), zeros where it is `"Zero"` (`C44_zero_false`). -/
theorem C44_partial (junk : TreeArr) (scaling : ℚ) {nl : Nat} {T : LgbNode} (h : LgbDump nl T) (x : Obs) (hx : T.Handles x) :
    ∃ t ℓ, lgbLoad junk scaling nl T = .ok t ∧ t.leafOf x = some ℓ ∧ (∀ k, t.value ℓ k = T.predict x * scaling) ∧
      t.weight ℓ = T.reached x := by
  obtain ⟨d, hd⟩ : ∃ d, ∀ f ∈ T.features, f < d := by
    refine ⟨T.features.foldr max 0 + 1, fun f hf => ?_⟩
    have : ∀ l : List Nat, f ∈ l → f ≤ l.foldr max 0 := by
      intro l
      induction l with
      | nil => simp
      | cons a l ih =>
        intro hm
        rw [List.foldr_cons]
        rcases List.mem_cons.1 hm with rfl | hm
        · exact le_max_left _ _
        · exact le_trans (ih hm) (le_max_right _ _)
    exact Nat.lt_succ_of_le (this _ hf)
  obtain ⟨t, h1, h2, h3, h4⟩ := lgbLoad_isTree junk scaling h hd
  obtain ⟨hv, hw⟩ := stored_value (nl - 1) x h3 hx (h.positions.nodup_iff.2 List.nodup_range)
  refine ⟨_, _, h1, leafOf_obs (isTree_value _ h4) x, ?_, ?_⟩
  · intro k
    rw [descendObs_value]
    show t.value _ k * scaling = _
    rw [hv]
  · rw [descendObs_value]
    exact hw

/-- The features of the splits with `missing_type` `"Zero"`. -/
def LgbNode.zeroMissing : LgbNode → List Nat
  | .leaf _ _ _ => []
  | .stump _ => []
  | .split _ f _ _ m _ _ l r => (if m = .zero then [f] else []) ++ (l.zeroMissing ++ r.zeroMissing)

/-- **C44, complete observations.** `C44_partial` applies to every complete observation that is not zero on the features of the splits with
`missing_type` `"Zero"` (by default there is none). -/
theorem C44_complete (x : Nat → ℚ) : ∀ (T : LgbNode), (∀ f ∈ T.zeroMissing, x f ≠ 0) → T.Handles (full x)
  | .leaf _ _ _, _ => trivial
  | .stump _, _ => trivial
  | .split _ f _ _ _ _ _ l r, h => by
    refine ⟨fun _ hc => (by cases hc), fun hm hc => ?_, C44_complete x l ?_, C44_complete x r ?_⟩
    · exact h f (by simp [LgbNode.zeroMissing, hm]) (Option.some.inj hc)
    · intro f hf; exact h f (by simp [LgbNode.zeroMissing, hf])
    · intro f hf; exact h f (by simp [LgbNode.zeroMissing, hf])

example : exDump.Handles (fun _ => none) ∧ exDump.predict (fun _ => none) = 2 ∧ exDump.predict (full fun _ => 4) = 9 := by
  refine ⟨⟨by simp, by simp, trivial, by simp, by simp, trivial, trivial⟩, ?_, ?_⟩ <;> decide +kernel

example : (match lgbLoad exJunk 2 3 exDump with
    | .ok t => (t.leafOf (full fun _ => 4)).map fun ℓ => (ℓ, t.value ℓ 0, t.weight ℓ)
    | .error _ => none) = some (3, 18, 5) := by decide +kernel

/-- **C44 is false for NaN under `missing_type` `"None"`.** LightGBM replaces NaN by zero; the loaded tree follows `default_left`. -/
theorem C44_nan_false : ¬ C44_claim (.split 0 0 (.le 1) false .none 0 2 (.leaf 0 5 1) (.leaf 1 6 1)) := by
  intro h
  obtain ⟨t, ℓ, h1, h2, h3⟩ := h exJunk 1 2 (by decide) (by decide) (by decide) (fun _ => none)
  have e := Except.ok.inj (h1.symm.trans rfl)
  subst e
  have : ℓ = 2 := Option.some.inj (h2.symm.trans (by decide +kernel))
  subst this
  have := h3 0
  revert this
  decide +kernel

/-- **C44 is false for zeros under `missing_type` `"Zero"`.** LightGBM sends zeros to the default child; the loaded tree compares them. -/
theorem C44_zero_false : ¬ C44_claim (.split 0 0 (.le 1) false .zero 0 2 (.leaf 0 5 1) (.leaf 1 6 1)) := by
  intro h
  obtain ⟨t, ℓ, h1, h2, h3⟩ := h exJunk 1 2 (by decide) (by decide) (by decide) (fun _ => some 0)
  have e := Except.ok.inj (h1.symm.trans rfl)
  subst e
  have : ℓ = 1 := Option.some.inj (h2.symm.trans (by decide +kernel))
  subst this
  have := h3 0
  revert this
  decide +kernel

/-- **C44 is false for a split on one category.** `x == 3` is loaded as `x <= 3`. -/
theorem C44_category_false : ¬ C44_claim (.split 0 0 (.eq [3]) false .none 0 2 (.leaf 0 5 1) (.leaf 1 6 1)) := by
  intro h
  obtain ⟨t, ℓ, h1, h2, h3⟩ := h exJunk 1 2 (by decide) (by decide) (by decide) (fun _ => some 2)
  have e := Except.ok.inj (h1.symm.trans rfl)
  subst e
  have : ℓ = 1 := Option.some.inj (h2.symm.trans (by decide +kernel))
  subst this
  have := h3 0
  revert this
  decide +kernel

/-- The dump with every test on one category replaced by a comparison with its number. -/
def LgbNode.asNumbers : LgbNode → LgbNode
  | .split i f (.eq [c]) dl m v n l r => .split i f (.le c) dl m v n l.asNumbers r.asNumbers
  | .split i f test dl m v n l r => .split i f test dl m v n l.asNumbers r.asNumbers
  | T => T

theorem LgbNode.asNumbers_size (T : LgbNode) : T.asNumbers.size = T.size := by
  fun_induction LgbNode.asNumbers T with
  | case1 _ _ _ _ _ _ _ _ _ h1 h2 => simp [LgbNode.size, h1, h2]
  | case2 _ _ _ _ _ _ _ _ _ _ h1 h2 => simp [LgbNode.size, h1, h2]
  | case3 => rfl

theorem LgbNode.asNumbers_pos (n : Nat) (T : LgbNode) : T.asNumbers.pos n = T.pos n := by
  fun_cases LgbNode.asNumbers T <;> rfl

theorem lgbLoop_asNumbers (n : Nat) : ∀ (fuel : Nat) (queue : List LgbNode) (visited : List Nat) (t : TreeArr),
    lgbLoop n fuel (queue.map LgbNode.asNumbers) visited t = lgbLoop n fuel queue visited t
  | 0, _, _, _ => by simp [lgbLoop]
  | fuel + 1, [], _, _ => by simp [lgbLoop]
  | fuel + 1, .leaf i v c :: queue, visited, t => by
    simp only [List.map_cons, LgbNode.asNumbers, lgbLoop, lgbLoop_asNumbers n fuel]
  | fuel + 1, .stump v :: queue, visited, t => by simp only [List.map_cons, LgbNode.asNumbers, lgbLoop]
  | fuel + 1, .split i f test dl m v c l r :: queue, visited, t => by
    have key : ∀ test', test'.threshold = test.threshold →
        lgbLoop n (fuel + 1) (.split i f test' dl m v c l.asNumbers r.asNumbers :: queue.map LgbNode.asNumbers) visited t =
        lgbLoop n (fuel + 1) (.split i f test dl m v c l r :: queue) visited t := by
      intro test' e
      have hq : queue.map LgbNode.asNumbers ++ [l.asNumbers, r.asNumbers] = (queue ++ [l, r]).map LgbNode.asNumbers := by simp
      simp only [lgbLoop, LgbNode.asNumbers_pos, e, hq, lgbLoop_asNumbers n fuel]
    rw [List.map_cons]
    match test, key with
    | .le _, key => exact key _ rfl
    | .eq [], key => exact key _ rfl
    | .eq [_], key => exact key _ rfl
    | .eq (_ :: _ :: _), key => exact key _ rfl

/-- **C44, single categories.** A dump with tests on one category is loaded as the dump in which `x == c` is replaced by `x <= c`. -/
theorem C44_category (junk : TreeArr) (scaling : ℚ) (nl : Nat) (T : LgbNode) :
    lgbLoad junk scaling nl T = lgbLoad junk scaling nl T.asNumbers := by
  unfold lgbLoad
  rw [LgbNode.asNumbers_size, ← lgbLoop_asNumbers _ _ [T], List.map_singleton]

example : (LgbNode.split 0 0 (.eq [3]) false .none 0 2 (.leaf 0 5 1) (.leaf 1 6 1)).asNumbers =
    .split 0 0 (.le 3) false .none 0 2 (.leaf 0 5 1) (.leaf 1 6 1) := rfl

/-- **C44, several categories, single leaves.** A split on several categories, and a tree with a single leaf, raise; then the whole model is
left without trees. -/
theorem C44_raises (junk : TreeArr) (scaling : ℚ) (nl : Nat) :
    (∀ i f c c' cs dl m v n l r, l.Numeric → r.Numeric →
      lgbLoad junk scaling nl (.split i f (.eq (c :: c' :: cs)) dl m v n l r) = .error "ValueError") ∧
    (∀ v, lgbLoad junk scaling nl (.stump v) = .error "KeyError") ∧
    ∀ dumps, (∃ p ∈ dumps, ∃ e, lgbLoad junk 1 p.1 p.2 = .error e) → lgbTrees junk dumps = none := by
  refine ⟨?_, fun v => rfl, ?_⟩
  · intro i f c c' cs dl m v n l r hl hr
    have hs : (LgbNode.split i f (.eq (c :: c' :: cs)) dl m v n l r).size = (l.size + r.size) + 1 := by
      simp only [LgbNode.size]; omega
    unfold lgbLoad
    rw [hs]
    unfold lgbLoop
    rw [if_neg (by simp)]
    simp only [LgbNode.pos_numeric _ hl, LgbNode.pos_numeric _ hr, LgbTest.threshold]
  · rintro dumps ⟨p, hp, e, he⟩
    have : ∀ ds : List (Nat × LgbNode), p ∈ ds → ∃ e, ds.mapM (fun p => lgbLoad junk 1 p.1 p.2) = .error e := by
      intro ds
      induction ds with
      | nil => simp
      | cons q ds ih =>
        intro hm
        rw [List.mapM_cons]
        rcases List.mem_cons.1 hm with rfl | hm
        · rw [he]; exact ⟨e, rfl⟩
        · obtain ⟨e', he'⟩ := ih hm
          cases hq : lgbLoad junk 1 q.1 q.2 with
          | error e2 => exact ⟨e2, rfl⟩
          | ok t => rw [he']; exact ⟨e', rfl⟩
    obtain ⟨e', he'⟩ := this dumps hp
    unfold lgbTrees
    rw [he']

end Acv

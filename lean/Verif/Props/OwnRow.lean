import Verif.Props.Projected
import Verif.Props.Shapley

/-!
# C134: explaining an observation of the background data
-/

namespace Acv

/-- **C134, Shapley values**: for an observation of the background data the values of the players always sum to its prediction minus the
mean prediction. -/
theorem C134_efficiency {ts : List TreeArr} {m : Nat} (hts : ∀ t ∈ ts, WellFormed t m) {data : List Row} {C : List (List Nat)}
    (hC : ValidGroups m C) (hm : m < ulongMax) {x : Row} (hx : x ∈ data) (k : Nat) (base : Nat → ℚ) (P : Row → ℚ)
    (hP : ∀ z, ensemblePredict ts none none base (full z) k = some (P z)) (rep : List Nat → Nat) (hrep : ∀ g ∈ playerSet m C, rep g ∈ g) :
    ∑ g ∈ playerSet m C, shapCy ts m data C x (rep g) k = P x - (data.map P).sum / data.length :=
  C07_efficiency hts (List.ne_nil_of_mem hx) hC hm x k base P hP (fun _ _ _ h => ⟨x, hx, h⟩) rep hrep

theorem mean_freq_ge {cells : List (List Nat)} {N i n : Nat} (hn : n = cells.length) (hne : cells ≠ []) (h : ∀ c ∈ cells, i ∈ c ∧ c.Sublist (List.range N))
    {P : Nat → Bool} (hP : P i = true) : 1 / (N : ℚ) ≤ (cells.map fun c => ((c.filter P).length : ℚ) / c.length).sum / n := by
  have hterm : ∀ c ∈ cells, 1 / (N : ℚ) ≤ ((c.filter P).length : ℚ) / c.length := by
    intro c hc
    obtain ⟨h1, h2⟩ := h c hc
    have h3 : 1 ≤ (c.filter P).length := List.length_pos_of_mem (List.mem_filter.2 ⟨h1, hP⟩)
    have h4 : c.length ≤ N := by simpa using h2.length_le
    have h5 : 0 < c.length := List.length_pos_of_mem h1
    have h3' : (1 : ℚ) ≤ (c.filter P).length := by exact_mod_cast h3
    have h4' : (c.length : ℚ) ≤ N := by exact_mod_cast h4
    have h5' : (0 : ℚ) < c.length := by exact_mod_cast h5
    exact div_le_div₀ (by positivity) h3' h5' h4'
  have hsum : (cells.length : ℚ) * (1 / N) ≤ (cells.map fun c => ((c.filter P).length : ℚ) / c.length).sum := by
    have := List.card_nsmul_le_sum (cells.map fun c => ((c.filter P).length : ℚ) / c.length) (1 / (N : ℚ)) (by
      intro v hv
      obtain ⟨c, hc, rfl⟩ := List.mem_map.1 hv
      exact hterm c hc)
    simpa using this
  have hl : (0 : ℚ) < cells.length := by exact_mod_cast List.length_pos_of_ne_nil hne
  rw [hn, le_div_iff₀ hl, mul_comm]
  exact hsum

/-- **C134, projected forest**: for an observation of the background data and every set of columns, SDP and DDP add up to 1, the weights
of the background rows add up to 1, the distribution function reaches 1 and the expectation lies between the labels. The observation has
weight at least `1 / N`, so the SDP is at least `1 / N` if its own label is the explained decision. -/
theorem C134_forest {mems : List Mem} (hne : mems ≠ []) (S : List Nat) (data : Nat → Row) (y : Nat → ℚ) (minSize maxDepth : Nat)
    {N i : Nat} (hi : i < N) (yx : ℚ) (classifier : Bool) (t : ℚ × ℚ) :
    sdpRf mems S (data i) yx data y minSize maxDepth N classifier t + ddpRf mems S (data i) yx data y minSize maxDepth N classifier t = 1 ∧
    ((List.range N).map fun j => ruleWeights mems S (data i) data minSize maxDepth N j).sum = 1 ∧
    1 / (N : ℚ) ≤ ruleWeights mems S (data i) data minSize maxDepth N i ∧
    ((if classifier then y i = yx else t.1 ≤ y i ∧ y i ≤ t.2) →
      1 / (N : ℚ) ≤ sdpRf mems S (data i) yx data y minSize maxDepth N classifier t) ∧
    (∀ a, (∀ j < N, y j ≤ a) → cdfRf mems S (data i) data y minSize maxDepth N a = 1) ∧
    ∀ lo hi, (∀ j < N, lo ≤ y j ∧ y j ≤ hi) → lo ≤ expRf mems S (data i) data y minSize maxDepth N ∧
      expRf mems S (data i) data y minSize maxDepth N ≤ hi := by
  have hself : SameOn S (data i) (data i) := fun _ _ => rfl
  obtain ⟨hc, hv⟩ := no_empty_cell (mems := mems) (minSize := minSize) (maxDepth := maxDepth) ⟨i, hi, hself⟩
  have hcell : ∀ c ∈ cellsSet mems S (data i) data minSize maxDepth N, i ∈ c ∧ c.Sublist (List.range N) := fun c h =>
    ⟨forestRun_keeps hi hself h, forestRun_sublist h⟩
  have hlen : mems.length = (cellsSet mems S (data i) data minSize maxDepth N).length := by
    unfold cellsSet; rw [forestRun_length]
  have hcne : cellsSet mems S (data i) data minSize maxDepth N ≠ [] := by
    intro e
    rw [e] at hlen
    exact hne (List.length_eq_zero_iff.1 hlen)
  have hsdp : ∀ (y : Nat → ℚ) (yx : ℚ), y i = yx → 1 / (N : ℚ) ≤ sdpRf mems S (data i) yx data y minSize maxDepth N true t := by
    intro y yx h
    rw [(C21_is_mean_frequency mems S (data i) yx data y minSize maxDepth N t).1]
    exact mean_freq_ge hlen hcne hcell (by simpa using h)
  refine ⟨C21_complement_partial hne yx y classifier t hc, C27_sum_one_partial hne hc, ?_, ?_, (C28_partial hne y hc hv).1, (C28_partial hne y hc hv).2⟩
  · have h := hsdp (fun j => if j = i then 1 else 0) 1 (by simp)
    rw [(C27_weights mems S (data i) data minSize maxDepth N).2.2.1] at h
    refine le_trans h (le_of_eq ?_)
    have e : ∀ j, ruleWeights mems S (data i) data minSize maxDepth N j * ind (sameDec true 1 t (if j = i then 1 else 0)) =
        if j = i then ruleWeights mems S (data i) data minSize maxDepth N i else 0 := by
      intro j
      by_cases hj : j = i
      · subst hj; simp [sameDec, ind]
      · simp [sameDec, ind, hj]
    simp only [e]
    rw [List.sum_map_ite_eq]
    simp [List.count_eq_one_of_mem List.nodup_range (List.mem_range.2 hi)]
  · intro h
    cases classifier with
    | true => exact hsdp y yx (by simpa using h)
    | false =>
      rw [(C21_is_mean_frequency mems S (data i) yx data y minSize maxDepth N t).2.2.1]
      exact mean_freq_ge hlen hcne hcell (by simpa using h)

/-- A background row in a forest of two trees, with its own label. -/
example : 1 / (10 : ℚ) ≤ ruleWeights [Mem.ofTree ladderTree leafJunk, Mem.ofTree rootSplit leafJunk] [0, 2] (diag 4) diag 1 3 10 4 ∧
    sdpRf [Mem.ofTree ladderTree leafJunk, Mem.ofTree rootSplit leafJunk] [0, 2] (diag 4) 4 diag (fun i => i) 1 3 10 true (0, 0) < 1 := by
  constructor <;> decide +kernel

/-- A background row for the Shapley values. -/
example : (fun _ => 2 : Row) ∈ exData := by simp [exData]

/-- An observation that is not in the background has no such bound: all weights can be 0. -/
theorem C134_new_observation : ∃ (mems : List Mem) (S : List Nat) (x : Row) (data : Nat → Row), mems ≠ [] ∧ x ≠ data 0 ∧
    ruleWeights mems S x data 1 1 1 0 = 0 ∧ sdpRf mems S x 1 data (fun _ => 1) 1 1 1 true (0, 0) = 0 :=
  ⟨[Mem.ofTree rootSplit leafJunk], [0], fun _ => 2, fun _ _ => 0, by simp, fun h => by simpa using congrFun h 0, by decide +kernel, by decide +kernel⟩

end Acv

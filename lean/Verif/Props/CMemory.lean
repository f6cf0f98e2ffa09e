import Verif.Lemmas.CMemory
import Verif.Props.Tree

/-!
# C102: the compiled predictions stay inside their arrays and give every row its own sum of leaf values
-/

namespace Acv

theorem maxNodes_le {ts : List TreeArr} {m : Nat} (h : ∀ t ∈ ts, t.size ≤ m) : maxNodes ts ≤ m := by
  have key : ∀ (l : List Nat) (a : Nat), a ≤ m → (∀ n ∈ l, n ≤ m) → l.foldl max a ≤ m := by
    intro l
    induction l with
    | nil => intro a ha _; exact ha
    | cons n l ih =>
      intro a ha hl
      exact ih _ (max_le ha (hl n (by simp))) fun n hn => hl n (by simp [hn])
  refine key _ 0 (Nat.zero_le _) ?_
  intro n hn
  obtain ⟨t, ht, rfl⟩ := List.mem_map.mp hn
  exact h t ht

theorem wellFormed_size_pos {t : TreeArr} {d : Nat} (h : WellFormed t d) : 0 < t.size := by
  obtain ⟨b, hb⟩ := h
  exact (hb.all 0).mp (by rw [← hb.root]; exact b.id_mem_ids)

/-- the descent of the tree `j` of the padded arrays for the row `i` -/
theorem packed_walk_ok {ts : List TreeArr} {d K M N : Nat} (h : ∀ t ∈ ts, WellFormed t d) (hd : d ≤ M) (hM : M < 4294967296)
    (h32 : ts.length * maxNodes ts < 4294967296) (x : Nat → Obs) (junk : ℚ) (fuel : Nat) (hf : maxNodes ts ≤ fuel)
    (limit : Nat) (value base : CArr ℚ) {i j : Nat} (hi : i < N) (hj : j < ts.length) {ℓ : Nat} (hl : EndsIn ts[j] (x i) ℓ) :
    cTreePredict ⟨⟨ts.length * maxNodes ts, (pack ts).left⟩, ⟨ts.length * maxNodes ts, (pack ts).right⟩,
        ⟨ts.length * maxNodes ts, (pack ts).dflt⟩, ⟨ts.length * maxNodes ts, (pack ts).feature⟩,
        ⟨ts.length * maxNodes ts, (pack ts).threshold⟩, value, base, limit, maxNodes ts, K⟩
      ⟨rowMajor N M fun i j => (x i j).getD junk, rowMajor N M fun i j => (x i j).isNone, N, M⟩ (i * M) fuel j =
      some (u32 ((j * maxNodes ts + ℓ) * K)) := by
  obtain ⟨b, hb⟩ := h ts[j] (List.getElem_mem hj)
  have hjm : j * maxNodes ts + maxNodes ts ≤ ts.length * maxNodes ts := by
    have : (j + 1) * maxNodes ts ≤ ts.length * maxNodes ts := Nat.mul_le_mul_right _ hj
    rwa [Nat.succ_mul] at this
  have hsz := size_le_maxNodes (List.getElem_mem hj)
  have key := cWalk_ok (t := ⟨⟨ts.length * maxNodes ts, (pack ts).left⟩, ⟨ts.length * maxNodes ts, (pack ts).right⟩,
        ⟨ts.length * maxNodes ts, (pack ts).dflt⟩, ⟨ts.length * maxNodes ts, (pack ts).feature⟩,
        ⟨ts.length * maxNodes ts, (pack ts).threshold⟩, value, base, limit, maxNodes ts, K⟩)
      (d := ⟨rowMajor N M fun i j => (x i j).getD junk, rowMajor N M fun i j => (x i j).isNone, N, M⟩)
      (xo := i * M) (o := j * maxNodes ts) (n := (ts[j]).size) (a := ts[j]) (z := x i) (by omega) (by
        intro p hp
        have hc := pack_cell hj hp
        refine ⟨?_, ?_, ?_, ?_, ?_, ?_⟩
        iterate 5 show _ < ts.length * maxNodes ts; omega
        simp [pack, hc.1, hc.2, hj, hp]) b hb.enc (fun p hp => (hb.all p).mp hp) (by
        intro f hf
        have hfM : f < M := lt_of_lt_of_le (hb.vars f hf) hd
        have hiM : i * M + M ≤ N * M := by
          have : (i + 1) * M ≤ N * M := Nat.mul_le_mul_right _ hi
          rwa [Nat.succ_mul] at this
        have e1 : (i * M + f) / M = i := by rw [Nat.mul_comm, Nat.mul_add_div (by omega), Nat.div_eq_of_lt hfM, Nat.add_zero]
        have e2 : (i * M + f) % M = f := by rw [Nat.mul_comm, Nat.mul_add_mod, Nat.mod_eq_of_lt hfM]
        refine ⟨by omega, ?_, ?_, ?_, ?_⟩
        · show _ < N * M; omega
        · show _ < N * M; omega
        · simp only [rowMajor, e1, e2]
        · intro v hv; simp only [rowMajor, e1, e2, hv, Option.getD_some])
      fuel (by have := b.height_lt; rw [ids_length hb] at this; omega)
  rw [hb.root] at key
  rw [(endsIn_iff hb (x i) ℓ).mp hl]
  unfold cTreePredict
  rw [u32_of_lt (n := j * maxNodes ts) (by omega)]
  exact key

theorem value_cell {ts : List TreeArr} {K j n k : Nat} (hj : j < ts.length) (hn : n < (ts[j]).size) (hk : k < K) :
    (rowMajor (ts.length * maxNodes ts) K (pack ts).value).get ((j * maxNodes ts + n) * K + k) = (ts[j]).value n k := by
  have e1 : ((j * maxNodes ts + n) * K + k) / K = j * maxNodes ts + n := by
    rw [Nat.mul_comm, Nat.mul_add_div (by omega), Nat.div_eq_of_lt hk, Nat.add_zero]
  have e2 : ((j * maxNodes ts + n) * K + k) % K = k := by rw [Nat.mul_comm, Nat.mul_add_mod, Nat.mod_eq_of_lt hk]
  have hc := pack_cell hj hn
  simp only [rowMajor, e1, e2]
  simp [pack, hc.1, hc.2, hj, hn]

open Finset in
/-- the prediction on memory, with the offset of every leaf modulo 2^32 -/
theorem basePredict_wrapped {ts : List TreeArr} {d K M N : Nat} (h : ∀ t ∈ ts, WellFormed t d) (hne : ts ≠ []) (hd : d ≤ M) (hK : 0 < K)
    (hK32 : K < 4294967296) (hM : M < 4294967296) (hN : N < 4294967296) (h32 : ts.length * maxNodes ts < 4294967296)
    (limit : Nat) (hlim : limit ≤ ts.length) (base : Nat → ℚ) (x : Nat → Obs) (junk : ℚ) (fuel : Nat) (hf : maxNodes ts ≤ fuel)
    (leaf : Nat → TreeArr → Nat) (hleaf : ∀ i, ∀ t ∈ ts, EndsIn t (x i) (leaf i t)) :
    ∃ out, basePredict ts K limit base N M x junk fuel = .ok out ∧ out.len = N * K ∧
      ∀ i < N, ∀ k < K, out.get (i * K + k) = base k + ∑ j ∈ range limit,
        (rowMajor (ts.length * maxNodes ts) K (pack ts).value).get
          (u32 ((j * maxNodes ts + leaf i (ts.getD j TreeArr.empty)) * K) + k) := by
  have hT : 0 < ts.length := List.length_pos_of_ne_nil hne
  have hm : 0 < maxNodes ts := lt_of_lt_of_le (wellFormed_size_pos (h _ (List.getElem_mem hT))) (size_le_maxNodes (List.getElem_mem hT))
  have hTm : ts.length ≤ ts.length * maxNodes ts := Nat.le_mul_of_pos_right _ hm
  have hmT : maxNodes ts ≤ ts.length * maxNodes ts := Nat.le_mul_of_pos_left _ hT
  have hpos : 0 < ts.length * maxNodes ts * K := Nat.mul_pos (Nat.mul_pos hT hm) hK
  unfold basePredict cextPredict
  simp only [show (pack ts).maxNodes = maxNodes ts from rfl, show (pack ts).numTrees = ts.length from rfl]
  rw [if_neg (by simp), u32_of_lt hK32, u32_of_lt (n := maxNodes ts) (by omega), u32_of_lt (n := limit) (by omega), u32_of_lt hN,
    u32_of_lt hM]
  obtain ⟨o, e, hl, hg⟩ := cDense_ok ⟨⟨ts.length * maxNodes ts, (pack ts).left⟩, ⟨ts.length * maxNodes ts, (pack ts).right⟩,
        ⟨ts.length * maxNodes ts, (pack ts).dflt⟩, ⟨ts.length * maxNodes ts, (pack ts).feature⟩,
        ⟨ts.length * maxNodes ts, (pack ts).threshold⟩, rowMajor (ts.length * maxNodes ts) K (pack ts).value, ⟨K, base⟩, limit,
        maxNodes ts, K⟩
      ⟨rowMajor N M fun i j => (x i j).getD junk, rowMajor N M fun i j => (x i j).isNone, N, M⟩ fuel
      (fun i j => u32 ((j * maxNodes ts + leaf i (ts.getD j TreeArr.empty)) * K)) ⟨N * K, fun _ => 0⟩ rfl le_rfl (by
        intro i hi j hj
        have hj' : j < ts.length := lt_of_lt_of_le hj hlim
        have hg : ts.getD j TreeArr.empty = ts[j] := by simp [List.getD_eq_getElem?_getD, hj']
        rw [hg]
        have hl := hleaf i ts[j] (List.getElem_mem hj')
        refine ⟨packed_walk_ok h hd hM h32 x junk fuel hf limit _ _ hi hj' hl, ?_⟩
        obtain ⟨b, hb⟩ := h ts[j] (List.getElem_mem hj')
        have hsz : leaf i ts[j] < (ts[j]).size := by
          rw [(endsIn_iff hb (x i) _).mp hl]; exact (hb.all _).mp (b.leaves_sub _ (descendObs_mem _ b))
        have hs := size_le_maxNodes (List.getElem_mem hj')
        have h1 : (j + 1) * maxNodes ts ≤ ts.length * maxNodes ts := Nat.mul_le_mul_right _ hj'
        rw [Nat.succ_mul] at h1
        have h2 : (j * maxNodes ts + leaf i ts[j] + 1) * K ≤ ts.length * maxNodes ts * K := Nat.mul_le_mul_right _ (by omega)
        rw [Nat.succ_mul] at h2
        have h3 : u32 ((j * maxNodes ts + leaf i ts[j]) * K) ≤ (j * maxNodes ts + leaf i ts[j]) * K := Nat.mod_le _ _
        show _ + K ≤ ts.length * maxNodes ts * K
        omega)
  rw [e]
  refine ⟨o, ?_, hl, fun i hi k hk => ?_⟩
  · simp only; rw [if_pos (by exact hpos)]
  · rw [hg i hi k hk]; simp only; ring

theorem sum_take_eq (ts : List TreeArr) (g : TreeArr → ℚ) : ∀ L ≤ ts.length,
    ((ts.take L).map g).sum = ∑ j ∈ Finset.range L, g (ts.getD j TreeArr.empty)
  | 0, _ => by simp
  | L + 1, h => by
    rw [List.take_succ, List.getElem?_eq_getElem (by omega), Finset.sum_range_succ, ← sum_take_eq ts g L (by omega)]
    simp [List.getD_eq_getElem?_getD, show L < ts.length by omega]

/-- **C102.** `predict` with its memory: for every list of well-formed trees over `d` of the `M` columns of the data, with at most `m` nodes
each, if the values of all the trees are fewer than 2^32, the compiled loop ends, reads and writes only inside its arrays, and the cell
of row `i` and output `k` of the result is the offset plus the value of the leaf where row `i` ends, for each tree up to the limit.
What the memory holds at missing entries (`junk`) has no effect, nor have the other rows. -/
theorem C102_memory_partial {ts : List TreeArr} {d K M N m : Nat} (h : ∀ t ∈ ts, WellFormed t d) (hne : ts ≠ []) (hd : d ≤ M) (hK : 0 < K)
    (hm : ∀ t ∈ ts, t.size ≤ m) (h32 : ts.length * m * K < 2 ^ 32) (hM : M < 2 ^ 32) (hN : N < 2 ^ 32)
    (dl arg : Option Int) (base : Nat → ℚ) (x : Nat → Obs) (junk : ℚ) (fuel : Nat) (hf : m ≤ fuel) :
    ∃ out, basePredict ts K (effLimit ts.length dl arg) base N M x junk fuel = .ok out ∧ out.len = N * K ∧
      ∀ i < N, ∀ k < K, ∀ leaf : TreeArr → Nat, (∀ t ∈ ts, EndsIn t (x i) (leaf t)) →
        out.get (i * K + k) = base k + ((ts.take (effLimit ts.length dl arg)).map fun t => t.value (leaf t) k).sum := by
  have hex : ∀ i, ∀ t ∈ ts, ∃ ℓ, EndsIn t (x i) ℓ := fun i t ht => ((C03_predict_is_sum_of_leaf_values h dl arg base (x i) 0).1 t ht).exists
  classical
  let leaf : Nat → TreeArr → Nat := fun i t => if ht : t ∈ ts then (hex i t ht).choose else 0
  have hleaf : ∀ i, ∀ t ∈ ts, EndsIn t (x i) (leaf i t) := fun i t ht => by
    show EndsIn t (x i) (dite _ _ _)
    rw [dif_pos ht]; exact (hex i t ht).choose_spec
  have hmm := maxNodes_le hm
  have hT : 0 < ts.length := List.length_pos_of_ne_nil hne
  have hm0 : 0 < maxNodes ts := lt_of_lt_of_le (wellFormed_size_pos (h _ (List.getElem_mem hT))) (size_le_maxNodes (List.getElem_mem hT))
  have h1 : ts.length * maxNodes ts ≤ ts.length * m := Nat.mul_le_mul_left _ hmm
  have h2 : ts.length * m ≤ ts.length * m * K := Nat.le_mul_of_pos_right _ hK
  have h3 : K ≤ ts.length * maxNodes ts * K := Nat.le_mul_of_pos_left _ (Nat.mul_pos hT hm0)
  have h4 : ts.length * maxNodes ts * K ≤ ts.length * m * K := Nat.mul_le_mul_right _ h1
  norm_num at h32 hM hN
  have hL := effLimit_le ts.length dl arg
  obtain ⟨out, e, hl, hg⟩ := basePredict_wrapped h hne hd hK (by omega) hM hN (by omega) (effLimit ts.length dl arg) hL base x junk fuel
    (by omega) leaf hleaf
  refine ⟨out, e, hl, fun i hi k hk leaf' hleaf' => ?_⟩
  rw [hg i hi k hk, sum_take_eq _ _ _ hL]
  congr 1
  refine Finset.sum_congr rfl fun j hj => ?_
  have hj' : j < ts.length := lt_of_lt_of_le (Finset.mem_range.mp hj) hL
  have hgd : ts.getD j TreeArr.empty = ts[j] := by simp [List.getD_eq_getElem?_getD, hj']
  rw [hgd]
  obtain ⟨b, hb⟩ := h ts[j] (List.getElem_mem hj')
  have hu : leaf' ts[j] = leaf i ts[j] := by
    rw [(endsIn_iff hb (x i) _).mp (hleaf' _ (List.getElem_mem hj')), (endsIn_iff hb (x i) _).mp (hleaf i _ (List.getElem_mem hj'))]
  have hsz : leaf i ts[j] < (ts[j]).size := by
    rw [(endsIn_iff hb (x i) _).mp (hleaf i _ (List.getElem_mem hj'))]; exact (hb.all _).mp (b.leaves_sub _ (descendObs_mem _ b))
  have hs := size_le_maxNodes (List.getElem_mem hj')
  have h5 : (j + 1) * maxNodes ts ≤ ts.length * maxNodes ts := Nat.mul_le_mul_right _ hj'
  rw [Nat.succ_mul] at h5
  have h6 : (j * maxNodes ts + leaf i ts[j]) * K ≤ ts.length * maxNodes ts * K := Nat.mul_le_mul_right _ (by omega)
  rw [hu, u32_of_lt (by omega), value_cell hj' hsz hk]

/-- **C102.** The memory of `predict` is that of the predictions of C03, row by row and output by output. -/
theorem C102_refines {ts : List TreeArr} {d K M N m : Nat} (h : ∀ t ∈ ts, WellFormed t d) (hne : ts ≠ []) (hd : d ≤ M) (hK : 0 < K)
    (hm : ∀ t ∈ ts, t.size ≤ m) (h32 : ts.length * m * K < 2 ^ 32) (hM : M < 2 ^ 32) (hN : N < 2 ^ 32)
    (dl arg : Option Int) (base : Nat → ℚ) (x : Nat → Obs) (junk : ℚ) (fuel : Nat) (hf : m ≤ fuel) :
    ∃ out, basePredict ts K (effLimit ts.length dl arg) base N M x junk fuel = .ok out ∧
      ∀ i < N, ∀ k < K, ensemblePredict ts dl arg base (x i) k = some (out.get (i * K + k)) := by
  obtain ⟨out, e, hl, hg⟩ := C102_memory_partial h hne hd hK hm h32 hM hN dl arg base x junk fuel hf
  refine ⟨out, e, fun i hi k hk => ?_⟩
  have hex := (C03_predict_is_sum_of_leaf_values h dl arg base (x i) k).1
  classical
  let leaf : TreeArr → Nat := fun t => if ht : t ∈ ts then (hex t ht).choose else 0
  have hleaf : ∀ t ∈ ts, EndsIn t (x i) (leaf t) := fun t ht => by
    show EndsIn t (x i) (dite _ _ _)
    rw [dif_pos ht]; exact (hex t ht).choose_spec.1
  rw [(C03_predict_is_sum_of_leaf_values h dl arg base (x i) k).2 leaf hleaf, hg i hi k hk leaf hleaf]

example : (∀ t ∈ [exTree, exLeaf], WellFormed t 2) ∧ [exTree, exLeaf] ≠ [] ∧ (∀ t ∈ [exTree, exLeaf], t.size ≤ 5) ∧ 2 * 5 * 2 < 2 ^ 32 ∧
    (basePredict [exTree, exLeaf] 2 2 (fun k => k) 2 3 (fun i j => if j = i then none else some 2) 9 5).toOption.map
      (fun o => (o.len, (List.range o.len).map o.get)) = some (4, [27, 28, 27, 28]) := by
  refine ⟨by simp [exTree_wf, exLeaf_wf], by simp, by decide, by decide, by decide +kernel⟩

/-- **C102.** A prediction for one tree alone (`single_tree_predict`): the offset plus the value of the leaf of the tree `j`. -/
theorem C102_single {ts : List TreeArr} {d K M N m j : Nat} (h : ∀ t ∈ ts, WellFormed t d) (hj : j < ts.length) (hd : d ≤ M) (hK : 0 < K)
    (hm : ∀ t ∈ ts, t.size ≤ m) (h32 : ts.length * m * K < 2 ^ 32) (hM : M < 2 ^ 32) (hN : N < 2 ^ 32)
    (base : Nat → ℚ) (x : Nat → Obs) (junk : ℚ) (fuel : Nat) (hf : m ≤ fuel) :
    ∃ out, baseSingle ts K base N M x junk j fuel = .ok out ∧ out.len = N * K ∧
      ∀ i < N, ∀ k < K, ∀ ℓ, EndsIn ts[j] (x i) ℓ → out.get (i * K + k) = base k + (ts[j]).value ℓ k := by
  have hmm := maxNodes_le hm
  have hT : 0 < ts.length := by omega
  have hm0 : 0 < maxNodes ts := lt_of_lt_of_le (wellFormed_size_pos (h _ (List.getElem_mem hT))) (size_le_maxNodes (List.getElem_mem hT))
  have h1 : ts.length * maxNodes ts ≤ ts.length * m := Nat.mul_le_mul_left _ hmm
  have h2 : ts.length * m ≤ ts.length * m * K := Nat.le_mul_of_pos_right _ hK
  have h3 : K ≤ ts.length * maxNodes ts * K := Nat.le_mul_of_pos_left _ (Nat.mul_pos hT hm0)
  have h4 : ts.length * maxNodes ts * K ≤ ts.length * m * K := Nat.mul_le_mul_right _ h1
  have hTm : ts.length ≤ ts.length * maxNodes ts := Nat.le_mul_of_pos_right _ hm0
  have hmT : maxNodes ts ≤ ts.length * maxNodes ts := Nat.le_mul_of_pos_left _ hT
  norm_num at h32 hM hN
  obtain ⟨b, hb⟩ := h ts[j] (List.getElem_mem hj)
  have hsz : ∀ i, b.descendObs ts[j] (x i) < (ts[j]).size := fun i => (hb.all _).mp (b.leaves_sub _ (descendObs_mem _ b))
  have hs := size_le_maxNodes (List.getElem_mem hj)
  have h5 : (j + 1) * maxNodes ts ≤ ts.length * maxNodes ts := Nat.mul_le_mul_right _ hj
  rw [Nat.succ_mul] at h5
  have hoff : ∀ i, (j * maxNodes ts + b.descendObs ts[j] (x i)) * K + K ≤ ts.length * maxNodes ts * K := fun i => by
    have := hsz i
    have h6 : (j * maxNodes ts + b.descendObs ts[j] (x i) + 1) * K ≤ ts.length * maxNodes ts * K := Nat.mul_le_mul_right _ (by omega)
    rwa [Nat.succ_mul] at h6
  unfold baseSingle cextSingle
  simp only [show (pack ts).maxNodes = maxNodes ts from rfl, show (pack ts).numTrees = ts.length from rfl]
  rw [if_neg (by simp), u32_of_lt (n := K) (by omega), u32_of_lt (n := maxNodes ts) (by omega), u32_of_lt (n := ts.length) (by omega),
    u32_of_lt hN, u32_of_lt hM, u32i_nat (n := j) (by omega)]
  obtain ⟨o, e, hl, hg⟩ := cSingle_ok ⟨⟨ts.length * maxNodes ts, (pack ts).left⟩, ⟨ts.length * maxNodes ts, (pack ts).right⟩,
        ⟨ts.length * maxNodes ts, (pack ts).dflt⟩, ⟨ts.length * maxNodes ts, (pack ts).feature⟩,
        ⟨ts.length * maxNodes ts, (pack ts).threshold⟩, rowMajor (ts.length * maxNodes ts) K (pack ts).value, ⟨K, base⟩, ts.length,
        maxNodes ts, K⟩
      ⟨rowMajor N M fun i j => (x i j).getD junk, rowMajor N M fun i j => (x i j).isNone, N, M⟩ fuel j
      (fun i => (j * maxNodes ts + b.descendObs ts[j] (x i)) * K) ⟨N * K, fun _ => 0⟩ rfl le_rfl (by
        intro i hi
        have hw := packed_walk_ok (K := K) (N := N) h hd hM (by omega) x junk fuel (by omega) ts.length
          (rowMajor (ts.length * maxNodes ts) K (pack ts).value) ⟨K, base⟩ (i := i) hi hj ((endsIn_iff hb (x i) _).mpr rfl)
        rw [u32_of_lt (by have := hoff i; omega)] at hw
        exact ⟨hw, hoff i⟩)
  rw [e]
  refine ⟨o, ?_, hl, fun i hi k hk ℓ hℓ => ?_⟩
  · simp only; rw [if_pos (by show 0 < ts.length * maxNodes ts * K; omega)]
  · rw [hg i hi k hk]
    simp only
    rw [value_cell hj (hsz i) hk, (endsIn_iff hb (x i) ℓ).mp hℓ]; ring

example : (baseSingle [exTree, exLeaf] 1 (fun _ => 3) 2 2 (fun i _ => some i) 0 1 5).toOption.map (fun o => (List.range o.len).map o.get)
    = some [10, 10] := by decide +kernel

/-- **C102.** `SingleTree.predict`: the value of the leaf divided by the scaling. -/
theorem C102_single_tree {t : TreeArr} {d K M N : Nat} (h : WellFormed t d) (hd : d ≤ M) (hK : 0 < K)
    (h32 : t.size * K < 2 ^ 32) (hM : M < 2 ^ 32) (hN : N < 2 ^ 32) (scaling : ℚ) (x : Nat → Obs) (junk : ℚ) (fuel : Nat)
    (hf : t.size ≤ fuel) :
    ∃ out, singleTreePredict t K scaling N M x junk fuel = .ok out ∧ out.len = N * K ∧
      ∀ i < N, ∀ k < K, ∀ ℓ, EndsIn t (x i) ℓ → out.get (i * K + k) = t.value ℓ k / scaling := by
  have hpos := wellFormed_size_pos h
  obtain ⟨b, hb⟩ := h
  norm_num at h32 hM hN
  have h1 : t.size ≤ t.size * K := Nat.le_mul_of_pos_right _ hK
  have h2 : K ≤ t.size * K := Nat.le_mul_of_pos_left _ hpos
  have hsz : ∀ i, b.descendObs t (x i) < t.size := fun i => (hb.all _).mp (b.leaves_sub _ (descendObs_mem _ b))
  have hoff : ∀ i, b.descendObs t (x i) * K + K ≤ t.size * K := fun i => by
    have h6 : (b.descendObs t (x i) + 1) * K ≤ t.size * K := Nat.mul_le_mul_right _ (hsz i)
    rwa [Nat.succ_mul] at h6
  unfold singleTreePredict cextPredict
  simp only
  rw [if_neg (by simp), u32_of_lt (n := K) (by omega), u32_of_lt (n := t.size) (by omega), u32_of_lt (n := 1) (by omega), u32_of_lt hN,
    u32_of_lt hM]
  obtain ⟨o, e, hl, hg⟩ := cDense_ok ⟨⟨t.size, t.left⟩, ⟨t.size, t.right⟩, ⟨t.size, t.dflt⟩, ⟨t.size, t.feature⟩, ⟨t.size, t.threshold⟩,
        rowMajor t.size K fun n k => t.value n k / scaling, ⟨K, fun _ => 0⟩, 1, t.size, K⟩
      ⟨rowMajor N M fun i j => (x i j).getD junk, rowMajor N M fun i j => (x i j).isNone, N, M⟩ fuel
      (fun i _ => b.descendObs t (x i) * K) ⟨N * K, fun _ => 0⟩ rfl le_rfl (by
        intro i hi j hj
        have hj0 : j = 0 := by have : j < 1 := hj; omega
        subst hj0
        have key := cWalk_ok (t := ⟨⟨t.size, t.left⟩, ⟨t.size, t.right⟩, ⟨t.size, t.dflt⟩, ⟨t.size, t.feature⟩, ⟨t.size, t.threshold⟩,
              rowMajor t.size K fun n k => t.value n k / scaling, ⟨K, fun _ => 0⟩, 1, t.size, K⟩)
            (d := ⟨rowMajor N M fun i j => (x i j).getD junk, rowMajor N M fun i j => (x i j).isNone, N, M⟩)
            (xo := i * M) (o := 0) (n := t.size) (a := t) (z := x i) (by omega) (by
              intro p hp
              rw [Nat.zero_add]
              exact ⟨hp, hp, hp, hp, hp, rfl, rfl, rfl, rfl, rfl⟩) b hb.enc (fun p hp => (hb.all p).mp hp) (by
              intro f hf
              have hfM : f < M := lt_of_lt_of_le (hb.vars f hf) hd
              have hiM : i * M + M ≤ N * M := by
                have : (i + 1) * M ≤ N * M := Nat.mul_le_mul_right _ hi
                rwa [Nat.succ_mul] at this
              have e1 : (i * M + f) / M = i := by rw [Nat.mul_comm, Nat.mul_add_div (by omega), Nat.div_eq_of_lt hfM, Nat.add_zero]
              have e2 : (i * M + f) % M = f := by rw [Nat.mul_comm, Nat.mul_add_mod, Nat.mod_eq_of_lt hfM]
              refine ⟨by omega, ?_, ?_, ?_, ?_⟩
              · show _ < N * M; omega
              · show _ < N * M; omega
              · simp only [rowMajor, e1, e2]
              · intro v hv; simp only [rowMajor, e1, e2, hv, Option.getD_some])
            fuel (by have := b.height_lt; rw [ids_length hb] at this; omega)
        rw [hb.root, Nat.zero_add, u32_of_lt (by have := hoff i; show _ * K < _; omega)] at key
        refine ⟨?_, hoff i⟩
        unfold cTreePredict
        rw [Nat.zero_mul, show u32 0 = 0 from rfl]
        exact key)
  rw [e]
  refine ⟨o, ?_, hl, fun i hi k hk ℓ hℓ => ?_⟩
  · simp only; rw [if_pos (by show 0 < t.size * K; omega)]
  · rw [hg i hi k hk]
    have e1 : (b.descendObs t (x i) * K + k) / K = b.descendObs t (x i) := by
      rw [Nat.mul_comm, Nat.mul_add_div (by omega), Nat.div_eq_of_lt hk, Nat.add_zero]
    have e2 : (b.descendObs t (x i) * K + k) % K = k := by rw [Nat.mul_comm, Nat.mul_add_mod, Nat.mod_eq_of_lt hk]
    simp only [Finset.sum_range_one, rowMajor, e1, e2]
    rw [(endsIn_iff hb (x i) ℓ).mp hℓ]; ring

example : (singleTreePredict exTree 1 4 2 2 (fun i _ => some (2 * i)) 0 5).toOption.map (fun o => (List.range o.len).map o.get)
    = some [5 / 2, 5] := by decide +kernel

theorem cDepth_ok {t : TreeArr} (w : Nat → ℚ) (h32 : t.size < 4294967296) : ∀ s : BTree, Encodes t s → (∀ p ∈ s.ids, p < t.size) →
    s.height < 4294967296 → ∀ fuel, s.height < fuel → cDepth ⟨t.size, t.left⟩ ⟨t.size, t.right⟩ ⟨t.size, w⟩ fuel s.id = some s.height
  | .leaf i, h, hs, _, fuel, hf => by
    obtain ⟨fuel, rfl⟩ : ∃ k, fuel = k + 1 := ⟨fuel - 1, by omega⟩
    have hi : i < t.size := hs i (by simp [BTree.ids])
    have hr : ¬ (t.right i ≥ 0) := by have := h.2; omega
    simp only [cDepth, BTree.id_leaf, BTree.height]
    rw [read_of_lt (by exact hi)]
    simp [hr]
  | .node i f thr l r, h, hs, hh, fuel, hf => by
    obtain ⟨fuel, rfl⟩ : ∃ k, fuel = k + 1 := ⟨fuel - 1, by omega⟩
    have hi : i < t.size := hs i (by simp [BTree.ids])
    obtain ⟨h1, h2, h3, h4, h5, h6, h7⟩ := h
    have hli : l.id < t.size := hs _ (by simp [BTree.ids, BTree.id_mem_ids])
    have hri : r.id < t.size := hs _ (by simp [BTree.ids, BTree.id_mem_ids])
    simp only [BTree.height] at hf hh
    have ihl := cDepth_ok w h32 l h6 (fun p hp => hs p (by simp [BTree.ids, hp])) (by omega) fuel (by omega)
    have ihr := cDepth_ok w h32 r h7 (fun p hp => hs p (by simp [BTree.ids, hp])) (by omega) fuel (by omega)
    simp only [cDepth, BTree.id_node, BTree.height]
    rw [read_of_lt (by exact hi), read_of_lt (by exact hi)]
    simp only [h1, h2, Option.bind_eq_bind, Option.bind_some]
    rw [u32i_nat (n := l.id) (by omega), u32i_nat (n := r.id) (by omega), ihl, ihr, read_of_lt (by exact hli), read_of_lt (by exact hri)]
    simp only [Option.bind_some]
    rw [if_pos (by omega), u32_of_lt hh]
    rfl

/-- **C102.** The depth computed when a tree is loaded, on memory: the recursion ends inside the arrays of any well-formed tree with
fewer than 2^32 nodes, and gives the number of edges of the longest branch (`C04_depth_is_height`), whatever the weights of the nodes. -/
theorem C102_depth {t : TreeArr} {d : Nat} (h : WellFormed t d) (h32 : t.size < 2 ^ 32) (w : Nat → ℚ) (fuel : Nat) (hf : t.size ≤ fuel) :
    ∃ D, cextDepth t w fuel = some D ∧ (∀ k n, Above t k 0 n → k ≤ D) ∧ ∃ ℓ ∈ t.leafIdx, Above t D 0 ℓ := by
  have h4 := C04_depth_is_height h
  obtain ⟨b, hb⟩ := h
  norm_num at h32
  have hlt := b.height_lt
  rw [ids_length hb] at hlt
  have hd : t.maxDepth = b.height := by
    have := depthFrom_eq b hb.enc (t.size + 1) (by omega)
    rwa [hb.root] at this
  refine ⟨b.height, ?_, by rw [← hd]; exact h4.1, by rw [← hd]; exact h4.2.1⟩
  have := cDepth_ok w h32 b hb.enc (fun p hp => (hb.all p).mp hp) (by omega) fuel (by omega)
  rwa [hb.root] at this

example : cextDepth exTree (fun _ => 1) 5 = some 2 := by decide +kernel

/-- **C102.** With a number of offsets other than the number of outputs, nothing is computed and the error has no Python exception. -/
theorem C102_offsets (left right dflt feature : CArr Int) (threshold value : CArr ℚ) (maxNodes K limit : Nat) (base X : CArr ℚ)
    (missing : CArr Bool) (N M fuel : Nat) (out : CArr ℚ) (hK : K < 2 ^ 32) (hb : base.len < 2 ^ 32) (hne : base.len ≠ K) :
    cextPredict left right dflt feature threshold value maxNodes K limit base X missing N M fuel out = .error "SystemError" := by
  norm_num at hK hb
  unfold cextPredict
  rw [u32_of_lt hb, u32_of_lt hK, if_pos hne]

example : (0 : Nat) < 2 ^ 32 ∧ (⟨1, fun _ => 0⟩ : CArr ℚ).len ≠ 0 := by decide

/-- Tests the variable 0, then the variable 1. -/
def narrowTree : TreeArr := { exTree with threshold := fun n => ([1, -2, 1 / 2, -2, -2] : List ℚ).getD n (-2) }

theorem narrowTree_wf : WellFormed narrowTree 2 := by
  refine ⟨.node 0 0 1 (.leaf 1) (.node 2 1 (1 / 2) (.leaf 3) (.leaf 4)), rfl, ?_, by decide, ?_, ?_⟩
  · simp [Encodes, narrowTree, exTree, BTree.id]
  · intro n; simp [BTree.ids, narrowTree, exTree]; omega
  · simp [BTree.vars]

/-- **C102.** *Disproved without the hypothesis on the columns.* The number of columns is not checked: with data of one column and a tree
that also tests the second variable, the prediction of the first row depends on the second row, and with one row alone the prediction
reads outside the data. -/
theorem C102_columns_false : ∃ t, WellFormed t 2 ∧ ∃ x y : Nat → Obs, x 0 = y 0 ∧
    (∃ o, basePredict [t] 1 1 (fun _ => 0) 2 1 x 0 5 = .ok o ∧ ∃ o', basePredict [t] 1 1 (fun _ => 0) 2 1 y 0 5 = .ok o' ∧
      o.get 0 ≠ o'.get 0) ∧
    basePredict [t] 1 1 (fun _ => 0) 1 1 x 0 5 = .error "undefined" := by
  have e1 : (basePredict [narrowTree] 1 1 (fun _ => 0) 2 1 (fun i _ => if i = 0 then some 2 else some 0) 0 5).toOption.map
    (fun o => o.get 0) = some 20 := by decide +kernel
  have e2 : (basePredict [narrowTree] 1 1 (fun _ => 0) 2 1 (fun i _ => if i = 0 then some 2 else some 1) 0 5).toOption.map
    (fun o => o.get 0) = some 30 := by decide +kernel
  have e3 : (match basePredict [narrowTree] 1 1 (fun _ => 0) 1 1 (fun i _ => if i = 0 then some 2 else some 0) 0 5 with
    | .error s => s | .ok _ => "") = "undefined" := by decide +kernel
  refine ⟨narrowTree, narrowTree_wf, fun i _ => if i = 0 then some 2 else some 0, fun i _ => if i = 0 then some 2 else some 1, rfl, ?_, ?_⟩
  · rcases h1 : basePredict [narrowTree] 1 1 (fun _ => 0) 2 1 (fun i _ => if i = 0 then some 2 else some 0) 0 5 with s | o
    · rw [h1] at e1; simp [Except.toOption] at e1
    · rcases h2 : basePredict [narrowTree] 1 1 (fun _ => 0) 2 1 (fun i _ => if i = 0 then some 2 else some 1) 0 5 with s | o'
      · rw [h2] at e2; simp [Except.toOption] at e2
      · rw [h1] at e1; rw [h2] at e2
        simp only [Except.toOption, Option.map_some, Option.some.injEq] at e1 e2
        exact ⟨o, rfl, o', rfl, by rw [e1, e2]; norm_num⟩
  · rcases h3 : basePredict [narrowTree] 1 1 (fun _ => 0) 1 1 (fun i _ => if i = 0 then some 2 else some 0) 0 5 with s | o
    · rw [h3] at e3; simp only at e3; rw [e3]
    · rw [h3] at e3; simp at e3

/-- A tree of one leaf of value `v`. -/
def leafOfValue (v : ℚ) : TreeArr := { exLeaf with value := fun _ _ => v }

theorem leafOfValue_wf (v : ℚ) : WellFormed (leafOfValue v) 0 :=
  ⟨.leaf 0, rfl, by simp [Encodes, leafOfValue, exLeaf], by decide, by simp [BTree.ids, leafOfValue, exLeaf], by simp [BTree.vars]⟩

/-- **C102.** *Disproved without the bound on the number of values.* The position of a leaf in the values is computed modulo 2^32: with
three trees of one leaf, of values 1, 0 and 0, and 2^31 outputs, the third tree reads the value of the first, and the prediction is 2. -/
theorem C102_overflow_false : ∃ ts : List TreeArr, (∀ t ∈ ts, WellFormed t 0) ∧ (∀ t ∈ ts, t.size ≤ 1) ∧
    ∃ K < 2 ^ 32, ∃ out, basePredict ts K ts.length (fun _ => 0) 1 0 (fun _ _ => none) 0 1 = .ok out ∧
      out.get 0 = 2 ∧ (ts.map fun t => t.value 0 0).sum = 1 ∧ ∀ t ∈ ts, EndsIn t (fun _ => none) 0 := by
  have hend : ∀ v, EndsIn (leafOfValue v) (fun _ => none) 0 := fun v => ⟨Visits.refl _, by simp [leafOfValue, exLeaf]⟩
  have hm : maxNodes [leafOfValue 1, leafOfValue 0, leafOfValue 0] = 1 := by rfl
  have hwf : ∀ t ∈ [leafOfValue 1, leafOfValue 0, leafOfValue 0], WellFormed t 0 := by simp [leafOfValue_wf]
  have hleaf : ∀ t ∈ [leafOfValue 1, leafOfValue 0, leafOfValue 0], EndsIn t (fun _ => none) 0 := by simp [hend]
  obtain ⟨out, e, hl, hg⟩ := basePredict_wrapped (K := 2147483648) (M := 0) (N := 1) hwf (by simp) le_rfl (by norm_num) (by norm_num)
    (by norm_num) (by norm_num) (by rw [hm]; norm_num) 3 le_rfl (fun _ => 0) (fun _ _ => none) 0 1 (by rw [hm]) (fun _ _ => 0)
    (fun _ => hleaf)
  refine ⟨[leafOfValue 1, leafOfValue 0, leafOfValue 0], hwf, by simp [leafOfValue, exLeaf], 2147483648, by norm_num, out, e, ?_, ?_, hleaf⟩
  · have := hg 0 (by norm_num) 0 (by norm_num)
    rw [Nat.zero_mul, Nat.add_zero] at this
    rw [this]
    decide +kernel
  · simp [leafOfValue]

/-- **C102.** *Disproved for `single_tree_predict`.* The number of the tree is not checked either. -/
theorem C102_single_false : ∃ ts : List TreeArr, (∀ t ∈ ts, WellFormed t 2) ∧
    baseSingle ts 1 (fun _ => 0) 1 2 (fun _ _ => some 0) 0 ts.length 5 = .error "undefined" := by
  have e : (match baseSingle [exTree] 1 (fun _ => 0) 1 2 (fun _ _ => some 0) 0 1 5 with
    | .error s => s | .ok _ => "") = "undefined" := by decide +kernel
  refine ⟨[exTree], by simp [exTree_wf], ?_⟩
  rcases h : baseSingle [exTree] 1 (fun _ => 0) 1 2 (fun _ _ => some 0) 0 1 5 with s | o
  · rw [h] at e; simp only at e; rw [← e]
  · rw [h] at e; simp at e

/-! ## Bounds -/

theorem cAddRow_bounds {src : CArr ℚ} {so ro : Nat} : ∀ {K : Nat} {out out' : CArr ℚ}, cAddRow K src so ro out = some out' →
    out'.len = out.len ∧ (0 < K → so + K ≤ src.len ∧ ro + K ≤ out.len) := by
  intro K
  induction K with
  | zero =>
    intro out out' h
    obtain rfl := Option.some.inj h
    exact ⟨rfl, fun h => absurd h (lt_irrefl 0)⟩
  | succ K ih =>
    intro out out' h
    unfold cAddRow at h ih
    rw [List.range_succ, List.foldlM_append] at h
    obtain ⟨mid, h1, h2⟩ := Option.bind_eq_some_iff.1 h
    obtain ⟨h3, h4⟩ := ih h1
    simp only [List.foldlM_cons, List.foldlM_nil] at h2
    obtain ⟨o2, h5, h6⟩ := Option.bind_eq_some_iff.1 h2
    obtain rfl := Option.some.inj h6
    obtain ⟨v, h7, h8⟩ := Option.bind_eq_some_iff.1 h5
    unfold CArr.read at h7
    unfold CArr.addAt at h8
    split_ifs at h7 with hs
    split_ifs at h8 with ho
    obtain rfl := Option.some.inj h8
    refine ⟨h3, fun _ => ⟨by omega, by rw [h3] at ho; omega⟩⟩

theorem foldlM_len {α : Type} {f : CArr ℚ → α → Option (CArr ℚ)} (hf : ∀ o a o', f o a = some o' → o'.len = o.len) :
    ∀ {l : List α} {o o' : CArr ℚ}, l.foldlM f o = some o' → o'.len = o.len ∧ ∀ a ∈ l, ∃ o1 o2 : CArr ℚ, o1.len = o.len ∧ f o1 a = some o2 := by
  intro l
  induction l with
  | nil => intro o o' h; obtain rfl := Option.some.inj h; exact ⟨rfl, by simp⟩
  | cons a l ih =>
    intro o o' h
    rw [List.foldlM_cons] at h
    obtain ⟨mid, h1, h2⟩ := Option.bind_eq_some_iff.1 h
    obtain ⟨h3, h4⟩ := ih h2
    have h5 := hf _ _ _ h1
    refine ⟨h3.trans h5, fun b hb => ?_⟩
    rcases List.mem_cons.1 hb with rfl | hb
    · exact ⟨o, mid, rfl, h1⟩
    · obtain ⟨o1, o2, e1, e2⟩ := h4 b hb
      exact ⟨o1, o2, e1.trans h5, e2⟩

theorem cDenseRow_len {t : CTrees} {d : CData} {fuel i : Nat} {o o' : CArr ℚ} (h : cDenseRow t d fuel i o = some o') :
    o'.len = o.len ∧ (0 < t.numOutputs → t.numOutputs ≤ t.base.len ∧ i * t.numOutputs + t.numOutputs ≤ o.len) := by
  unfold cDenseRow at h
  obtain ⟨o1, h1, h2⟩ := Option.bind_eq_some_iff.1 h
  obtain ⟨h3, h4⟩ := cAddRow_bounds h1
  have h5 := (foldlM_len (fun o a o' ho => by
    obtain ⟨leaf, _, h6⟩ := Option.bind_eq_some_iff.1 ho
    exact (cAddRow_bounds h6).1) h2).1
  exact ⟨h5.trans h3, fun hK => ⟨by have := (h4 hK).1; omega, (h4 hK).2⟩⟩

/-- **C102, no cell outside is touched.** When the prediction is defined, the result has the length of the output array given, which has a cell
for each output of each observation, and the array of offsets has one for each output; and each tree used ends in a node of which the
outputs lie inside the array of values. -/
theorem C102_bounds {t : CTrees} {d : CData} {fuel : Nat} {out out' : CArr ℚ} (h : cDense t d fuel out = some out') :
    out'.len = out.len ∧ (0 < d.numX → 0 < t.numOutputs → d.numX * t.numOutputs ≤ out.len ∧ t.numOutputs ≤ t.base.len) ∧
    ∀ i < d.numX, ∀ j < t.treeLimit, ∃ leaf, cTreePredict t d (i * d.M) fuel j = some leaf ∧
      (0 < t.numOutputs → leaf + t.numOutputs ≤ t.value.len) := by
  obtain ⟨h1, h2⟩ := foldlM_len (fun o a o' ho => (cDenseRow_len ho).1) h
  refine ⟨h1, fun hN hK => ?_, fun i hi j hj => ?_⟩
  · obtain ⟨o1, o2, e1, e2⟩ := h2 (d.numX - 1) (List.mem_range.2 (by omega))
    obtain ⟨-, h3⟩ := cDenseRow_len e2
    obtain ⟨h4, h5⟩ := h3 hK
    refine ⟨?_, h4⟩
    rw [e1] at h5
    have : (d.numX - 1) * t.numOutputs + t.numOutputs = d.numX * t.numOutputs := by
      rw [← Nat.succ_mul, Nat.succ_eq_add_one, Nat.sub_add_cancel hN]
    omega
  · obtain ⟨o1, o2, e1, e2⟩ := h2 i (List.mem_range.2 hi)
    unfold cDenseRow at e2
    obtain ⟨o3, -, e3⟩ := Option.bind_eq_some_iff.1 e2
    obtain ⟨o4, o5, -, e4⟩ := (foldlM_len (fun o a o' ho => by
      obtain ⟨leaf, _, h6⟩ := Option.bind_eq_some_iff.1 ho
      exact (cAddRow_bounds h6).1) e3).2 j (List.mem_range.2 hj)
    obtain ⟨leaf, e5, e6⟩ := Option.bind_eq_some_iff.1 e4
    exact ⟨leaf, e5, fun hK => ((cAddRow_bounds e6).2 hK).1⟩

/-- One tree with a single leaf; the output array is one cell short, or not. -/
def oneLeafC : CTrees := ⟨⟨1, fun _ => -1⟩, ⟨1, fun _ => -1⟩, ⟨1, fun _ => -1⟩, ⟨1, fun _ => -1⟩, ⟨1, fun _ => 0⟩, ⟨1, fun _ => 7⟩, ⟨1, fun _ => 2⟩, 1, 1, 1⟩

example : (cDense oneLeafC ⟨⟨2, fun _ => 0⟩, ⟨2, fun _ => false⟩, 2, 1⟩ 1 ⟨2, fun _ => 0⟩).map (fun o => (o.get 0, o.get 1)) = some (9, 9) ∧
    (cDense oneLeafC ⟨⟨2, fun _ => 0⟩, ⟨2, fun _ => false⟩, 2, 1⟩ 1 ⟨1, fun _ => 0⟩).isNone = true := by decide +kernel

/-- **C102, a negative tree number.** `j < 0` becomes `j + 2^32`; unless the product with the number of nodes wraps back into the arrays, the first
read is outside. -/
theorem C102_single_negative (left right dflt feature : CArr Int) (threshold value : CArr ℚ) (maxNodes K limit : Nat) (base X : CArr ℚ)
    (missing : CArr Bool) {N : Nat} (M fuel : Nat) (out : CArr ℚ) (hN : 0 < N) (hN' : N < 2 ^ 32) {j : Nat} (hj : 0 < j) (hm : 0 < maxNodes)
    (hw : j * maxNodes + feature.len ≤ 2 ^ 32) (hb : u32 base.len = u32 K) :
    cextSingle left right dflt feature threshold value maxNodes K limit base X missing N M (-(j : Int)) fuel out = .error "undefined" := by
  norm_num at hN' hw
  have hjm : j ≤ j * maxNodes := Nat.le_mul_of_pos_right _ hm
  have hmj : maxNodes ≤ j * maxNodes := Nat.le_mul_of_pos_left _ hj
  have hpos : 0 < j * maxNodes := Nat.mul_pos hj hm
  have hlt : ∀ n, 0 < feature.len → n = u32 (u32 (u32i (-(j : Int)) * u32 maxNodes) + 0) → feature.len ≤ n := by
    intro n hl e
    have hj32 : u32i (-(j : Int)) = 4294967296 - j := by unfold u32i; omega
    have hm32 : u32 maxNodes = maxNodes := u32_of_lt (by omega)
    have hoff : u32 ((4294967296 - j) * maxNodes) = 4294967296 - j * maxNodes := by
      unfold u32
      rw [Nat.sub_mul]
      have : 4294967296 * maxNodes - j * maxNodes = 4294967296 * (maxNodes - 1) + (4294967296 - j * maxNodes) := by
        obtain ⟨k, rfl⟩ : ∃ k, maxNodes = k + 1 := ⟨maxNodes - 1, by omega⟩
        simp only [Nat.add_sub_cancel]
        rw [Nat.mul_add]; omega
      rw [this, Nat.mul_add_mod, Nat.mod_eq_of_lt (by omega)]
    rw [e, hj32, hm32, hoff, Nat.add_zero, u32_of_lt (by omega)]
    omega
  have hnone : ∀ (t : CTrees) (d : CData) xo, t.feature = feature → t.maxNodes = u32 maxNodes →
      cTreePredict t d xo fuel (u32i (-(j : Int))) = none := by
    intro t d xo e1 e2
    unfold cTreePredict
    cases fuel with
    | zero => rfl
    | succ fuel =>
      unfold cWalk
      have : t.feature.read (u32 (u32 (u32i (-(j : Int)) * t.maxNodes) + 0)) = none := by
        unfold CArr.read
        rw [e1, e2, if_neg]
        rcases Nat.eq_zero_or_pos feature.len with h0 | h0
        · omega
        · exact not_lt.2 (hlt _ h0 rfl)
      simp only [this]
      rfl
  unfold cextSingle
  rw [if_neg (by simpa using hb)]
  simp only
  have hs : ∀ (t : CTrees) (d : CData), t.feature = feature → t.maxNodes = u32 maxNodes → 0 < d.numX →
      cSingle t d fuel (u32i (-(j : Int))) out = none := by
    intro t d e1 e2 hd
    unfold cSingle
    obtain ⟨n, hn⟩ : ∃ n, d.numX = n + 1 := ⟨d.numX - 1, by omega⟩
    rw [hn, List.range_succ_eq_map, List.foldlM_cons]
    simp only [hnone t d _ e1 e2]
    cases cAddRow t.numOutputs t.base 0 (0 * t.numOutputs) out <;> rfl
  rw [hs _ _ rfl rfl (by simp only; rw [u32_of_lt hN']; exact hN)]

example : (2 : Nat) * 5 + 5 ≤ 2 ^ 32 ∧ u32 1 = u32 1 := by decide

end Acv

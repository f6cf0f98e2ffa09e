import Verif.Lemmas.ProjSim

namespace Acv

section
variable {mem mem' : Mem} {push : List Int → Int → List Int} {S : List Nat} {x : Row} {data : Nat → Row} {minSize : Nat}
  {t : TreeArr}

/-! ### only the cells that are read matter -/

theorem visit_eq_of {n : Int} (h : mem.feat n = mem'.feat n ∧ mem.thr n = mem'.thr n ∧ mem.lc n = mem'.lc n ∧ mem.rc n = mem'.rc n)
    (st : PState) : mem.visit push S x data n st = mem'.visit push S x data n st := by
  unfold Mem.visit
  rw [h.1, h.2.1, h.2.2.1, h.2.2.2]

theorem visit_child_of (hpush : ∀ l a c, c ∈ push l a ↔ c = a ∨ c ∈ l) {P : Int → Prop} {n : Int}
    (hn : P (mem.lc n) ∧ P (mem.rc n)) {st : PState} (hst : ∀ c ∈ st.child, P c) :
    ∀ c ∈ (mem.visit push S x data n st).child, P c := by
  intro c hc
  unfold Mem.visit at hc
  simp only at hc
  split at hc
  · split at hc
    · simp only [hpush] at hc
      rcases hc with rfl | hc
      · exact hn.1
      · exact hst c hc
    · simp only [hpush] at hc
      rcases hc with rfl | hc
      · exact hn.2
      · exact hst c hc
  · simp only [hpush] at hc
    rcases hc with rfl | rfl | hc
    · exact hn.2
    · exact hn.1
    · exact hst c hc

/-- `P k n`: node `n` may be scanned when `k` levels are left -/
theorem scan_congr (hpush : ∀ l a c, c ∈ push l a ↔ c = a ∨ c ∈ l) {P Q : Int → Prop}
    (hcl : ∀ n, P n → Q (mem.lc n) ∧ Q (mem.rc n))
    (heq : ∀ n, P n → mem.feat n = mem'.feat n ∧ mem.thr n = mem'.thr n ∧ mem.lc n = mem'.lc n ∧ mem.rc n = mem'.rc n) :
    ∀ (nodes : List Int) (st : PState), (∀ n ∈ nodes, P n) → (∀ c ∈ st.child, Q c) →
    mem.scan push S x data minSize nodes st = mem'.scan push S x data minSize nodes st ∧
      ∀ c ∈ (mem.scan push S x data minSize nodes st).child, Q c
  | [], st, _, h2 => ⟨rfl, h2⟩
  | n :: ns, st, h1, h2 => by
    have hv := visit_eq_of (push := push) (S := S) (x := x) (data := data) (heq n (h1 n (by simp))) st
    have hc := visit_child_of (S := S) (x := x) (data := data) hpush (hcl n (h1 n (by simp))) h2
    unfold Mem.scan
    simp only
    rw [← hv]
    split
    · exact ⟨rfl, hc⟩
    · exact scan_congr hpush hcl heq ns _ (fun n hn => h1 n (List.mem_cons_of_mem _ hn)) hc

theorem levels_congr (hpush : ∀ l a c, c ∈ push l a ↔ c = a ∨ c ∈ l) {P : Nat → Int → Prop}
    (hmono : ∀ k n, P (k + 1) n → P k n)
    (hcl : ∀ k n, P (k + 1) n → P k (mem.lc n) ∧ P k (mem.rc n))
    (heq : ∀ k n, P (k + 1) n → mem.feat n = mem'.feat n ∧ mem.thr n = mem'.thr n ∧ mem.lc n = mem'.lc n ∧ mem.rc n = mem'.rc n) :
    ∀ (k : Nat) (nodes : List Int) (st : PState), (∀ n ∈ nodes, P k n) → (∀ c ∈ st.child, P k c) →
    mem.levels push S x data minSize k nodes st = mem'.levels push S x data minSize k nodes st
  | 0, _, _, _, _ => rfl
  | k + 1, nodes, st, h1, h2 => by
    obtain ⟨e, hc⟩ := scan_congr (S := S) (x := x) (data := data) (minSize := minSize) hpush (hcl k) (heq k) nodes st h1
      (fun c hc => hmono _ _ (h2 c hc))
    unfold Mem.levels
    simp only
    rw [← e]
    exact levels_congr hpush hmono hcl heq k _ _ hc hc

theorem run_congr (hpush : ∀ l a c, c ∈ push l a ↔ c = a ∨ c ∈ l) {P : Nat → Int → Prop}
    (hmono : ∀ k n, P (k + 1) n → P k n)
    (hcl : ∀ k n, P (k + 1) n → P k (mem.lc n) ∧ P k (mem.rc n))
    (heq : ∀ k n, P (k + 1) n → mem.feat n = mem'.feat n ∧ mem.thr n = mem'.thr n ∧ mem.lc n = mem'.lc n ∧ mem.rc n = mem'.rc n)
    {maxDepth N : Nat} (h0 : P maxDepth 0) (r : Rule) :
    mem.run push S x data minSize maxDepth N r = mem'.run push S x data minSize maxDepth N r := by
  unfold Mem.run
  simp only
  rw [levels_congr hpush hmono hcl heq maxDepth [0] _ (by simpa using h0) (by simp)]

/-- the canonical memory of a tree: junk cells are leaves -/
def leafJunk : Mem := ⟨fun _ => -1, fun _ => 0, fun _ => -1, fun _ => -1⟩

theorem ofTree_holds (t : TreeArr) (junk : Mem) : (Mem.ofTree t junk).Holds t := by
  intro n hn
  have : (0 : Int) ≤ n ∧ (n : Int) < t.size := by omega
  simp [Mem.ofTree, this]

theorem ofTree_leafJunk_benign (t : TreeArr) (S : List Nat) : (Mem.ofTree t leafJunk).Benign S := by
  intro n hn
  have : ¬ (0 ≤ n ∧ n < (t.size : Int)) := by omega
  simp [Mem.ofTree, this, leafJunk, inS]

/-- A memory that holds the tree and has a leaf-like cell before it behaves like a benign one. -/
theorem run_leafLike (hpush : ∀ l a c, c ∈ push l a ↔ c = a ∨ c ∈ l) {d : Nat} {b : BTree} (h : IsTree t d b) (hl : LeafChildren t)
    (hm : mem.Holds t) (hb : mem.BeforeIsLeaf S) :
    ∃ mem' : Mem, mem'.Holds t ∧ mem'.Benign S ∧ ∀ (x : Row) (data : Nat → Row) (minSize maxDepth N : Nat) (r : Rule),
      mem.run push S x data minSize maxDepth N r = mem'.run push S x data minSize maxDepth N r := by
  let mem' : Mem := ⟨fun n => if n < -1 then -1 else mem.feat n, mem.thr, fun n => if n < -1 then -1 else mem.lc n,
    fun n => if n < -1 then -1 else mem.rc n⟩
  refine ⟨mem', ?_, ?_, ?_⟩
  · intro n hn
    have : ¬ (n : Int) < -1 := by omega
    simp only [mem', this, if_false]
    exact hm n hn
  · intro n hn
    by_cases h1 : n < -1
    · simp [mem', h1, inS]
    · have : n = -1 := by omega
      subst this
      refine ⟨?_, ?_, ?_⟩
      · rw [Bool.eq_false_iff]
        intro hc
        exact hb.1 (inS_iff.mp (by simpa [mem'] using hc))
      · simp [mem', hb.2.1]
      · simp [mem', hb.2.2]
  · intro x data minSize maxDepth N r
    apply run_congr hpush (P := fun _ n => n = -1 ∨ ∃ k : Nat, n = k ∧ k < t.size)
    · exact fun _ _ h => h
    · rintro _ n (rfl | ⟨k, rfl, hk⟩)
      · exact ⟨Or.inl hb.2.1, Or.inl hb.2.2⟩
      · obtain ⟨_, _, e3, e4⟩ := hm k hk
        rw [e3, e4]
        have hlt := child_lt h hk
        rcases node_cases h hk with hleaf | hint
        · exact ⟨Or.inl (hl k hk hleaf.1).1, Or.inl (hl k hk hleaf.1).2⟩
        · obtain ⟨cl, hcl⟩ := Int.eq_ofNat_of_zero_le hint.1
          obtain ⟨cr, hcr⟩ := Int.eq_ofNat_of_zero_le hint.2.1
          exact ⟨Or.inr ⟨cl, hcl, by omega⟩, Or.inr ⟨cr, hcr, by omega⟩⟩
    · rintro _ n hn
      have : ¬ n < -1 := by
        rcases hn with rfl | ⟨k, rfl, _⟩ <;> omega
      simp [mem', this]
    · exact Or.inr ⟨0, rfl, size_pos h⟩

/-- every node within `k` steps is an internal node of the tree -/
def Deep (t : TreeArr) : Nat → Int → Prop
  | 0, _ => True
  | k + 1, n => ∃ i : Nat, n = i ∧ i < t.size ∧ 0 ≤ t.left i ∧ Deep t k (t.left i) ∧ Deep t k (t.right i)

theorem Deep.mono : ∀ {k : Nat} {n : Int}, Deep t (k + 1) n → Deep t k n
  | 0, _, _ => trivial
  | _ + 1, _, ⟨i, h1, h2, h3, h4, h5⟩ => ⟨i, h1, h2, h3, Deep.mono h4, Deep.mono h5⟩

theorem deep_of {d : Nat} {b : BTree} (h : IsTree t d b) {maxDepth : Nat}
    (hp : ∀ k n, Above t k 0 n → t.left n < 0 → k = maxDepth) :
    ∀ (k j n : Nat), Above t j 0 n → j + k = maxDepth → n < t.size → Deep t k n
  | 0, _, _, _, _, _ => trivial
  | k + 1, j, n, ha, hjk, hn => by
    have hint : 0 ≤ t.left n := by
      by_contra hneg
      have := hp j n ha (by omega)
      omega
    rcases node_cases h hn with hleaf | hi
    · omega
    obtain ⟨cl, hcl⟩ := Int.eq_ofNat_of_zero_le hi.1
    obtain ⟨cr, hcr⟩ := Int.eq_ofNat_of_zero_le hi.2.1
    have hlt := child_lt h hn
    refine ⟨n, rfl, hn, hint, ?_, ?_⟩
    · rw [hcl]; exact deep_of h hp k (j + 1) cl (ha.trans_step ⟨hn, Or.inl hcl⟩) (by omega) (by omega)
    · rw [hcr]; exact deep_of h hp k (j + 1) cr (ha.trans_step ⟨hn, Or.inr hcr⟩) (by omega) (by omega)

/-- perfectly balanced trees: the walk never leaves the tree -/
theorem run_perfect (hpush : ∀ l a c, c ∈ push l a ↔ c = a ∨ c ∈ l) {d : Nat} {b : BTree} (h : IsTree t d b)
    (hm : mem.Holds t) (hm' : mem'.Holds t) {maxDepth : Nat} (hp : ∀ k n, Above t k 0 n → t.left n < 0 → k = maxDepth)
    (N : Nat) (r : Rule) :
    mem.run push S x data minSize maxDepth N r = mem'.run push S x data minSize maxDepth N r := by
  apply run_congr hpush (P := Deep t)
  · exact fun _ _ => Deep.mono
  · rintro k n ⟨i, rfl, hi, _, h1, h2⟩
    obtain ⟨_, _, e3, e4⟩ := hm i hi
    rw [e3, e4]
    exact ⟨h1, h2⟩
  · rintro k n ⟨i, rfl, hi, _, _, _⟩
    obtain ⟨e1, e2, e3, e4⟩ := hm i hi
    obtain ⟨f1, f2, f3, f4⟩ := hm' i hi
    exact ⟨e1.trans f1.symm, e2.trans f2.symm, e3.trans f3.symm, e4.trans f4.symm⟩
  · exact deep_of h hp maxDepth 0 0 (Above.refl 0) (by omega) (size_pos h)

end

/-! ### all columns -/

section
variable {t : TreeArr} {d : Nat} {b : BTree} {S : List Nat} {x z : Row}

theorem Visits.snoc {x : Obs} {n m k : Nat} (h : Visits t x n m) (hs : StepTo t x m k) : Visits t x n k := by
  induction h with
  | refl => exact Visits.step hs (Visits.refl _)
  | step h1 _ ih => exact Visits.step h1 (ih hs)

theorem stepTo_full {n m : Nat} : StepTo t (full x) n m ↔ 0 ≤ t.left n ∧
    ((x (t.feature n).toNat ≤ t.threshold n ∧ t.left n = (m : Int)) ∨
      (t.threshold n < x (t.feature n).toNat ∧ t.right n = (m : Int))) := by
  unfold StepTo full; rfl

theorem projVisits_full (h : IsTree t d b) (hS : ∀ n < t.size, 0 ≤ t.left n → (t.feature n).toNat ∈ S) {n : Nat} :
    ProjVisits t S x n ↔ Visits t (full x) 0 n := by
  constructor
  · intro hv
    induction hv with
    | root => exact Visits.refl _
    | left hv h1 h2 h3 ih =>
      have h0 := hS _ h1 (by omega)
      exact ih.snoc (stepTo_full.mpr ⟨by omega, Or.inl ⟨h3 h0, h2⟩⟩)
    | @right p c hv h1 h2 h3 ih =>
      have hl : 0 ≤ t.left p := by
        rcases node_cases h h1 with hh | hh
        · omega
        · exact hh.1
      exact ih.snoc (stepTo_full.mpr ⟨hl, Or.inr ⟨h3 (hS _ h1 hl), h2⟩⟩)
  · suffices ∀ {a n : Nat}, Visits t (full x) a n → ProjVisits t S x a → ProjVisits t S x n from fun hv => this hv ProjVisits.root
    intro a n hv
    induction hv with
    | refl => exact fun h => h
    | step hs _ ih =>
      intro hp
      apply ih
      have hlt := projVisits_lt h hp
      obtain ⟨_, h1 | h1⟩ := stepTo_full.mp hs
      · exact ProjVisits.left hp hlt h1.2 fun _ => h1.1
      · exact ProjVisits.right hp hlt h1.2 fun _ => h1.1

theorem Visits.above (h : IsTree t d b) {n m : Nat} (hv : Visits t (full z) n m) (hn : n < t.size) : ∃ k, Above t k n m := by
  induction hv with
  | refl => exact ⟨0, Above.refl _⟩
  | step hs _ ih =>
    have hc : ChildOf t _ _ := ⟨hn, by
      obtain ⟨_, h1 | h1⟩ := stepTo_full.mp hs
      · exact Or.inl h1.2
      · exact Or.inr h1.2⟩
    obtain ⟨k, hk⟩ := ih (above_lt h (Above.step hc (Above.refl _)) hn)
    exact ⟨k + 1, Above.step hc hk⟩

/-- a visited node is above the leaf -/
theorem Visits.toLeaf {x : Obs} {a n ℓ : Nat} (hv : Visits t x a n) (hℓ : Visits t x a ℓ) (hl : t.left ℓ < 0) : Visits t x n ℓ := by
  induction hv with
  | refl => exact hℓ
  | step hs _ ih =>
    cases hℓ with
    | refl => exact absurd hs.1 (not_le.mpr hl)
    | step hs' hr => rw [hs.unique hs'] at ih; exact ih hr

theorem projVisits_up (h : IsTree t d b) {k n ℓ : Nat} (ha : Above t k n ℓ) (hv : ProjVisits t S z ℓ) : ProjVisits t S z n := by
  induction k generalizing ℓ with
  | zero => cases ha; exact hv
  | succ k ih =>
    obtain ⟨q, hq, hc⟩ := ha.last
    apply ih hq
    cases hv with
    | root =>
      rcases hc.2 with hh | hh
      · have := mem_links h.enc q ((h.all q).mpr hc.1) false 0 (by simpa [TreeArr.child] using hh)
        exact absurd h.root.symm (root_not_link h.nodup this)
      · have := mem_links h.enc q ((h.all q).mpr hc.1) true 0 (by simpa [TreeArr.child] using hh)
        exact absurd h.root.symm (root_not_link h.nodup this)
    | left h0 h1 h2 h3 => rw [childOf_unique h hc ⟨h1, Or.inl h2⟩]; exact h0
    | right h0 h1 h2 h3 => rw [childOf_unique h hc ⟨h1, Or.inr h2⟩]; exact h0

/-- same nodes visited, when all tested columns are known: same leaf -/
theorem sameVisits_full (h : IsTree t d b) (hS : ∀ n < t.size, 0 ≤ t.left n → (t.feature n).toNat ∈ S) :
    (∀ n, ProjVisits t S x n ↔ ProjVisits t S z n) ↔ ∃ ℓ, EndsIn t (full x) ℓ ∧ EndsIn t (full z) ℓ := by
  constructor
  · intro hv
    have hx : EndsIn t (full x) (b.descendObs t (full x)) := (endsIn_iff h _ _).mpr rfl
    refine ⟨_, hx, ?_, hx.2⟩
    exact (projVisits_full h hS).mp ((hv _).mp ((projVisits_full h hS).mpr hx.1))
  · rintro ⟨ℓ, hx, hz⟩
    have key : ∀ {x z : Row}, EndsIn t (full x) ℓ → EndsIn t (full z) ℓ → ∀ n, ProjVisits t S x n → ProjVisits t S z n := by
      intro x z hx hz n hn
      have h1 := Visits.toLeaf ((projVisits_full h hS).mp hn) hx.1 hx.2
      obtain ⟨k, hk⟩ := Visits.above h h1 (projVisits_lt h hn)
      exact projVisits_up h hk ((projVisits_full h hS).mpr hz.1)
    exact fun n => ⟨key hx hz n, key hz hx n⟩

end

end Acv

import Verif.Model.TreeSdp
import Verif.Model.LeafShapPy

/-!
# Swing Shapley values

Models `swing_sv_clf` (/repo/acv_explainers/cyext_acv/cyext_acv.pyx:2121-2244) with `compute_sdp_swing` (2026-2115), behind
`ACVTree.swing_sv_clf_slow`, and `swing_sv_clf_direct` (2510-2625) with `compute_sdp_swing_diff` (2250-2504), behind
`ACVTree.swing_sv_clf` (/repo/acv_explainers/acv_tree.py:563-590).

Simplifications: exact rationals; one observation at a time; accumulations are list sums; NaN is `none`.
-/

namespace Acv

/-- The cells `phi[i, j]`, `swings[i, j, 0]`, `swings[i, j, 1]` and `swings_prop[i, j, 0..2]` of one observation `i`. -/
structure Swing where
  phi : ℚ
  pos : ℚ
  neg : ℚ
  nPos : Nat
  nNeg : Nat
  nNull : Nat
deriving DecidableEq, Repr

/-- The passes of the loops `for va`, `for counter` and `for j in range(len_va_id[va])` that write to column `j`: the player and the coalition of
other players, cyext_acv.pyx:2190-2208, 2234 (the same loops in 2586-2601, 2614). `counter` and `pow_set_size` are 32-bit. -/
def swingVisits (players : List (List Nat)) (j : Nat) : List (List Nat × List (List Nat)) :=
  (List.range players.length).flatMap fun i =>
    let va := players.getD i []
    let rest := players.eraseIdx i
    (List.range (2 ^ (players.length - 1) % 2 ^ 32)).flatMap fun counter => List.replicate (va.count j) (va, maskSel rest counter)

/-- The accumulations and the final division, cyext_acv.pyx:2229-2244 (2609-2625): `diff S va` is `v_plus - v_minus` (`v_value`). -/
def swing (players : List (List Nat)) (diff : List Nat → List Nat → ℚ) (j : Nat) : Swing :=
  let m : ℚ := players.length
  let visits := swingVisits players j
  let weight := fun (v : List Nat × List (List Nat)) => 1 / binomialC (players.length - 1) v.2.length
  let d := fun (v : List Nat × List (List Nat)) => diff v.2.flatten v.1
  { phi := (visits.map fun v => weight v * d v).sum / m
    pos := (visits.map fun v => (if 0 < d v then 1 else 0) * d v * weight v / m).sum
    neg := (visits.map fun v => (if d v < 0 then 1 else 0) * d v * weight v / m).sum
    nPos := (visits.filter fun v => decide (0 < d v)).length
    nNeg := (visits.filter fun v => decide (d v < 0)).length
    nNull := (visits.filter fun v => decide (d v = 0)).length }

/-- `compute_sdp_swing`, cyext_acv.pyx:2026-2115: 1 when the same decision probability of the coalition reaches the threshold. -/
def swingWins (ts : List TreeArr) (m : Nat) (lab : Row → Nat) (data : List Row) (thr : ℚ) (x : Row) (S : List Nat) : ℚ :=
  if S.length = m then 1 else if S.length = 0 then 0 else
  let mean := fun rows => sumLeaves ts (lab x) fun r v =>
    if satCC r S x then guardDiv (cntCC rows r (List.range m) * v) (cntCC rows r S) else 0
  let up := data.filter fun z => lab x = lab z
  let down := data.filter fun z => ¬ lab x = lab z
  if thr ≤ guardDiv (mean data - mean down) (mean up - mean down) then 1 else 0

/-- `swing_sv_clf` (`ACVTree.swing_sv_clf_slow`), cyext_acv.pyx:2121-2244: column `j`. -/
def swingSlow (ts : List TreeArr) (m : Nat) (lab : Row → Nat) (data : List Row) (C : List (List Nat)) (thr : ℚ) (x : Row) (j : Nat) : Swing :=
  swing (playersCy m C) (fun S va => swingWins ts m lab data thr x (S ++ va) - swingWins ts m lab data thr x S) j

/-! ## The direct version -/

/-- Number of rows with `b_it == S_size` and `nv_bool == 0`, cyext_acv.pyx:2330-2345. -/
def cntWith (rows : List Row) (r : Rect) (S va : List Nat) : Nat := (rows.filter fun z => satCC r S z && sat r va z).length

/-- Sum over the trees of `mean_forest[b, leaf, i, k] / n` over the leaves, with `n` the sum of `p_n` over the leaves, cyext_acv.pyx:2386-2415.
Only leaves that fit `x` on `S` and on `va` have non-zero entries (the `continue` of 2302 and 2313). `den` is the count `p_s` or `p_s_m`;
`guard` is the test of the conditional expression, given the `n` of the tree. -/
def swingMean (ts : List TreeArr) (m k : Nat) (rows : List Row) (x : Row) (S va : List Nat) (den : Rect → Nat)
    (guard : TreeArr → ℚ → Bool) : Option ℚ :=
  let entry := fun (r : Rect) (a : ℚ) => if satCC r S x && sat r va x then guardDiv (cntCC rows r (List.range m) * a) (den r) else 0
  osum (ts.flatMap fun t =>
    let n := (t.leafIdx.map fun ℓ => entry (t.leafRect ℓ) 1).sum
    t.leafIdx.map fun ℓ => if guard t n then npDiv (entry (t.leafRect ℓ) (t.value ℓ k)) n else some 0)

/-- `(a - d)/(u - d) if u - d != 0 else 0`, cyext_acv.pyx:2417-2418: with NaN the test is true and the result NaN. -/
def swingRatio (a u d : Option ℚ) : Option ℚ :=
  match u, d with
  | some u, some d => if u - d ≠ 0 then a.map fun a => (a - d) / (u - d) else some 0
  | _, _ => none

/-- The chain of comparisons, cyext_acv.pyx:2421-2428: no comparison with NaN is true. -/
def swingSign (thr : ℚ) : Option ℚ → Option ℚ → ℚ
  | some ss, some ssm =>
    if ss < thr ∧ ssm < thr then 0 else if ss < thr ∧ thr ≤ ssm then 1 else if thr ≤ ss ∧ thr ≤ ssm then 0 else -1
  | _, _ => 0

/-- `compute_sdp_swing_diff`, cyext_acv.pyx:2250-2504. The divisions of the coalition with `va` are guarded by the counts of the coalition without
it (2413-2415); for the empty coalition these counts are variables that were never set (2440-2442), given by `junk`. -/
def swingDiff (junk : ℚ × ℚ × ℚ) (ts : List TreeArr) (m : Nat) (lab : Row → Nat) (data : List Row) (thr : ℚ) (x : Row) (S va : List Nat) : ℚ :=
  let up := data.filter fun z => lab x = lab z
  let down := data.filter fun z => ¬ lab x = lab z
  let without := fun rows => swingMean ts m (lab x) rows x S va (fun r => cntCC rows r S) fun _ n => decide (n ≠ 0)
  let countOf := fun (rows : List Row) (t : TreeArr) => (t.leafIdx.map fun ℓ =>
    if satCC (t.leafRect ℓ) S x && sat (t.leafRect ℓ) va x then
      guardDiv (cntCC rows (t.leafRect ℓ) (List.range m)) (cntCC rows (t.leafRect ℓ) S) else 0).sum
  let withVa := fun (rows : List Row) (j : ℚ) => swingMean ts m (lab x) rows x S va (fun r => cntWith rows r S va) fun t _ =>
    decide ((if S.length = 0 then j else countOf rows t) ≠ 0)
  let ss := if S.length = 0 then some 0 else swingRatio (without data) (without up) (without down)
  let ssm := if S.length ≠ 0 ∧ S.length + va.length = m then some 1
    else swingRatio (withVa data junk.1) (withVa up junk.2.1) (withVa down junk.2.2)
  swingSign thr ss ssm

/-- `swing_sv_clf_direct` (`ACVTree.swing_sv_clf`), cyext_acv.pyx:2510-2625: column `j`. `junk S va` is the content of the unset variables. -/
def swingDirect (junk : List Nat → List Nat → ℚ × ℚ × ℚ) (ts : List TreeArr) (m : Nat) (lab : Row → Nat) (data : List Row)
    (C : List (List Nat)) (thr : ℚ) (x : Row) (j : Nat) : Swing :=
  swing (playersCy m C) (fun S va => swingDiff (junk S va) ts m lab data thr x S va) j

end Acv

import Verif.Model.SdpReg

/-!
# The search of sufficient explanations of a regression forest, with coalitions

Models `global_sdp_reg_cpp_pa_coal` (/repo/acv_explainers/cyext_acv/cyext_acv.pyx:2637-2866). No Python function of the package calls
it; it is public in the compiled module. Unlike `global_sdp_reg` it keeps no arrays between sets of columns, never replaces the value of the
full set by 1, and records a set only if its value reaches the level.

Simplifications: those of `SdpReg` and `Search`.
-/

namespace Acv

/-- `ss` for one observation and one set of columns, cyext_acv.pyx:2712-2839: the quotient of the means that the Python `compute_sdp_reg`
accumulates, without its clamp and its special cases. -/
def sdpRegLeaf (ts : List TreeArr) (m : Nat) (y : Row → ℚ) (tX : ℚ) (data : List Row) (S : List Nat) (x : Row) : ℚ :=
  let a := regLeafMean ts m S x (y x) data
  let u := regLeafMean ts m S x (y x) (data.filter fun z => farOut tX (y x) (y z))
  let d := regLeafMean ts m S x (y x) (data.filter fun z => !farOut tX (y x) (y z))
  guardDiv (u - a) (u - d)

/-- `2**25`, cyext_acv.pyx:2699. -/
def coalCap : Nat := 2 ^ 25

/-- The lists scanned by `for s_0 in range(m + 1): ... power_cpp[s_0]`, cyext_acv.pyx:2690-2713. `none`: out-of-bounds read of
`power_cpp`, even if the loop would stop before that read. -/
def levelsCoal (players : List (List Nat)) : Option (List (List (List Nat))) :=
  let power := enumSizes players coalCap (List.range (players.length + 1)) 0
  (List.range (players.length + 1)).mapM fun s => power[s]?

/-- `if ss >= pi_level and ss >= sdp[R_buf[i]]`, cyext_acv.pyx:2840-2844. -/
def considerCoal (pi : ℚ) (S : List Nat) (v : ℚ) (b : Best) : Best :=
  if pi ≤ v ∧ b.sdp ≤ v then ⟨v, S.length, writeRow S b.star⟩ else b

/-- `for i in range(N)` of one set of columns, cyext_acv.pyx:2838-2844. -/
def coalSet (v : Nat → List Nat → ℚ) (pi : ℚ) (R : List Nat) (best : Nat → Best) (S : List Nat) : Nat → Best :=
  R.foldl (fun best i => upd best i (considerCoal pi S (v i S) (best i))) best

/-- The loop over the sizes, cyext_acv.pyx:2712-2864: the rows of the resolved observations are cleared after their columns
(2850-2851). -/
def coalLoop (v : Nat → List Nat → ℚ) (pi : ℚ) (stop : Bool) (half : Nat) : List (List (List Nat)) → Batch → Batch
  | [], st => st
  | cands :: ls, st =>
    let st' := closeLevel clearTail pi { st with best := cands.foldl (coalSet v pi st.R) st.best }
    let ssize := (cands.getLast?.map List.length).getD 0
    if stop && (decide (st'.R = []) || decide (half ≤ ssize)) then st' else coalLoop v pi stop half ls st'

/-- `global_sdp_reg_cpp_pa_coal`, cyext_acv.pyx:2637-2866. -/
def globalSdpRegCoal (ts : List TreeArr) (y : Row → ℚ) (tX : ℚ) (data X : List Row) (cols : Nat) (C : List (List Nat)) (pi : ℚ)
    (stop : Bool) (half : Nat) : Option Batch :=
  (levelsCoal (searchPlayers C (List.range cols))).map fun levels =>
    coalLoop (fun i S => sdpRegLeaf ts cols y tX data S (X.getD i fun _ => 0)) pi stop half levels (Batch.init X.length)

end Acv

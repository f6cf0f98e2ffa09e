import Verif.Model.SdpReg

/-!
# Searches over more than fifteen columns

`Verif.Model.Search` and `Verif.Model.SdpReg` read all the lists `power_cpp[s_0]` before the loop starts (`levelsRf`), so that they
have no result as soon as one of the lists is missing. Here the lists are read as in the code, when their size is reached:
/repo/acv_explainers/cyext_acv/cyext_acv.pyx:893-965 (`global_sdp_reg_cat`), 1020-1265 (`global_sdp_reg`)
and /repo/acv_explainers/utils_sdp.py:395-484 (`importance_msdp_clf_search`).
-/

namespace Acv

/-- `for s_0 in range(minimal, m + 1): ... power_cpp[s_0] ...; if (R.size() == 0 or S_size >= X.shape[1]/2) and stop: break`,
cyext_acv.pyx:920-961, utils_sdp.py:442-480: `sizes` are the values of `s_0` that remain. `none`: `power_cpp[s_0]` is read
out of bounds (undefined behaviour; `IndexError` in the Python version). -/
def lazyLoop (fin : Best → Best) (vals : List Nat → List Nat → List ℚ) (cols : Nat) (pi : ℚ) (stop : Bool) (half : Nat)
    (power : List (List (List Nat))) : List Nat → Batch → Option Batch
  | [], st => some st
  | s :: sizes, st =>
    match power[s]? with
    | none => none
    | some cands =>
      let st' := scanLevel fin vals cols pi cands st
      let ssize := (cands.getLast?.map List.length).getD 0
      if stop && (decide (st'.R = []) || decide (half ≤ ssize)) then some st' else
        lazyLoop fin vals cols pi stop half power sizes st'

/-- The loop with its enumeration, which is cut when 2^15 sets have been listed, cyext_acv.pyx:900-911,
utils_sdp.py:426-436. -/
def lazySearch (fin : Best → Best) (vals : List Nat → List Nat → List ℚ) (N cols : Nat) (players : List (List Nat)) (pi : ℚ) (minimal : Nat)
    (stop : Bool) (half : Nat) : Option Batch :=
  lazyLoop fin vals cols pi stop half (enumSizes players enumCap (List.range (players.length + 1)) 0)
    (List.range' minimal (players.length + 1 - minimal)) (Batch.init N)

/-- `global_sdp_reg_cat` and, with one tree, `global_sdp_reg`, cyext_acv.pyx:846-1265. Compare `globalSdpReg`. -/
def regMany (sdp : Nat → List Nat → ℚ) (N cols : Nat) (C : List (List Nat)) (pi : ℚ) (minimal : Nat) (stop : Bool) (half : Nat) :
    Option Batch :=
  lazySearch id (fun R S => R.map fun i => sdp i S) N cols (searchPlayers C (List.range cols)) pi minimal stop half

/-- `importance_msdp_clf_search`, utils_sdp.py:395-484. Compare `msdpSearch`. -/
def msdpMany (sdp : Nat → List Nat → ℚ) (N cols : Nat) (C : List (List Nat)) (space : List Nat) (pi : ℚ) (minimal : Nat) (stop : Bool)
    (half : Nat) : Option Batch :=
  lazySearch clearTail (fun R S => R.map fun i => sdp i S) N cols (searchPlayers C space) pi minimal stop half

end Acv

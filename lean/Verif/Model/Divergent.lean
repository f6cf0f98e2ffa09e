import Verif.Model.Search
import Verif.Model.Cdp

/-!
# Searches of divergent and counterfactual explanations

Models `global_ddp_rf` (/repo/acv_explainers/cyext_acv/cyext_acv.pyx:6008-6137), `global_cdp_rf` (7151-7285), `global_ddp_intv`
(6641-6770), `global_cdp_intv` (7584-7716), `sufficient_cxpl_rf` (6388-6477) and their callers `importance_ddp_rf`,
`importance_cdp_rf`, `sufficient_cxpl_rf`, `importance_ddp_intv`, `importance_cdp_intv`
(/repo/acv_explainers/acv_agnosticX.py:925-1072,1149-1218,1523-1593,1704-1774). The loops over the candidates are those of
`global_sdp_rf` and `sufficient_expl_rf` (`Verif/Model/Search.lean`); what changes is the probability and the set it is asked for.

Simplifications: those of `Verif/Model/Search.lean`.
-/

namespace Acv

/-- `list.remove`, used at cyext_acv.pyx:6092; `none` is the `ValueError` for a missing element. -/
def pyRemove (l : List Nat) (a : Nat) : Option (List Nat) := if a ∈ l then some (l.erase a) else none

/-- `S_bar_set` and `S_bar[:data.shape[1]-S_size]`, cyext_acv.pyx:6090-6095 and 7235-7240. -/
def sBar (cols : Nat) (S : List Nat) : Option (List Nat) := S.foldlM pyRemove (List.range cols)

/-- `global_ddp_rf`, cyext_acv.pyx:6008-6137, and `global_cdp_rf`, 7151-7285: `prob i T` is the probability of sample `i` when the
columns `T` are fixed, and it is asked for `T = S_bar`. `none`: out-of-bounds read of `power_cpp`, or `ValueError` of
`S_bar_set.remove`. Simplified: `none` even if the loop would stop before that. -/
def globalBarRf (prob : Nat → List Nat → ℚ) (N cols : Nat) (C : List (List Nat)) (space : List Nat) (pi : ℚ) (minimal : Nat)
    (stop : Bool) (half : Nat) : Option Batch :=
  (levelsRf (searchPlayers C space) minimal).bind fun levels =>
    if levels.all fun cands => cands.all fun S => (sBar cols S).isSome then
      some (searchLoop id (maskVals (fun i S => prob i ((sBar cols S).getD [])) N) cols pi stop half levels (Batch.init N))
    else none

/-- The arguments of the projected-forest calls of a batch. -/
structure RfCall where
  mems : List Mem
  X : Nat → Row
  yX : Nat → ℚ
  data : Nat → Row
  y : Nat → ℚ
  minSize : Nat
  maxDepth : Nat
  nData : Nat
  classifier : Bool
  t : Nat → ℚ × ℚ

/-- `compute_ddp_rf_same_set` for one row, cyext_acv.pyx:5990-6001. -/
def RfCall.ddp (c : RfCall) (i : Nat) (T : List Nat) : ℚ :=
  ddpRf c.mems T (c.X i) (c.yX i) c.data c.y c.minSize c.maxDepth c.nData c.classifier (c.t i)

/-- `compute_cdp_rf_same_set` for one row, cyext_acv.pyx:7133-7144. -/
def RfCall.cdp (c : RfCall) (down up : Nat → ℚ) (i : Nat) (T : List Nat) : ℚ :=
  cdpRf c.mems T (c.X i) (c.yX i) (down i) (up i) c.data c.y c.minSize c.maxDepth c.nData c.classifier

/-- `compute_ddp_intv_same_set` for one row, cyext_acv.pyx:6615-6634. -/
def RfCall.ddpIn (c : RfCall) (cond : Nat → Rule) (i : Nat) (S : List Nat) : ℚ :=
  (ddpIntv c.mems S (cond i) (c.yX i) (c.t i) c.data c.y c.minSize c.maxDepth c.nData c.classifier).1

/-- `compute_cdp_intv_same_set` for one row, cyext_acv.pyx:7557-7577. -/
def RfCall.cdpIn (c : RfCall) (cond : Nat → Rule) (i : Nat) (S : List Nat) : ℚ :=
  (cdpIntv c.mems S (cond i) (c.yX i) (c.t i) c.data c.y c.minSize c.maxDepth c.nData c.classifier).1

/-- The search space of all five callers, acv_agnosticX.py:977-986 (and the same lines in the others). -/
def callSpace (cols : Nat) (order : List Nat) : List Nat := (if cols > 10 then order else List.range cols).take 10

/-- `ACXplainer.importance_ddp_rf`, acv_agnosticX.py:925-997. -/
def importanceDdpRf (c : RfCall) (N cols : Nat) (order : List Nat) (C : List (List Nat)) (pi : ℚ) (minimal : Nat)
    (stop : Bool) (half : Nat) : Option Batch :=
  globalBarRf c.ddp N cols C (callSpace cols order) pi minimal stop half

/-- `ACXplainer.importance_cdp_rf`, acv_agnosticX.py:999-1072. -/
def importanceCdpRf (c : RfCall) (down up : Nat → ℚ) (N cols : Nat) (order : List Nat) (C : List (List Nat)) (pi : ℚ) (minimal : Nat)
    (stop : Bool) (half : Nat) : Option Batch :=
  globalBarRf (c.cdp down up) N cols C (callSpace cols order) pi minimal stop half

/-- `ACXplainer.importance_ddp_intv`, acv_agnosticX.py:1523-1593: `global_ddp_intv` (cyext_acv.pyx:6641-6770) asks for the
probability of `S` itself. -/
def importanceDdpIntv (c : RfCall) (cond : Nat → Rule) (N cols : Nat) (order : List Nat) (C : List (List Nat)) (pi : ℚ)
    (minimal : Nat) (stop : Bool) (half : Nat) : Option Batch :=
  globalSdpRf (c.ddpIn cond) N cols C (callSpace cols order) pi minimal stop half

/-- `ACXplainer.importance_cdp_intv`, acv_agnosticX.py:1704-1774, cyext_acv.pyx:7584-7716. -/
def importanceCdpIntv (c : RfCall) (cond : Nat → Rule) (N cols : Nat) (order : List Nat) (C : List (List Nat)) (pi : ℚ)
    (minimal : Nat) (stop : Bool) (half : Nat) : Option Batch :=
  globalSdpRf (c.cdpIn cond) N cols C (callSpace cols order) pi minimal stop half

/-- `cyext_acv.sufficient_cxpl_rf`, cyext_acv.pyx:6388-6477, first two results: for every sample the sets found and their
probabilities, both lists with the sentinel in front. The probability is asked for `S` itself, not for its complement. -/
def sufficientCxplRaw (c : RfCall) (N cols : Nat) (order : List Nat) (C : List (List Nat)) (pi : ℚ) (minimal : Nat) :
    Option (List (List (List Int)) × List (List ℚ)) :=
  (levelsRf (searchPlayers C (callSpace cols order)) minimal).map fun levels =>
    let found := (List.range N).map fun i => suffScan (c.ddp i) pi levels
    (found.map fun f => f.map (·.1), found.map fun f => f.map (·.2))

/-- `ACXplainer.sufficient_cxpl_rf`, acv_agnosticX.py:1149-1218: `[sufficient_coal[1:] for ...]` for the sets but `cdp_expl[1:]`
for the probabilities. -/
def sufficientCxpl (c : RfCall) (N cols : Nat) (order : List Nat) (C : List (List Nat)) (pi : ℚ) (minimal : Nat) :
    Option (List (List (List Int)) × List (List ℚ)) :=
  (sufficientCxplRaw c N cols order C pi minimal).map fun r => (r.1.map (·.drop 1), r.2.drop 1)

end Acv

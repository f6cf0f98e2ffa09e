import Verif.Model.Cdp

/-!
# Divergent rules and weights, and the arguments of the `ACXplainer` methods

`ACXplainer.compute_ddp_rule` and `ACXplainer.compute_ddp_weights` (/repo/acv_explainers/acv_agnosticX.py:469-580) with the functions of
/repo/acv_explainers/cyext_acv/cyext_acv.pyx:5406-5646 behind them. The loops over the samples are `prange` loops whose iterations write only
`sdp[i]`, `partition_byobs[i]` and `weights[i]` (see C13), so they are modelled as maps.
-/

namespace Acv

/-- `single_compute_ddp_rule`, cyext_acv.pyx:5406-5482: the walk of `single_compute_sdp_rule`, with `y_x != y_data[i]`, or
`1-(t[0]<=y)*(y<=t[1])`, summed. -/
def ddpRule (mems : List Mem) (S : List Nat) (x : Row) (yx : ℚ) (data : Nat → Row) (y : Nat → ℚ) (minSize maxDepth N : Nat)
    (classifier : Bool) (t : ℚ × ℚ) : ℚ × Rule :=
  let (cells, rule) := forestRun setInsert S x data minSize maxDepth N mems Rule.init
  (cellSum cells fun i => ddpHit classifier yx t (y i), rule)

/-- `single_compute_ddp_rule_weights`, cyext_acv.pyx:5511-5590: the same sum, and `w[i] += 1./(n_trees*in_data.size())`. The rule is
filled too, but not returned (5622). -/
def ddpWeights (mems : List Mem) (S : List Nat) (x : Row) (yx : ℚ) (data : Nat → Row) (y : Nat → ℚ) (minSize maxDepth N : Nat)
    (classifier : Bool) (t : ℚ × ℚ) : ℚ × (Nat → ℚ) :=
  let cells := (forestRun setInsert S x data minSize maxDepth N mems Rule.init).1
  (cellSum cells fun i => ddpHit classifier yx t (y i), weightsOf cells)

/-- What a caller may give as `t`: nothing, a number (as the docstrings say, acv_agnosticX.py:489,538), one number per sample, or one
interval per sample. -/
inductive TArg
  | none
  | scalar (v : ℚ)
  | vec (l : List ℚ)
  | rows (l : List (ℚ × ℚ))

/-- The arguments of the methods. -/
structure AcxArgs where
  X : List Row
  y : List ℚ
  data : List Row
  yData : List ℚ
  S : List (List Nat)
  minSize : Nat
  t : TArg

/-- `check_X_y(X, y)`, `check_X_y(data, y_data)` (equal lengths and at least one sample) and `check_consistent_length(X, S)`,
acv_agnosticX.py:495-501,547-553. The tests for NaN and infinities always pass on rationals. -/
def AcxArgs.checked (a : AcxArgs) : Bool :=
  decide (a.X.length = a.y.length) && !a.X.isEmpty && decide (a.data.length = a.yData.length) && !a.data.isEmpty &&
    decide (a.X.length = a.S.length)

/-- `if not self.classifier and t is None: t = self.model.predict_quantiles(X, quantiles=[0.05, 0.95])`,
`elif self.classifier: t = np.zeros(shape=(X.shape[0], 2))`, acv_agnosticX.py:505-508,557-560. `quant x` is the pair of quantiles of the
model. `none`: an argument `t` which is not a two-dimensional array does not convert to `double[:, :]` (cyext_acv.pyx:5490). -/
def acxT (classifier : Bool) (quant : Row → ℚ × ℚ) (a : AcxArgs) : Option (List (ℚ × ℚ)) :=
  if classifier then some (a.X.map fun _ => (0, 0))
  else match a.t with
    | .none => some (a.X.map quant)
    | .scalar _ => none
    | .vec _ => none
    | .rows l => some l

/-- A loop over the samples with `X[i]`, `y_X[i]`, `S[i]`, `t[i]`, cyext_acv.pyx:5501-5504,5617-5620. `none`: an exception, or a read
beyond the end of `t` (the bounds are not checked, 5484). -/
def acxLoop {α : Type} (classifier : Bool) (quant : Row → ℚ × ℚ) (a : AcxArgs)
    (f : List Nat → Row → ℚ → (Nat → Row) → (Nat → ℚ) → Nat → Nat → ℚ × ℚ → α) : Option (List α) :=
  if a.checked then
    (acxT classifier quant a).bind fun t =>
      if t.length < a.X.length then none
      else some ((List.range a.X.length).map fun i =>
        f (a.S.getD i []) (a.X.getD i 0) (a.y.getD i 0) (fun j => a.data.getD j 0) (fun j => a.yData.getD j 0) a.minSize a.data.length
          (t.getD i (0, 0)))
  else none

/-- `ACXplainer.compute_ddp_rule`, acv_agnosticX.py:469-514, cyext_acv.pyx:5488-5506. -/
def acxDdpRule (mems : List Mem) (maxDepth : Nat) (classifier : Bool) (quant : Row → ℚ × ℚ) (a : AcxArgs) : Option (List (ℚ × Rule)) :=
  acxLoop classifier quant a fun S x yx data y minSize N t => ddpRule mems S x yx data y minSize maxDepth N classifier t

/-- `ACXplainer.compute_ddp_weights`, acv_agnosticX.py:516-580, cyext_acv.pyx:5597-5622 and, with `verbose=True`, 5628-5650 (the same
loop without threads). -/
def acxDdpWeights (mems : List Mem) (maxDepth : Nat) (classifier : Bool) (quant : Row → ℚ × ℚ) (a : AcxArgs) :
    Option (List (ℚ × (Nat → ℚ))) :=
  acxLoop classifier quant a fun S x yx data y minSize N t => ddpWeights mems S x yx data y minSize maxDepth N classifier t

/-- `ACXplainer.compute_sdp_rule`, acv_agnosticX.py:279-326, cyext_acv.pyx:5216-5234: the same checks and the same loop. -/
def acxSdpRule (mems : List Mem) (maxDepth : Nat) (classifier : Bool) (quant : Row → ℚ × ℚ) (a : AcxArgs) : Option (List (ℚ × Rule)) :=
  acxLoop classifier quant a fun S x yx data y minSize N t => sdpRule mems S x yx data y minSize maxDepth N classifier t

end Acv

import Verif.Model.DdpRule
import Verif.Model.QuantileRf
import Verif.Model.Search

/-!
# The methods of `ACVTree` and `ACVTreeAgnostic` on the projected forest

`ACVTree.compute_sdp_rf`, `compute_cdf_rf`, `importance_sdp_rf`, `sufficient_expl_rf`, `compute_exp_rf`, `compute_quantile_rf` and
`compute_quantile_diff_rf` (/repo/acv_explainers/acv_tree.py:831-1094), the methods of the same names of `ACVTreeAgnostic` (1132-1285) and those of
`ACXplainer` (/repo/acv_explainers/acv_agnosticX.py:233-278,424-468,1220-1310). All pass their arguments to the functions of
/repo/acv_explainers/cyext_acv/cyext_acv.pyx; what they do with `t` and with the columns to search is modelled here. The loops over the samples are
`prange` loops whose iterations write only `sdp[i]` (see C13), so they are modelled as maps.

Simplifications: an array with a single number does not count as a number (`float()` of it works), `None` as a memoryview is read
without a check (`nonecheck(False)`), so it counts as no answer.
-/

namespace Acv

/-- `double[:, :] t`, cyext_acv.pyx:4320,5881,6165,6295: only a two-dimensional array converts. -/
def TArg.matrix : TArg → Option (List (ℚ × ℚ))
  | .rows l => some l
  | _ => Option.none

/-- `double[:] t`, cyext_acv.pyx:4578: only a one-dimensional array converts. -/
def TArg.vector : TArg → Option (List ℚ)
  | .vec l => some l
  | _ => Option.none

/-- `double t`, cyext_acv.pyx:4407,4496: only a number converts. -/
def TArg.number : TArg → Option ℚ
  | .scalar v => some v
  | _ => Option.none

/-- A loop over the samples with `X[i]`, `y_X[i]`, `S[i]`, `t[i]` for a converted `t`, cyext_acv.pyx:4323-4328,4581-4586,5884-5889.
`none`: an exception of the checks or of the conversion, or a read beyond the end of `t` (the bounds are not checked). -/
def rfLoop {τ α : Type} (dflt : τ) (t : Option (List τ)) (a : AcxArgs)
    (f : List Nat → Row → ℚ → (Nat → Row) → (Nat → ℚ) → Nat → Nat → τ → α) : Option (List α) :=
  if a.checked then
    t.bind fun t =>
      if t.length < a.X.length then none
      else some ((List.range a.X.length).map fun i =>
        f (a.S.getD i []) (a.X.getD i 0) (a.y.getD i 0) (fun j => a.data.getD j 0) (fun j => a.yData.getD j 0) a.minSize a.data.length
          (t.getD i dflt))
  else none

/-- `ACXplainer.compute_sdp_rf`, acv_agnosticX.py:233-278, cyext_acv.pyx:5879-5890. -/
def acxSdpRf (mems : List Mem) (maxDepth : Nat) (classifier : Bool) (quant : Row → ℚ × ℚ) (a : AcxArgs) : Option (List ℚ) :=
  acxLoop classifier quant a fun S x yx data y minSize N t => sdpRf mems S x yx data y minSize maxDepth N classifier t

/-- `ACXplainer.compute_ddp_rf`, acv_agnosticX.py:424-468, cyext_acv.pyx:5978-5992. -/
def acxDdpRf (mems : List Mem) (maxDepth : Nat) (classifier : Bool) (quant : Row → ℚ × ℚ) (a : AcxArgs) : Option (List ℚ) :=
  acxLoop classifier quant a fun S x yx data y minSize N t => ddpRf mems S x yx data y minSize maxDepth N classifier t

/-- `ACXplainer.compute_exp_rf`, acv_agnosticX.py:1220-1263, cyext_acv.pyx:4318-4329. -/
def acxExpRf (mems : List Mem) (maxDepth : Nat) (classifier : Bool) (quant : Row → ℚ × ℚ) (a : AcxArgs) : Option (List ℚ) :=
  acxLoop classifier quant a fun S x _ data y minSize N _ => expRf mems S x data y minSize maxDepth N

/-- `ACXplainer.compute_cdf_rf`, acv_agnosticX.py:1265-1308, cyext_acv.pyx:4576-4587: for a classifier `t` becomes a matrix of zeros, for a
regressor without `t` a matrix of quantiles; neither converts to `double[:]`. -/
def acxCdfRf (mems : List Mem) (maxDepth : Nat) (classifier : Bool) (quant : Row → ℚ × ℚ) (a : AcxArgs) : Option (List ℚ) :=
  let t : TArg := if classifier then .rows (a.X.map fun _ => (0, 0)) else match a.t with
    | .none => .rows (a.X.map quant)
    | t => t
  rfLoop 0 t.vector a fun S x _ data y minSize N t => cdfRf mems S x data y minSize maxDepth N t

/-- `ACVTree.compute_sdp_rf`, acv_tree.py:831-868: `t` (20 if not given) is passed as it is. `ACVTreeAgnostic.compute_sdp_rf` (1137-1140)
omits the checks. -/
def treeSdpRf (mems : List Mem) (maxDepth : Nat) (classifier : Bool) (a : AcxArgs) : Option (List ℚ) :=
  rfLoop (0, 0) a.t.matrix a fun S x yx data y minSize N t => sdpRf mems S x yx data y minSize maxDepth N classifier t

/-- `ACVTree.compute_exp_rf`, acv_tree.py:1045-1080; `ACVTreeAgnostic.compute_exp_rf` (1244-1247) omits the checks. -/
def treeExpRf (mems : List Mem) (maxDepth : Nat) (a : AcxArgs) : Option (List ℚ) :=
  rfLoop (0, 0) a.t.matrix a fun S x _ data y minSize N _ => expRf mems S x data y minSize maxDepth N

/-- `ACVTree.compute_cdf_rf`, acv_tree.py:870-907; `ACVTreeAgnostic.compute_cdf_rf` (1132-1135) omits the checks. -/
def treeCdfRf (mems : List Mem) (maxDepth : Nat) (a : AcxArgs) : Option (List ℚ) :=
  rfLoop 0 a.t.vector a fun S x _ data y minSize N t => cdfRf mems S x data y minSize maxDepth N t

/-- `ACVTree.compute_quantile_rf`, acv_tree.py:1082-1087, cyext_acv.pyx:4405-4421: no checks; too few outputs or sets are read beyond
their end (here `none`). The number `t` is converted and not used. -/
def treeQuantileRf (mems : List Mem) (maxDepth : Nat) (q : ℚ) (a : AcxArgs) : Option (List (Except String ℚ)) :=
  a.t.number.bind fun _ =>
    if a.S.length < a.X.length ∨ a.yData.length < a.data.length then none
    else some ((List.range a.X.length).map fun i =>
      quantileRf mems (a.S.getD i []) (a.X.getD i 0) (fun j => a.data.getD j 0) (fun j => a.yData.getD j 0) a.minSize maxDepth
        a.data.length q)

/-! ## The columns to search -/

/-- The attributes of the explained model and of the explainer that decide the columns to search: `self.model.feature_importances_` (if it
exists) and `self.node_idx_trees`, the variables of every leaf of every tree (base_tree.py:604). -/
structure TreeAttrs where
  importances : Option (List ℚ)
  leafVars : List (List (List Nat))

/-- `[item for t in self.node_idx_trees for sublist in t for item in sublist]`, acv_tree.py:967,1031,1213,1231,1268. -/
def TreeAttrs.flat (m : TreeAttrs) : List Nat := m.leafVars.flatten.flatten

/-- The columns by decreasing number of leaves that use them, `node_idx.value_counts().keys()`, acv_tree.py:968-971,1032-1035. `sort key l`
orders `l` by decreasing `key` (the order of ties is not specified by pandas and numpy). -/
def TreeAttrs.byUse (sort : (Nat → ℚ) → List Nat → List Nat) (m : TreeAttrs) : List Nat :=
  sort (fun c => m.flat.count c) m.flat.dedup

/-- `np.argsort(-np.array(self.model.feature_importances_))`, acv_tree.py:964-965,1028-1029. -/
def byImportance (sort : (Nat → ℚ) → List Nat → List Nat) (w : List ℚ) : List Nat :=
  sort (fun c => w.getD c 0) (List.range w.length)

/-- The columns that `ACVTree.importance_sdp_rf` passes on, acv_tree.py:962-979. `none`: without `feature_importances_` the handler reads
`self.ACXplainer`, which an `ACVTree` does not have (`AttributeError`). -/
def importanceSpace (sort : (Nat → ℚ) → List Nat → List Nat) (cols : Nat) (m : TreeAttrs) : Option (List Nat) :=
  ((if cols > 10 then m.importances.map (byImportance sort) else some (List.range cols))).map (·.take 10)

/-- The columns that `ACVTree.sufficient_expl_rf` passes on, acv_tree.py:1026-1043. -/
def sufficientSpace (sort : (Nat → ℚ) → List Nat → List Nat) (cols : Nat) (m : TreeAttrs) : List Nat :=
  (if cols > 10 then (match m.importances with | some w => byImportance sort w | none => m.byUse sort) else List.range cols).take 10

/-- The columns that `ACVTreeAgnostic.importance_sdp_rf`, `importance_sdp_rf_v0` and `sufficient_expl_rf` pass on, acv_tree.py:1211-1223,
1229-1241,1266-1278: the importances are not looked at. -/
def agnosticSpace (sort : (Nat → ℚ) → List Nat → List Nat) (cols : Nat) (m : TreeAttrs) : List Nat :=
  (if cols > 10 then m.byUse sort else List.range cols).take 10

/-- The SDP of sample `i` given the columns `S` in a search, cyext_acv.pyx:6244-6247,6352-6358. -/
def AcxArgs.sdpOf (a : AcxArgs) (mems : List Mem) (maxDepth : Nat) (classifier : Bool) (t : List (ℚ × ℚ)) (i : Nat) (S : List Nat) : ℚ :=
  sdpRf mems S (a.X.getD i 0) (a.y.getD i 0) (fun j => a.data.getD j 0) (fun j => a.yData.getD j 0) a.minSize maxDepth a.data.length
    classifier (t.getD i (0, 0))

/-- `check_X_y(X, y)` and `check_X_y(data, y_data)`, acv_tree.py:958-960,1022-1024. -/
def AcxArgs.checkedXy (a : AcxArgs) : Bool :=
  decide (a.X.length = a.y.length) && !a.X.isEmpty && decide (a.data.length = a.yData.length) && !a.data.isEmpty

/-- `ACVTree.importance_sdp_rf`, acv_tree.py:909-979, with `global_sdp_rf`, cyext_acv.pyx:6163-6286. `t_arr[mask]` (6247) raises unless `t` has
one row per sample (also if nothing is searched, here). -/
def treeImportance (sort : (Nat → ℚ) → List Nat → List Nat) (mems : List Mem) (maxDepth cols : Nat) (m : TreeAttrs) (classifier : Bool)
    (a : AcxArgs) (C : List (List Nat)) (pi : ℚ) (minimal : Nat) (stop : Bool) (half : Nat) : Option Batch :=
  if a.checkedXy then
    (importanceSpace sort cols m).bind fun space => a.t.matrix.bind fun t =>
      if t.length = a.X.length then
        globalSdpRf (a.sdpOf mems maxDepth classifier t) a.X.length cols C space pi minimal stop half
      else none
  else none

/-- `ACVTree.sufficient_expl_rf`, acv_tree.py:981-1043, with `sufficient_expl_rf`, cyext_acv.pyx:6293-6381: for every sample the sets with
their SDP, without the sentinels (the code keeps them). -/
def treeSufficient (sort : (Nat → ℚ) → List Nat → List Nat) (mems : List Mem) (maxDepth cols : Nat) (m : TreeAttrs) (classifier : Bool)
    (a : AcxArgs) (C : List (List Nat)) (pi : ℚ) (minimal : Nat) : Option (List (List (List Int × ℚ))) :=
  if a.checkedXy then
    a.t.matrix.bind fun t =>
      if t.length < a.X.length then none
      else (levelsRf (searchPlayers C (sufficientSpace sort cols m)) minimal).map fun levels =>
        (List.range a.X.length).map fun i => (suffScan (a.sdpOf mems maxDepth classifier t i) pi levels).drop 1
  else none

end Acv

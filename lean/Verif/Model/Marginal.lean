import Verif.Model.Search

/-!
# Marginal SDP of a black box

Models `single_msdp`, `msdp`, `single_msdp_reg`, `msdp_reg` and `importance_msdp_reg_search`, /repo/acv_explainers/utils_sdp.py:366-394 and
486-604, behind `compute_msdp_clf`, `compute_msdp_reg`, `importance_msdp_clf`, `importance_msdp_reg` of `ACVTree`
(/repo/acv_explainers/acv_tree.py:720-801), `ACVTreeAgnostic` (1098-1130) and `ACXplainer` (/repo/acv_explainers/acv_agnosticX.py:1341-1373).

Simplifications: `model.predict` is an arbitrary function of the row, called row by row; one sample at a time; the mean over no row is NaN
(`none`).
-/

namespace Acv

/-- `data = rg_data.copy(); data[:, S] = x[S]`, utils_sdp.py:370-371, 490-491, for one row. -/
def fixCols (S : List Nat) (x z : Row) : Row := fun c => if c ∈ S then x c else z c

/-- `np.mean` of a boolean test over the background with the columns `S` fixed, or 1 if `S` has as many columns as the sample,
utils_sdp.py:366-379, 486-498. -/
def marginalMean (test : Row → Bool) (d : Nat) (rg : List Row) (S : List Nat) (x : Row) : Option ℚ :=
  if S.length ≠ d then npDiv ((rg.filter fun z => test (fixCols S x z)).length : ℚ) rg.length else some 1

/-- `single_msdp`, utils_sdp.py:366-379: the test is `y_pred == fx`. -/
def msdpClf {α : Type} [DecidableEq α] (predict : Row → α) (d : Nat) (rg : List Row) (S : List Nat) (x : Row) : Option ℚ :=
  marginalMean (fun z => decide (predict z = predict x)) d rg S x

/-- `single_msdp_reg`, utils_sdp.py:486-498: the test is `np.abs(y_pred - fx) <= threshold`. -/
def msdpReg (predict : Row → ℚ) (thr : ℚ) (d : Nat) (rg : List Row) (S : List Nat) (x : Row) : Option ℚ :=
  marginalMean (fun z => decide (|predict z - predict x| ≤ thr)) d rg S x

/-- The columns searched by `importance_msdp_clf` and `importance_msdp_reg`, acv_tree.py:745-758, 786-801: `order` lists the columns of the
trees by decreasing number of occurrences. -/
def msdpSpace (cols : Nat) (order : List Nat) : List Nat := if cols > 15 then order.take 15 else List.range cols

/-- `ACVTree.importance_msdp_clf`, acv_tree.py:745-758, and `importance_msdp_reg`, 786-801 (`importance_msdp_reg_search`,
utils_sdp.py:516-604, has the body of `importance_msdp_clf_search`), for the values `v i` of the samples. The model has no NaN here:
0 stands for it. -/
def importanceMsdp (v : Nat → List Nat → Option ℚ) (N cols : Nat) (order : List Nat) (C : List (List Nat)) (pi : ℚ) (minimal : Nat)
    (stop : Bool) (half : Nat) : Option Batch :=
  msdpSearch (fun i S => (v i S).getD 0) N cols C (msdpSpace cols order) pi minimal stop half

end Acv

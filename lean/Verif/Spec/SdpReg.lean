import Verif.Spec.TreeSdp

/-!
# Specification for same decision probabilities of a regressor
-/

namespace Acv

open Classical in
/-- Among the rows that agree with `x` on `S`, the share of those whose output differs from that of `x` by at most `√tX`. -/
noncomputable def closeShare (y : Row → ℚ) (tX : ℚ) (data : List Row) (S : List Nat) (x : Row) : ℚ :=
  (((matching S x data).filter fun z => (y z - y x) ^ 2 ≤ tX).length : ℚ) / (matching S x data).length

end Acv

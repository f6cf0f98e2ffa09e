import Verif.Model.LeafShap

/-!
# Specification: the same background data, in another order and repeated
-/

namespace Acv

/-- The background rows `0, …, N - 1` in another order, each of them `k` times: row `j` of the new background is row `σ j` of the old one. -/
structure Repeats (k N N' : Nat) (σ : Nat → Nat) : Prop where
  pos : 0 < k
  lt : ∀ j < N', σ j < N
  times : ∀ i < N, ((List.range N').filter fun j => decide (σ j = i)).length = k

/-- The same for a list of rows: `k` copies of the old list, in any order. -/
def Multiplied (k : Nat) (data data' : List Row) : Prop := 0 < k ∧ data'.Perm (List.replicate k data).flatten

end Acv

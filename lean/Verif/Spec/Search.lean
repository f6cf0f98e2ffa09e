import Verif.Model.Search

/-!
# What the searches should find

Independent of the search loops: only `searchPlayers` (which columns are searched, alone or as a group) is shared with the model.
-/

namespace Acv

/-- Arguments a caller passes: distinct existing columns to search, and disjoint groups of existing columns. -/
structure SearchArgs (cols : Nat) (C : List (List Nat)) (space : List Nat) : Prop where
  space_nodup : space.Nodup
  space_lt : ∀ c ∈ space, c < cols
  groups_nodup : C.flatten.Nodup
  groups_lt : ∀ c ∈ C.flatten, c < cols

/-- `S` is the set of columns of `k` of the players. -/
def Candidate (players : List (List Nat)) (k : Nat) (S : List Nat) : Prop :=
  ∃ co : List (List Nat), co.Sublist players ∧ co.length = k ∧ S = co.flatten

end Acv

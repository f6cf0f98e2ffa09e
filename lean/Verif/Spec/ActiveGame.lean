import Verif.Spec.LeafGame

/-!
# Specification: the game explained by the Active Shapley values

The players are the players (groups or single columns) inside the active columns `S`. The empty coalition is worth the
mean prediction; a non-empty coalition is evaluated together with all null columns `N`.
-/

namespace Acv

/-- `S` and `N` split the `m` columns, and no group straddles the two parts. -/
def ValidActive (m : Nat) (C : List (List Nat)) (S N : List Nat) : Prop :=
  S.Nodup ∧ (∀ i, (i ∈ S ∨ i ∈ N) ↔ i < m) ∧ (∀ i ∈ S, i ∉ N) ∧ ∀ g ∈ C, (∀ s ∈ g, s ∈ S) ∨ ∀ s ∈ g, s ∉ S

/-- The active players. -/
def activeSet (m : Nat) (C : List (List Nat)) (S : List Nat) : Finset (List Nat) :=
  (playerSet m C).filter fun g => ∀ s ∈ g, s ∈ S

/-- The active game. -/
noncomputable def activeGame (ts : List TreeArr) (m : Nat) (data : List Row) (N : List Nat) (x : Row) (k : Nat)
    (T : Finset (List Nat)) : ℚ :=
  if T = ∅ then leafGame ts m data x k ∅ else leafGame ts m data x k (insert N T)

end Acv

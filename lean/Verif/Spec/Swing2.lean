import Verif.Spec.Shapley
import Verif.Model.Swing

/-! # Specification of the swings of a game -/

namespace Acv

/-- What a player adds to a coalition. -/
def marginal {ι : Type} [DecidableEq ι] (V : Finset ι → ℚ) (g : ι) (T : Finset ι) : ℚ := V (insert g T) - V T

/-- The cells of a player of the game `V`: the Shapley value; the part of it due to coalitions that gain, and to coalitions that lose;
the numbers of coalitions that gain, lose and stay. -/
def swingSpec (P : Finset (List Nat)) (V : Finset (List Nat) → ℚ) (g : List Nat) : Swing where
  phi := shapley P V g
  pos := ∑ T ∈ (P.erase g).powerset, shapW P.card T.card * max (marginal V g T) 0
  neg := ∑ T ∈ (P.erase g).powerset, shapW P.card T.card * min (marginal V g T) 0
  nPos := (((P.erase g).powerset).filter fun T => V T < V (insert g T)).card
  nNeg := (((P.erase g).powerset).filter fun T => V (insert g T) < V T).card
  nNull := (((P.erase g).powerset).filter fun T => V (insert g T) = V T).card

end Acv

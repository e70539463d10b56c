import Verif.Spec.Lists
/-
The neighbours of an element in a list.
-/
namespace RankDB.Spec

/-- The elements that rank right below an element, at most `n`, the closest first. -/
def rightBelow (content : List Element) (e : Element) (n : Nat) : List Element :=
  (content.filter fun x => decide (RanksAbove e x)).take n

/-- The elements that rank right above an element, at most `n`, the closest first. -/
def rightAbove (content : List Element) (e : Element) (n : Nat) : List Element :=
  (content.filter fun x => decide (RanksAbove x e)).reverse.take n

end RankDB.Spec

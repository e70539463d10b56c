import Verif.Model.ReadFaults
import Verif.Spec.Lists
/-
Specification for queries while reads fail.
-/
namespace RankDB.Spec

open ReadFaults

/-- A read has failed. -/
def ReadFailed (t : List (Place × Bool)) : Prop := ∃ p, (p, false) ∈ t

/-- The score segment has elements of a page, or it has no elements at all. -/
def PartOf (st : ListState) (page : List Element) (p : Place) : Prop :=
  p.1 = false ∧ p.2 < st.scores.segs.length ∧ (stored st p = [] ∨ ∃ e ∈ page, e ∈ stored st p)

/-- The score is in the range of scores of the segment. -/
def Covers (segs : List Seg) (j score : Nat) : Prop := ∃ s, segs[j]? = some s ∧ s.min ≤ score ∧ score ≤ s.max

/-- An element of the list with its ranks; its neighbours are the nearest ones, but there may be fewer than asked for. -/
structure PartialResult (content : List Element) (radius : Nat) (r : Segments.Ranked) : Prop where
  mem : r.elem ∈ content
  top : r.fromTop = rankFromTop content r.elem
  bottom : r.fromBottom = rankFromBottom content r.elem
  below : r.below <+: (content.filter fun x => decide (RanksAbove r.elem x)).take radius
  above : r.above <+: (content.filter fun x => decide (RanksAbove x r.elem)).reverse.take radius

/-- An element of the list with its ranks and its neighbours. -/
structure FullResult (content : List Element) (radius : Nat) (r : Segments.Ranked) : Prop extends PartialResult content radius r where
  allBelow : r.below = (content.filter fun x => decide (RanksAbove r.elem x)).take radius
  allAbove : r.above = (content.filter fun x => decide (RanksAbove x r.elem)).reverse.take radius

end RankDB.Spec

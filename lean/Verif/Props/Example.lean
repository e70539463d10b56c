import Verif.Spec.Lists
/-
A concrete list that is used to show that the hypotheses of the theorems about lists can be met: nine
elements, among them equal scores, in four score segments and three index segments.
-/
namespace RankDB.Props
open Spec

/-- Elements with distinct IDs; several share score, tie-breaker and time. -/
def exElems : List Element :=
  [⟨50, 1, [], 3, 7⟩, ⟨50, 2, [9], 0, 7⟩, ⟨70, 3, [], 0, 7⟩, ⟨10, 4, [1, 2], 0, 8⟩, ⟨20, 5, [], 0, 7⟩,
   ⟨90, 6, [], 0, 7⟩, ⟨15, 7, [], 0, 7⟩, ⟨20, 8, [], 0, 7⟩, ⟨33, 9, [], 0, 7⟩]

/-- The list with these elements, `MergeSplitSize(2, 4)`. -/
def exList : ListState := (Lists.populate 100 .inOrder .reversed id 2 4 exElems).getD default

theorem exList_ok : ListOK exList := (listOK_iff _).1 (by decide +kernel)

example : exList.scores.segs.length = 3 ∧ exList.index.segs.length = 3 ∧
    exList.content.map (·.id) = [6, 3, 1, 2, 9, 5, 8, 7, 4] := by decide +kernel

theorem exElems_ok : DistinctIDs exElems ∧ (∀ e ∈ exElems, Storable e) := by decide +kernel

end RankDB.Props

import Verif.Model.Cost
import Verif.Spec.Lists
import Verif.Spec.ReadFaults
/-
Specification of what changes of a list read and write.
-/
namespace RankDB.Spec
open ReadFaults

/-- The segments of `parent` whose elements are written, by their IDs. -/
def rewritten (parent : Str) (ws : List Disk.Write) : List Nat :=
  ws.filterMap fun
    | .elems p i _ => if p = parent then some i else none
    | _ => none

/-- All that is written are elements of segments of the list, and its two tables once each at the end. -/
def OnlyElements (ent : Disk.Entry) (ws : List Disk.Write) : Prop :=
  ∃ es s i, ws = es ++ [.head ent.scores s, .head ent.index i] ∧
    ∀ w ∈ es, ∃ id l, w = .elems ent.scores id l ∨ w = .elems ent.index id l

/-- The index segments that are read, by position. -/
def indexReads (reads : List Place) : List Nat := reads.filterMap fun p => if p.1 then some p.2 else none

/-- The score segments that are read, by position. -/
def scoreReads (reads : List Place) : List Nat := reads.filterMap fun p => if p.1 then none else some p.2

/-- The segment has an element with the ID. -/
def Holds (segs : List Seg) (j id : Nat) : Prop := ∃ s, segs[j]? = some s ∧ ∃ x ∈ s.elems, x.id = id

/-- The element belongs into the segment, by score and tie-breaker. -/
def Belongs (segs : List Seg) (j : Nat) (e : Element) : Prop := ∃ s, segs[j]? = some s ∧ InRange s e

/-- The IDs of the segments at positions that are described. -/
def At (segs : List Seg) (P : Nat → Prop) (id : Nat) : Prop := ∃ j s, segs[j]? = some s ∧ s.id = id ∧ P j

/-- No segment has to be split, and with `merge` no two neighbours are small enough to be merged. -/
def Settled (splitSize mergeSize : Nat) (merge : Bool) (segs : List Seg) : Prop :=
  (∀ s ∈ segs, s.elems.length < splitSize) ∧
  (merge = true → ∀ a b l₁ l₂, segs = l₁ ++ a :: b :: l₂ → mergeSize < b.elems.length + a.elems.length)

end RankDB.Spec

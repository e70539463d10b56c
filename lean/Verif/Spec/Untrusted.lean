import Verif.Model.Untrusted
import Verif.Spec.Lists
import Verif.Spec.Stored
/-
Specification for C108: bytes that nobody vouches for.
-/
namespace RankDB.Spec
open Wire Stored Backup

/-- The bytes of a backup file with any description, any table and any segments with any elements. -/
def fileOf (l : ListRec) (t : Table) (count : Int) (parts : List (SegMeta × List Element)) : Bytes :=
  encUint 1 ++ encList l ++ encUint 2 ++ encTable t ++ encUint 2 ++ encInt count ++
    parts.flatMap fun p => encSegment p.1 ++ encElements p.2

/-- Every number and length fits its field. -/
def PartFits (p : SegMeta × List Element) : Prop :=
  p.1.WF ∧ p.2.length ≤ maxU32 ∧ ∀ e ∈ p.2, e.WF ∧ e.payload.length ≤ maxU32

/-- The segment a part of a file stands for. -/
def segOf (p : SegMeta × List Element) : Seg :=
  { id := p.1.id, min := p.1.min, max := p.1.max, minTie := p.1.minTie, maxTie := p.1.maxTie
    n := p.2.length, updated := 0, elems := p.2 }

/-- What a file must contain so that the list in it is well formed. -/
structure Proper (p : Parsed) : Prop where
  segs : SegsOK (p.parts.map segOf)
  ids : ∀ x ∈ p.parts, 0 < x.1.id ∧ x.1.id < p.table.nextID
  scores : p.table.isIndex = false

end RankDB.Spec

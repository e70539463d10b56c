import Verif.Spec.Server
/-
Specification of a storage without waste: every blob belongs to a list that is there.
-/
namespace RankDB.Spec
open Server

/-- Every table of segments has the name of a list that is there, and every blob with elements is a segment in such a
table. -/
structure Tidy (db : Db) : Prop where
  heads : ∀ n s, db.store.heads n = some s → ∃ l ∈ db.lists, n ∈ names l
  elems : ∀ n i e, db.store.elems n i = some e → ∃ s, db.store.heads n = some s ∧ ∃ g ∈ s.segs, g.id = i

/-- There is no blob under the name. -/
def Gone (d : Disk.Store) (n : Str) : Prop := d.heads n = none ∧ ∀ i, d.elems n i = none

end RankDB.Spec

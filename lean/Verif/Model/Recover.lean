import Verif.Model.Server
/-
Model of a repair request for a list of which parts may be missing, as after a crash. `Server.handle` has the repair
of a list that can be read.
-/
namespace RankDB.Server
open Disk

/-- list.go:209-235 `initEmptyList` as list.go:1799-1807 calls it: the list is replaced by an empty one, what is left
of the old one stays in the storage. -/
def cleared (env : Env) (l : Listing) : List Effect :=
  let new := { l.ent with scores := env.scores, index := env.index }
  (populateNew env.now env.sch env.shuffle env.reduce new []).map .blob ++ [.put { l with ent := new }]

/-- api/lists.go:251-270 with list.go:1789-1844 `Repair`, for any storage.
- The scores are not found: list.go:1798-1807.
- Only the index is not found: `Stats` returns no result (list.go:1791), `loadSegments` rebuilds the index
  (list.go:373-389) and list.go:1820 panics. If a segment is missing too, the index cannot be rebuilt and the list is
  cleared.
- Otherwise the elements that can be read are taken (list.go:1821-1833), what the list has is deleted
  (list.go:892-899), and the list is populated.
`Lists.repair` is asked only whether it returns. -/
def repairAny (env : Env) (db : Db) (id : Str) : Answer × List Effect :=
  match byID db.lists id with
  | none => (.notFound, [])
  | some l =>
    match db.store.heads l.ent.scores, db.store.heads l.ent.index with
    | none, _ => (.ok, cleared env l)
    | some s, none =>
      let new := { l.ent with index := env.index }
      let st : ListState :=
        { scores := { s with segs := s.segs.map (fill db.store l.ent.scores) }, index := Segments.empty env.now true
          mergeSize := l.ent.mergeSize, splitSize := l.ent.splitSize }
      if complete db.store l.ent.scores s then
        (.stuck, (Disk.reindex env.now env.sch l.ent new st).map .blob ++ [.put { l with ent := new }])
      else (.ok, cleared env l)
    | some s, some i =>
      let new := { l.ent with scores := env.scores, index := env.index }
      let st : ListState :=
        { scores := { s with segs := s.segs.map (fill db.store l.ent.scores) }, index := i
          mergeSize := l.ent.mergeSize, splitSize := l.ent.splitSize }
      let lost : Seg → Bool := fun g => (db.store.elems l.ent.scores g.id).isNone
      match Lists.repair env.now env.sch env.shuffle env.reduce lost st with
      | none => (.stuck, [])
      | some _ =>
        let found := (st.scores.segs.filter fun g => !(lost g)).flatMap fun g => (Elements.deduplicate g.elems).1
        (.ok, (populate env.now env.sch env.shuffle env.reduce l.ent new st (Elements.deduplicate found).1).map .blob ++
          [.put { l with ent := new }])

/-- The answer to the repair request and the server afterwards. -/
def repaired (env : Env) (db : Db) (id : Str) : Answer × Db :=
  ((repairAny env db id).1, applyAll db (repairAny env db id).2)

end RankDB.Server

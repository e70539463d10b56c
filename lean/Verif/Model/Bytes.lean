import Verif.Model.ServerQueries
import Verif.Model.ListFile
import Verif.Model.Keys
/-
Model of the server down to bytes: the storage maps keys to bytes. Segments are stored under their ID, the elements of
a segment under the key of segment.go:97-99, the catalogue under "lists". A request decodes what it needs, does what
`Model/Server` says, and encodes what it writes.

Simplifications: the parent of a segment (segment.go:39) is always the name of the table that it is in; elements are
looked up under the name of the table. All sets share one storage (see `Model/Server`). The catalogue is written in the
order of `lists`; Go's order is any, which nobody can see (C43, C44). There is no backup of the catalogue here (see
C36), and blobs that cannot be decoded count as missing.
-/
namespace RankDB.Files
open Wire Stored Server Disk

/-- The storage: from keys to bytes. -/
abbrev Blobs := Str → Option Bytes

/-- segment.go:31-40: the stored fields of a segment of the table `p`. -/
def metaOf (p : Str) (g : Seg) : SegMeta :=
  { id := g.id, min := g.min, max := g.max, minTie := g.minTie, maxTie := g.maxTie, n := g.n, updated := g.updated, parent := p }

/-- segments.go:31-48: the stored fields of segments with the ID `p`. -/
def tableOf (p : Str) (s : Segs) : Table :=
  { id := p, segments := s.segs.map (metaOf p), nextID := s.nextID, isIndex := s.isIndex }

/-- A segment as it is loaded, without elements. -/
def segOf (m : SegMeta) : Seg :=
  { id := m.id, min := m.min, max := m.max, minTie := m.minTie, maxTie := m.maxTie, n := m.n.toNat, updated := m.updated.toNat, elems := [] }

/-- Segments as they are loaded. -/
def segsOf (t : Table) : Segs := { segs := t.segments.map segOf, nextID := t.nextID, isIndex := t.isIndex }

/-- segments.go:855-880 `SegmentsID.Load`. -/
def readTable (b : Blobs) (p : Str) : Option Segs :=
  match b p with
  | none => none
  | some x =>
    match loadTable x with
    | .ok t => some (segsOf t)
    | .error _ => none

/-- segment.go:173-222 `loadElements`. -/
def readElements (b : Blobs) (p : Str) (i : Nat) : Option (List Element) :=
  match b (Keys.storageKey p i) with
  | none => none
  | some x =>
    match loadElements x with
    | .ok l => some l
    | .error _ => none

/-- What the storage contains. -/
def decoded (b : Blobs) : Store := { heads := readTable b, elems := readElements b }

/-- The storage with one key changed. -/
def Blobs.set (b : Blobs) (k : Str) (v : Option Bytes) : Blobs := fun x => if x = k then v else b x

/-- segments.go:837-852 `Save`, segment.go:233-249 `saveElements`, segments.go:901 and segment.go:225-230
`deleteElements`. -/
def writeBytes (b : Blobs) : Write → Blobs
  | .head p s => b.set p (some (tableBlob (tableOf p s)))
  | .elems p i l => b.set (Keys.storageKey p i) (some (elementsBlob l))
  | .delHead p => b.set p none
  | .delElems p i => b.set (Keys.storageKey p i) none

/-- list.go:30-54: the stored fields of a list. -/
def recOf (l : Listing) : ListRec :=
  { id := l.id, set := l.set, metadata := l.metadata, splitSize := l.ent.splitSize, mergeSize := l.ent.mergeSize
    loadIndex := l.loadIndex, scores := l.ent.scores, index := l.ent.index }

/-- A list as it is loaded. -/
def listingOf (r : ListRec) : Listing :=
  { id := r.id, set := r.set, metadata := r.metadata, loadIndex := r.loadIndex
    ent := { scores := r.scores, index := r.index, mergeSize := r.mergeSize.toNat, splitSize := r.splitSize.toNat } }

/-- The server: the storage, and the catalogue in memory. -/
structure Files where
  blobs : Blobs
  lists : List Listing

/-- The compression of the catalogue. -/
structure Setup where
  lib : Compression
  compress : Bool

/-- What the server works with. The saved catalogue is only read by a start. -/
def Files.db (F : Files) : Db := { store := decoded F.blobs, lists := F.lists, file := [] }

/-- One change. `save` is manager.go:180-195 `SaveLists`. -/
def apply (c : Setup) (F : Files) : Effect → Files
  | .blob w => { F with blobs := writeBytes F.blobs w }
  | .put l => { F with lists := l :: F.lists.filter fun x => x.id != l.id }
  | .drop id => { F with lists := F.lists.filter fun x => x.id != id }
  | .save => { F with blobs := F.blobs.set Keys.listStorageKey (some (saveLists c.lib c.compress (F.lists.map recOf))) }

/-- Changes one after the other. -/
def applyAll (c : Setup) (F : Files) (es : List Effect) : Files := es.foldl (apply c) F

/-- A request is served: the answer, and the server afterwards. -/
def serve (c : Setup) (env : Env) (F : Files) (r : Request) : Answer × Files :=
  ((handle env F.db r).1, applyAll c F (handle env F.db r).2)

/-- The server after it stopped before change number `k` of a request. -/
def stopped (c : Setup) (k : Nat) (env : Env) (F : Files) (r : Request) : Files :=
  applyAll c F ((handle env F.db r).2.take k)

/-- manager.go:161-178 `LoadLists` without backup, and api/rankdb.go:257-261: without a saved catalogue there are no
lists. `none` if the catalogue cannot be read; then the server does not start. -/
def start (c : Setup) (F : Files) : Option Files :=
  match F.blobs Keys.listStorageKey with
  | none => some { F with lists := [] }
  | some x =>
    match loadLists c.lib [] x with
    | (ls, none) => some { F with lists := ls.map listingOf }
    | (_, some _) => none

/-- What clients and operators do. -/
inductive Event
  | change (env : Env) (r : Request)
  | ask (sch : Sched) (q : Query)
  /-- stop before change number `k` of a request, and start -/
  | crash (k : Nat) (env : Env) (r : Request)

/-- What is seen. -/
inductive Response
  | answer (a : Answer)
  | shown (s : Shown)
  | started (ok : Bool)

/-- Events one after the other: what is seen, and the server afterwards. If it does not start, nothing else happens. -/
def run (c : Setup) (F : Files) : List Event → List Response × Files
  | [] => ([], F)
  | .change env r :: es =>
    let s := serve c env F r
    let t := run c s.2 es
    (.answer s.1 :: t.1, t.2)
  | .ask sch q :: es =>
    let t := run c F es
    (.shown (Server.ask sch F.db q) :: t.1, t.2)
  | .crash k env r :: es =>
    match start c (stopped c k env F r) with
    | none => ([.started false], stopped c k env F r)
    | some G =>
      let t := run c G es
      (.started true :: t.1, t.2)

end RankDB.Files

import Verif.Model.List
import Verif.Model.Catalogue
/-
Model of what list.go, segments.go and segment.go write to the storage, and in which order. A crash at any
moment leaves the effect of the writes before it.

Storage keys: the segments of a list are stored under their ID, the elements of a segment under the ID of
the segments and the ID of the segment (segment.go:97-99). `Props.C42_storage_key` and `Props.C42_segment_table`
show that these keys do not collide, so the storage is modelled as a function of the parts of the key. Blobs
are modelled as the values they encode; `Props/Stored.lean` shows that they decode to these values. A single
write either happens or not.
-/
namespace RankDB.Disk

/-- The blobs of lists. `heads` are the segments without elements (segments.go:837), `elems` the elements of a
segment (segment.go:233). -/
structure Store where
  heads : Str → Option Segs
  elems : Str → Nat → Option (List Element)

/-- A change of one blob: segments.go:851, segment.go:248, segments.go:901, segment.go:226. -/
inductive Write
  | head (parent : Str) (s : Segs)
  | elems (parent : Str) (id : Nat) (l : List Element)
  | delHead (parent : Str)
  | delElems (parent : Str) (id : Nat)
deriving DecidableEq, Repr

/-- The name of the segments that the blob belongs to. -/
def Write.parent : Write → Str
  | .head p _ | .elems p _ _ | .delHead p | .delElems p _ => p

/-- The effect of one write. -/
def write (d : Store) : Write → Store
  | .head p s => { d with heads := fun q => if q = p then some s else d.heads q }
  | .elems p i l => { d with elems := fun q j => if q = p ∧ j = i then some l else d.elems q j }
  | .delHead p => { d with heads := fun q => if q = p then none else d.heads q }
  | .delElems p i => { d with elems := fun q j => if q = p ∧ j = i then none else d.elems q j }

/-- Writes one after the other. -/
def writes (d : Store) (ws : List Write) : Store := ws.foldl write d

/-- The storage after a crash before write number `k`. -/
def crash (k : Nat) (d : Store) (ws : List Write) : Store := writes d (ws.take k)

/-- list.go:30-54: where the content of a list is stored, and its sizes. This part is stored with the list of
lists (lists.go). -/
structure Entry where
  scores : Str
  index : Str
  mergeSize : Nat
  splitSize : Nat
deriving DecidableEq, Repr

/-- segments.go:837-852 `Save` encodes the segments without their elements. -/
def head (s : Segs) : Segs := { s with segs := s.segs.map fun g => { g with elems := [] } }

/-- A segment with the elements found in the storage; none if there are none. -/
def fill (d : Store) (p : Str) (g : Seg) : Seg := { g with elems := (d.elems p g.id).getD [] }

/-- All elements of the segments can be loaded. -/
def complete (d : Store) (p : Str) (s : Segs) : Bool := s.segs.all fun g => (d.elems p g.id).isSome

/-- segments.go:855-880 `Load` and segment.go:173-222 `loadElements` of all segments. `none` if something is missing. -/
def loadSegs (d : Store) (p : Str) : Option Segs :=
  match d.heads p with
  | none => none
  | some s => if complete d p s then some { s with segs := s.segs.map (fill d p) } else none

/-- The list as a program that starts sees it: list.go:307-407 `loadSegments` and the loading of all elements. -/
def reload (d : Store) (ent : Entry) : Option ListState :=
  match loadSegs d ent.scores, loadSegs d ent.index with
  | some s, some i => some { scores := s, index := i, mergeSize := ent.mergeSize, splitSize := ent.splitSize }
  | _, _ => none

/-- A process that starts calls `Repair` (list.go:1789-1844). If the score segments are not found, the list is
replaced by an empty one (list.go:1799-1807). Segments whose elements cannot be read are skipped. If the index
is not found, `Stats` (list.go:1791) returns no result, `loadSegments` tries to rebuild the index, and if that
succeeds the use of the missing result at list.go:1820 panics, which is `none`; if it does not, the list is
replaced by an empty one. `none` is also the division by zero of `Lists.populate`. -/
def repair (now : Nat) (sch shuffle : Sched) (reduce : Nat → Nat) (d : Store) (ent : Entry) : Option ListState :=
  match d.heads ent.scores, d.heads ent.index with
  | none, _ => some (Lists.initEmpty now ent.mergeSize ent.splitSize)
  | some s, none => if complete d ent.scores s then none else some (Lists.initEmpty now ent.mergeSize ent.splitSize)
  | some s, some _ =>
    Lists.repair now sch shuffle reduce (fun g => (d.elems ent.scores g.id).isNone)
      { scores := { s with segs := s.segs.map (fill d ent.scores) }, index := Segments.empty now true
        mergeSize := ent.mergeSize, splitSize := ent.splitSize }

/-- list.go:307-407 `loadSegments` of a process that starts, for an operation that changes the list: a missing
index is rebuilt. `none` stands for an error. -/
def openForUpdate (now : Nat) (sch : Sched) (d : Store) (ent : Entry) : Option ListState :=
  match d.heads ent.index with
  | some _ => reload d ent
  | none =>
    match loadSegs d ent.scores with
    | none => none
    | some s => Lists.reindex now sch
        { scores := s, index := Segments.empty now true, mergeSize := ent.mergeSize, splitSize := ent.splitSize }

/-- list.go:458-486 `saveSegments`. -/
def saveSegments (ent : Entry) (st : ListState) : List Write :=
  [.head ent.scores (head st.scores), .head ent.index (head st.index)]

/-- segments.go:270-298 `replaceSegment` for the segments at the given positions. -/
def replaceAt (p : Str) (positions : List Nat) (segs : List Seg) : List Write :=
  positions.filterMap fun i => (segs[i]?).map fun s => .elems p s.id s.elems

/-- segments.go:488-497 and segments.go:405-411: the positions of the segments that `Insert` and `DeleteElements`
load and replace. `k` is the position of the first segment. -/
def touched : Nat → List Seg → List Element → List Nat
  | _, [], _ => []
  | k, s :: ss, inp =>
    let se := Segment.filterIdx s inp
    if se.1 = se.2 then touched (k + 1) ss inp else k :: touched (k + 1) ss (inp.drop se.2)

/-- segments.go:332-337: the positions of the segments that `DeleteElementsIdx` loads and replaces. -/
def touchedIdx (segs : List Seg) (idx : List Element) : List Nat :=
  (List.range segs.length).filter fun i => !(Segments.idsAt segs idx i).isEmpty

/-- list.go:1596-1617: the writes of one piece of an insertion. Goroutines write the score segments in any order,
then the index segments. -/
def insertChunk (now : Nat) (sch : Sched) (ent : Entry) (st : ListState) (e : List Element) : List Write :=
  let st' := Lists.insertChunk now sch st e
  let idx := (Segments.insert now sch st.scores.segs (Elements.sortSlice e)).2
  sch.order (replaceAt ent.scores (touched 0 st.scores.segs (Elements.sortSlice (Elements.sortSlice e))) st'.scores.segs) ++
    sch.order (replaceAt ent.index (touched 0 st.index.segs (Elements.sortSlice (Elements.sortSlice idx))) st'.index.segs)

/-- list.go:1580-1617 for all pieces, then list.go:1560. -/
def insertChunks (now : Nat) (sch : Sched) (ent : Entry) : ListState → List (List Element) → List Write
  | st, [] => saveSegments ent st
  | st, c :: cs => insertChunk now sch ent st c ++ insertChunks now sch ent (Lists.insertChunk now sch st c) cs

/-- list.go:1548-1618 `Insert`; nothing if it does not return. -/
def insert (now : Nat) (sch : Sched) (ent : Entry) (st : ListState) (e : List Element) : List Write :=
  match Lists.chunks (Lists.insertLimit st) e.length e with
  | none => []
  | some cs => insertChunks now sch ent st cs

/-- list.go:1501-1543 `DeleteElements`. Goroutines write the score segments in any order, then the index
segments. -/
def deleteElements (now : Nat) (sch : Sched) (ent : Entry) (st : ListState) (ids : List Nat) : List Write :=
  let st' := Lists.deleteElements now sch st ids
  let e := Lists.getIndexElements sch st ids
  let deleted := (Segments.deleteElementsIdx now sch st.scores.segs e).2
  sch.order (replaceAt ent.scores (touchedIdx st.scores.segs e) st'.scores.segs) ++
    (sch.order (replaceAt ent.index (touched 0 st.index.segs deleted) st'.index.segs) ++ saveSegments ent st')

/-- list.go:1464-1496 of `UpdateElements`: the index segments, then the score segments, each in the order of a
map. -/
def updateElements (now : Nat) (sch : Sched) (ent : Entry) (st : ListState) (es : List Element) : List Write :=
  let st' := Lists.updateElements now sch st es
  sch.order (replaceAt ent.index (Lists.loadedIndex st es).eraseDups st'.index.segs) ++
    (sch.order (replaceAt ent.scores (Lists.loadedScores st es).eraseDups st'.scores.segs) ++ saveSegments ent st')

/-- segments.go:883-902 `Segments.Delete`. -/
def deleteSegs (sch : Sched) (p : Str) (segs : List Seg) : List Write :=
  sch.order (segs.map fun g => .delElems p g.id) ++ [.delHead p]

/-- segments.go:70-128 `NewSegmentsElements`: the segments are saved one after the other. -/
def newSegs (p : Str) (segs : List Seg) : List Write := segs.map fun g => .elems p g.id g.elems

/-- list.go:733-781 `reindex`. `new` is the entry with the name of the new index. -/
def reindex (now : Nat) (sch : Sched) (ent new : Entry) (st : ListState) : List Write :=
  match Lists.reindex now sch st with
  | none => []
  | some st' =>
    newSegs new.index st'.index.segs ++ ([.head new.index (head st'.index)] ++
      (deleteSegs sch ent.index st.index.segs ++ saveSegments new st'))

/-- list.go:899-974 in `populate`: the new content. `new` has the names of the new segments. -/
def populateNew (now : Nat) (sch shuffle : Sched) (reduce : Nat → Nat) (new : Entry) (e : List Element) : List Write :=
  if e.isEmpty then
    let st' := Lists.initEmpty now new.mergeSize new.splitSize
    newSegs new.scores st'.scores.segs ++ (newSegs new.index st'.index.segs ++ saveSegments new st')
  else if e.length > 100000 && !(Elements.isSorted e) then
    let e := shuffle.order e
    match Lists.build now (reduce ((new.mergeSize + new.splitSize) / 2)) new.mergeSize new.splitSize
        (Elements.sortSlice (e.take 100000)) with
    | none => []
    | some st' => newSegs new.scores st'.scores.segs ++ (newSegs new.index st'.index.segs ++
        insert now sch new st' (e.drop 100000))
  else
    match Lists.build now ((new.mergeSize + new.splitSize) / 2) new.mergeSize new.splitSize (Elements.sortSlice e) with
    | none => []
    | some st' => newSegs new.scores st'.scores.segs ++ (newSegs new.index st'.index.segs ++ saveSegments new st')

/-- list.go:886-974 `populate` of a list that has content, which deletes it first. `new` has the names of the new
segments, and the sizes of the list. -/
def populate (now : Nat) (sch shuffle : Sched) (reduce : Nat → Nat) (ent new : Entry) (st : ListState)
    (e : List Element) : List Write :=
  deleteSegs sch ent.scores st.scores.segs ++ (deleteSegs sch ent.index st.index.segs ++
    populateNew now sch shuffle reduce new e)

/-- list.go:1789-1844: the writes of `Repair` of a list all of whose segments can be read. -/
def repairWrites (now : Nat) (sch shuffle : Sched) (reduce : Nat → Nat) (ent new : Entry) (st : ListState) : List Write :=
  populate now sch shuffle reduce ent new st
    (Elements.deduplicate (st.scores.segs.flatMap fun s => (Elements.deduplicate s.elems).1)).1

/-- list.go:2105-2182 and list.go:2204-2279: the writes of the loops of `split`, and whether anything was changed.
The arguments are those of `Segments.splitLoop`. The score loop saves the shortened segment before the new one
(list.go:2164-2171), the index loop after it (list.go:2261-2268). -/
def splitLoop (p : Str) (now splitSize mergeSize : Nat) (merge isIndex : Bool) (skipUnsplit : Nat) :
    Nat → Nat → List Seg → List Seg → List Write × Bool
  | _, _, _, [] => ([], false)
  | nextID, skip + 1, done, s :: ss =>
    splitLoop p now splitSize mergeSize merge isIndex skipUnsplit nextID skip (s :: done) ss
  | nextID, 0, done, s :: ss =>
    if s.n < splitSize then
      match merge, done with
      | true, q :: done' =>
        if s.n + q.n > mergeSize then
          splitLoop p now splitSize mergeSize merge isIndex skipUnsplit nextID 0 (s :: done) ss
        else
          let m := Segments.mergeWithNext now q s
          let r := splitLoop p now splitSize mergeSize merge isIndex skipUnsplit nextID 2 (m.1 :: done') ss
          ([.elems p m.1.id m.1.elems, .delElems p s.id] ++ r.1, true)
      | _, _ => splitLoop p now splitSize mergeSize merge isIndex skipUnsplit nextID 0 (s :: done) ss
    else
      match Segments.splitIdx now isIndex nextID s with
      | none =>
        let r := splitLoop p now splitSize mergeSize merge isIndex skipUnsplit nextID skipUnsplit
          ({ s with n := s.elems.length } :: done) ss
        (r.1, r.2 || isIndex)
      | some (s1, s2, _) =>
        let r := splitLoop p now splitSize mergeSize merge isIndex skipUnsplit (nextID + 1) 0 (s2 :: s1 :: done) ss
        ((if isIndex then [.elems p s2.id s2.elems, .elems p s1.id s1.elems]
          else [.elems p s1.id s1.elems, .elems p s2.id s2.elems]) ++ r.1, true)

/-- segments.go:1128-1180 `updateIndexElements`. -/
def updateIndexElements (now : Nat) (sch : Sched) (p : Str) (segs : List Seg) (upds : List Segments.IndexUpdate) :
    List Write :=
  if upds.isEmpty then []
  else sch.order (replaceAt p (((Segments.splitIndexUpdates segs upds).filter fun m => !m.2.isEmpty).map (·.1))
    (Segments.updateIndexElements now segs upds))

/-- list.go:2105-2182: the writes of `split` to the score segments. -/
def splitScores (now : Nat) (merge : Bool) (ent : Entry) (st : ListState) : List Write × Bool :=
  splitLoop ent.scores now st.splitSize st.mergeSize merge false 0 st.scores.nextID 0 [] st.scores.segs

/-- list.go:2183-2279: the writes of `split` to the index segments. -/
def splitIndex (now : Nat) (merge : Bool) (sch : Sched) (ent : Entry) (st : ListState) : List Write × Bool :=
  let upds := (Segments.splitLoop now st.splitSize st.mergeSize merge false 0 st.scores.nextID 0 [] st.scores.segs).2.2
  let r := splitLoop ent.index now st.splitSize st.mergeSize true true 1 st.index.nextID 0 []
    (Segments.updateIndexElements now st.index.segs upds)
  (updateIndexElements now sch ent.index st.index.segs upds ++ r.1, r.2)

/-- list.go:2069-2288 `split`. -/
def split (now : Nat) (merge : Bool) (sch : Sched) (ent : Entry) (st : ListState) : List Write :=
  (splitScores now merge ent st).1 ++ ((splitIndex now merge sch ent st).1 ++
    if (splitScores now merge ent st).2 || (splitIndex now merge sch ent st).2 then
      saveSegments ent (Lists.split now merge st) else [])

end RankDB.Disk

import Verif.Model.Segments
/-
Model of list.go: a list is kept twice, as score segments ranked by score and as index segments
ranked by element ID. An index element has the element ID as its score and the ID of the score
segment as its tie-breaker.

Locks, storage and errors of the storage are left out here (see the crash and lock models).
-/
namespace RankDB

/-- list.go:30-54 `type List`: what determines the observable content. -/
structure ListState where
  scores : Segs
  index : Segs
  mergeSize : Nat
  splitSize : Nat
deriving DecidableEq, Repr, Inhabited

/-- The elements of the list in the order they are stored. -/
def ListState.content (st : ListState) : List Element := allElems st.scores.segs

namespace Lists

/-- list.go:94-103 `MergeSplitSize` with list.go:70-77 `defaultListOptions`: `none` is the error. -/
def mergeSplitSize (merge split : Nat) : Option (Nat × Nat) :=
  if merge ≥ split then none else some (merge, split)

/-- list.go:209-235 `initEmptyList`. -/
def initEmpty (now merge split : Nat) : ListState :=
  { scores := Segments.empty now false, index := Segments.empty now true
    mergeSize := merge, splitSize := split }

/-- list.go:925 and others: the size of new segments. -/
def wantSize (st : ListState) : Nat := (st.mergeSize + st.splitSize) / 2

/-- list.go:1576-1579: the number of elements that are inserted at once. -/
def insertLimit (st : ListState) : Nat := min ((st.splitSize / 4) * st.index.segs.length) 100000

/-- list.go:1580-1595: the input in pieces of at most `limit` elements. `none` stands for the loop that
does not end if the limit is zero. `fuel` is at least the length of the input. -/
def chunks (limit : Nat) : Nat → List Element → Option (List (List Element))
  | 0, e => if e.length > limit then none else some [e]
  | fuel + 1, e =>
    if e.length > limit then (chunks limit fuel (e.drop limit)).map (e.take limit :: ·)
    else some [e]

/-- list.go:1596-1617: insertion of one piece. The check list.go:1604 never fails because
the index has one element for every element inserted. -/
def insertChunk (now : Nat) (sch : Sched) (st : ListState) (e : List Element) : ListState :=
  let r := Segments.insert now sch st.scores.segs (Elements.sortSlice e)
  let i := Segments.insert now sch st.index.segs (Elements.sortSlice r.2)
  { st with scores := { st.scores with segs := r.1 }, index := { st.index with segs := i.1 } }

/-- list.go:1568-1618 `insert`, list.go:1548-1561 `Insert`; `none` if it does not return. -/
def insert (now : Nat) (sch : Sched) (st : ListState) (e : List Element) : Option ListState :=
  (chunks (insertLimit st) e.length e).map fun cs => cs.foldl (insertChunk now sch) st

/-- list.go:935-957 in `populate`: new segments from sorted elements. `none` is the division by zero
in `SplitSize`. -/
def build (now want merge split : Nat) (e : List Element) : Option ListState :=
  match Elements.splitSize e want with
  | none => none
  | some pieces =>
    let scores := Segments.newSegmentsElements now pieces false
    match Elements.splitSize (Elements.sortSlice scores.2) want with
    | none => none
    | some idx =>
      some { scores := scores.1, index := (Segments.newSegmentsElements now idx true).1
             mergeSize := merge, splitSize := split }

/-- list.go:886-974 `populate` and list.go:869-881 `Populate`. `shuffle` stands for the
pseudo-random permutation at list.go:914-918 and `reduce` for the floating point computation of a
smaller segment size at list.go:926-933. -/
def populate (now : Nat) (sch shuffle : Sched) (reduce : Nat → Nat) (merge split : Nat)
    (e : List Element) : Option ListState :=
  if e.isEmpty then some (initEmpty now merge split)
  else if e.length > 100000 && !(Elements.isSorted e) then
    let e := shuffle.order e
    match build now (reduce ((merge + split) / 2)) merge split (Elements.sortSlice (e.take 100000)) with
    | none => none
    | some st => insert now sch st (e.drop 100000)
  else build now ((merge + split) / 2) merge split (Elements.sortSlice e)

/-- list.go:146-197 `NewList` with the option `Populate`. -/
def newPopulated (now : Nat) (sch shuffle : Sched) (reduce : Nat → Nat) (merge split : Nat)
    (e : List Element) : Option ListState :=
  populate now sch shuffle reduce merge split (Elements.updateTime now e)

/-- list.go:1170-1207 `getIndexElements`. -/
def getIndexElements (sch : Sched) (st : ListState) (ids : List Nat) : List Element :=
  (Segments.getFirstWithScore sch st.index.segs (uniq ids)).filter fun e => (uniq ids).contains e.score

/-- list.go:1226-1240 `getElements`, list.go:1212-1221 `GetElements`. -/
def getElements (sch : Sched) (st : ListState) (ids : List Nat) (radius : Nat) : List Segments.Ranked :=
  let e := getIndexElements sch st ids
  if e.isEmpty then [] else Segments.findElements sch st.scores.segs e radius

/-- list.go:1501-1543 `DeleteElements`. -/
def deleteElements (now : Nat) (sch : Sched) (st : ListState) (ids : List Nat) : ListState :=
  let e := getIndexElements sch st ids
  let r := Segments.deleteElementsIdx now sch st.scores.segs e
  let st := { st with scores := { st.scores with segs := r.1 } }
  if r.2.isEmpty then st
  else { st with index := { st.index with segs := Segments.deleteElements now st.index.segs r.2 } }

/-- list.go:1337-1390: for every requested ID, the position of its index segment (`elementsIdx`)
and its index element before the update (`existingIdx`). -/
def locate (index : List Seg) (ids : List Nat) : List (Nat × Nat × Option Element) :=
  (Segments.splitScores index ids).flatMap fun m =>
    m.2.map fun id =>
      (id, m.1, Elements.find (Elements.firstWithScore (Segments.elemsAt index m.1) m.2) id)

/-- `elementsIdx[id]` and `existingIdx[id]` (list.go:1409, 1419). -/
def located (loc : List (Nat × Nat × Option Element)) (id : Nat) : Nat × Option Element :=
  match loc.find? (·.1 == id) with
  | some r => r.2
  | none => (0, none)

/-- Replace the elements of the segment at position `i`. -/
def onElems (f : List Element → List Element) (i : Nat) (segs : List Seg) : List Seg :=
  modifyAt (fun s => { s with elems := f s.elems }) i segs

/-- list.go:1412, 1419, 1437 `elements.Add`. -/
def addTo (now : Nat) (e : Element) (l : List Element) : List Element := (Elements.add now l e).1

/-- list.go:1429, 1444 `elements.Update`; an error leaves the slice as it is. -/
def updateIn (now : Nat) (e : Element) (l : List Element) : List Element :=
  match Elements.update now l e with
  | some r => r.1
  | none => l

/-- list.go:1456 `elements.Delete`; an error leaves the slice as it is. -/
def deleteIn (id : Nat) (l : List Element) : List Element := (Elements.delete l id).getD l

/-- list.go:1406-1461: one element whose destination is the score segment at position `sidx`.
`org` are the score segments before the call, for the IDs and the lookup of positions. -/
def updateOne (now : Nat) (org : List Seg) (loc : List (Nat × Nat × Option Element)) (sidx : Nat)
    (st : List Seg × List Seg) (e : Element) : List Seg × List Seg :=
  let dstID := ((org[sidx]?).map (·.id)).getD 0
  match located loc e.id with
  | (iidx, none) =>
    (onElems (addTo now e) sidx st.1, onElems (addTo now (e.asIndex dstID)) iidx st.2)
  | (iidx, some ex) =>
    if ex.tie == dstID % 2 ^ 32 then (onElems (updateIn now e) sidx st.1, st.2)
    else
      let scores := onElems (addTo now e) sidx st.1
      match Elements.update now (Segments.elemsAt st.2 iidx) (e.asIndex dstID) with
      | none => (scores, st.2)
      | some _ =>
        (onElems (deleteIn e.id) (Segments.segIndex ex.tie org 0 0) scores,
          onElems (updateIn now (e.asIndex dstID)) iidx st.2)

/-- list.go:1398-1462: all elements, in the order in which the map is iterated. -/
def updateAll (now : Nat) (org : List Seg) (loc : List (Nat × Nat × Option Element))
    (dst : List (Nat × List Element)) (st : List Seg × List Seg) : List Seg × List Seg :=
  dst.foldl (fun st d => d.2.foldl (updateOne now org loc d.1) st) st

/-- list.go:1464-1476: count and time of every segment that was loaded are set. -/
def refresh (now : Nat) (loaded : List Nat) (segs : List Seg) : List Seg :=
  mapFrom (fun i s => if loaded.contains i then Segment.replace now s s.elems else s) 0 segs

/-- The IDs of a call of `UpdateElements` (list.go:1248-1250). -/
def updateIDs (elems : List Element) : List Nat := ElementIDs.sort (Elements.ids (Elements.sortSlice elems))

/-- `segmentScores` (list.go:1275): the positions of the score segments that `UpdateElements` loads. -/
def loadedScores (st : ListState) (elems : List Element) : List Nat :=
  (Segments.splitElementsIdx 0 st.scores.segs (Elements.sortSlice elems)).map (·.1) ++
    (locate st.index.segs (updateIDs elems)).filterMap fun l =>
      l.2.2.map fun ex => Segments.segIndex ex.tie st.scores.segs 0 0

/-- `segmentsIdx` (list.go:1269): the positions of the index segments that `UpdateElements` loads. -/
def loadedIndex (st : ListState) (elems : List Element) : List Nat :=
  (Segments.splitScores st.index.segs (updateIDs elems)).map (·.1)

/-- list.go:1246-1497 `UpdateElements`, the new state. `sch` decides the iteration order of the map. -/
def updateElements (now : Nat) (sch : Sched) (st : ListState) (elems : List Element) : ListState :=
  let loc := locate st.index.segs (updateIDs elems)
  let dst := Segments.splitElementsIdx 0 st.scores.segs (Elements.sortSlice elems)
  let r := updateAll now st.scores.segs loc (sch.order dst) (st.scores.segs, st.index.segs)
  { st with
    scores := { st.scores with segs := refresh now (loadedScores st elems) r.1 }
    index := { st.index with segs := refresh now (loadedIndex st elems) r.2 } }

/-- list.go:1377-1387: the rank that is recorded before the update: `findRanked` with offset 0. -/
def oldRank (st : ListState) (ids : List Nat) (id : Nat) : Option (Element × Nat × Nat) :=
  match (located (locate st.index.segs ids) id).2 with
  | none => none
  | some ex =>
    (Segments.findRanked st.scores.segs (Segments.segIndex ex.tie st.scores.segs 0 0) id 0 0).map
      fun r => (r.elem, r.fromTop, r.fromBottom)

/-- list.go:1481-1493: the results of `UpdateElements`. -/
def updateResults (now : Nat) (sch : Sched) (st : ListState) (elems : List Element) (radius : Nat) :
    List Segments.Ranked :=
  let ids := ElementIDs.sort (Elements.ids (Elements.sortSlice elems))
  (getElements sch (updateElements now sch st elems) ids radius).map fun r =>
    match oldRank st ids r.elem.id with
    | some b => { r with before := some b }
    | none => r

/-- list.go:2069-2288 `split`; `ForceSplit` (list.go:2009) has `merge = true`. -/
def split (now : Nat) (merge : Bool) (st : ListState) : ListState :=
  let r := Segments.splitLoop now st.splitSize st.mergeSize merge false 0 st.scores.nextID 0 [] st.scores.segs
  let index := Segments.updateIndexElements now st.index.segs r.2.2
  let i := Segments.splitLoop now st.splitSize st.mergeSize true true 1 st.index.nextID 0 [] index
  { st with
    scores := { st.scores with segs := r.1, nextID := r.2.1 }
    index := { st.index with segs := i.1, nextID := i.2.1 } }

/-- list.go:733-781 `reindex`, list.go:722-730 `Reindex`. `none` is the division by zero. -/
def reindex (now : Nat) (sch : Sched) (st : ListState) : Option ListState :=
  (Elements.splitSize (Segments.elementIndexAll sch st.scores.segs) (wantSize st)).map fun p =>
    { st with index := (Segments.newSegmentsElements now p true).1 }

/-- list.go:514-541: copies of the segments with new IDs and the index elements. -/
def cloneSegs (now : Nat) : Nat → List Seg → List Seg × List Element × Nat
  | nextID, [] => ([], [], nextID)
  | nextID, s :: ss =>
    let r := cloneSegs now (nextID + 1) ss
    ({ s with id := nextID, n := s.elems.length, updated := now } :: r.1,
      Elements.elementIDs s.elems nextID ++ r.2.1, r.2.2)

/-- list.go:490-555 `cloneElements` of `org` into a list with its own sizes. `none` is the division by
zero. -/
def clone (now merge split : Nat) (org : ListState) : Option ListState :=
  let r := cloneSegs now 1 org.scores.segs
  (Elements.splitSize (Elements.sortSlice r.2.1) ((merge + split) / 2)).map fun p =>
    { scores := { segs := r.1, nextID := r.2.2, isIndex := false }
      index := (Segments.newSegmentsElements now p true).1
      mergeSize := merge, splitSize := split }

/-- list.go:1789-1844 `Repair` of score segments that can be loaded. `lost` marks the segments whose
elements cannot be loaded; they are skipped. -/
def repair (now : Nat) (sch shuffle : Sched) (reduce : Nat → Nat) (lost : Seg → Bool)
    (st : ListState) : Option ListState :=
  let all := (st.scores.segs.filter fun s => !(lost s)).flatMap fun s => (Elements.deduplicate s.elems).1
  populate now sch shuffle reduce st.mergeSize st.splitSize (Elements.deduplicate all).1

/-- list.go:977-996 `Len`. -/
def len (st : ListState) : Nat := Segments.count st.scores.segs

/-- list.go:1648-1659 `getRankTop`; `none` is `ErrOffsetOutOfBounds`. -/
def getRankTop (st : ListState) (offset n : Nat) : Option (List Element) :=
  (Segments.segIdxTop st.scores.segs 0 offset).map fun p =>
    Segments.getElementsOffset (st.scores.segs.drop p.1) p.2 n

/-- list.go:1681-1691 `getRankBottom`; `none` is `ErrOffsetOutOfBounds`. -/
def getRankBottom (st : ListState) (offset n : Nat) : Option (List Element) :=
  (Segments.segIdxBottom st.scores.segs offset).map fun p =>
    Segments.getElementsOffset (st.scores.segs.drop p.1) p.2 n

/-- elements.go:110-118 `Elements.Ranked` followed by rankedelement.go:67-72 and 75-81, as
list.go:1718-1719 does: `first` is the position in the segment, `above` the number of elements above
the segment. -/
def rankFrom (total above : Nat) : Nat → List Element → List (Element × Int × Int)
  | _, [] => []
  | first, e :: l =>
    (e, (first : Int) + above, ((total : Int) - first - 1) - above) :: rankFrom total above (first + 1) l

/-- list.go:1697-1721 `GetRankScoreDesc`: elements with rank from top and from bottom. `none` is
`ErrOffsetOutOfBounds` or a panic. -/
def getRankScoreDesc (st : ListState) (score n : Nat) : Option (List (Element × Int × Int)) :=
  match Segments.segIdxScore score st.scores.segs 0 0 with
  | none => none
  | some (i, above) =>
    (Segments.getElementsFromScore st.scores.segs score i n).map fun r =>
      rankFrom (Segments.count st.scores.segs) above r.2 r.1

/-- list.go:1753-1770: the segment for an offset: the one before the first that starts after it, else
the last. `k` is the position of the first offset. -/
def percentileSeg (want : Nat) : List Nat → Nat → Nat
  | [], k => k - 1
  | o :: os, k => if want < o then k - 1 else percentileSeg want os (k + 1)

/-- list.go:1748-1770 in `GetPercentile` for the offset `want`. Outer `none` is a panic. -/
def getAtOffset (st : ListState) (want radius : Nat) : Option (Option Segments.Ranked) :=
  let offs := Segments.topOffsets st.scores.segs 0
  let i := percentileSeg want offs 0
  (Segments.getElementIndex st.scores.segs i (want - offs.getD i 0) (offs.getD i 0) radius).map
    fun r => r.map (Segments.calculateFromBottom (Segments.count st.scores.segs))

/-- list.go:998-1007 `ListStats` and list.go:1011-1053 `Stats`: number of elements, number of segments, and
top and bottom element with `FromTop` and `FromBottom`. Cache counters are not modelled. -/
structure Stats where
  elements : Nat
  segments : Nat
  top : Option (Element × Nat × Int)
  bottom : Option (Element × Int × Nat)
deriving DecidableEq, Repr

/-- list.go:1011-1053 `Stats` with `elements` set. -/
def stats (st : ListState) : Stats :=
  let n := Segments.count st.scores.segs
  { elements := n
    segments := st.scores.segs.length
    top := (((getRankTop st 0 1).getD []).head?).map fun e => (e, 0, (n : Int) - 0 - 1)
    bottom := (((getRankBottom st 0 1).getD []).head?).map fun e => (e, (n : Int) - 1, 0) }

/-- list.go:1744-1747 in `GetPercentile`: the offset for the percentile `m / 2 ^ e` (every float64 in
[0, 1] has this form with `m < 2 ^ 53`). `big.Float` computes the product with 64 bit precision, rounding
to nearest even; `Int64` truncates. -/
def percentileOffset (total m e : Nat) : Nat :=
  let a := total * m
  let sh := (Nat.log2 a + 1) - 64
  let q := a / 2 ^ sh
  let r := a % 2 ^ sh
  let q' := if 2 ^ sh < 2 * r ∨ (2 ^ sh = 2 * r ∧ q % 2 = 1) then q + 1 else q
  q' * 2 ^ sh / 2 ^ e

/-- list.go:1730-1771 `GetPercentile` for the percentile `m / 2 ^ e`; list.go:1731-1736 clamp it to
[0, 1]. Outer `none` is a panic. NaN, for which `big.NewFloat` panics, is not represented. -/
def getPercentile (st : ListState) (m e radius : Nat) : Option (Option Segments.Ranked) :=
  getAtOffset st (percentileOffset (Segments.count st.scores.segs) (if m > 2 ^ e then 2 ^ e else m) e) radius

/-- list.go:577-670 `verify`: the checks on the segments. The comparison of stored IDs is not
modelled. -/
def verify (st : ListState) : Bool :=
  !st.scores.isIndex && st.index.isIndex && decide (st.mergeSize ≤ st.splitSize) &&
  Segments.verify st.scores && Segments.verify st.index

/-- list.go:705-717: the two maps from element IDs to segments are equal. -/
def sameMap (a b : List (Nat × Nat)) : Bool :=
  a.all (fun p => b.contains p) && b.all (fun p => (a.map (·.1)).contains p.1)

/-- list.go:688-719 `verifyElements`. -/
def verifyElements (st : ListState) : Bool :=
  Segments.verifyElements st.scores && Segments.verifyElements st.index &&
  sameMap (Segments.idSegs false st.scores.segs) (Segments.idSegs true st.index.segs)

end Lists
end RankDB

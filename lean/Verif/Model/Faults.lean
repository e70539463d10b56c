import Verif.Model.Disk
/-
Model of `UpdateElements`, `DeleteElements` and `Insert` of a list when reads and writes of the storage fail, or
when the request is cancelled (its context ends, for instance because the client has gone away).

The tables of the list are in memory and there is no cache (the default), so the list as later calls see it has
the tables as the call left them and the elements that are stored: a segment that could not be saved has the new
count, segments.go:279-284, but the elements from before. See `Props/Cache` for lists with a cache.

`waitErr` (tools.go:73-108) waits for all goroutines, so all segments that can be changed are changed, and then
reports an error if one of them failed or if the context was cancelled; see `Props/FanOut`.
-/
namespace RankDB.Faults

/-- What fails during one call. Segments are named by their position, attempts to read and the calls of `waitErr`
are counted from 0. -/
structure Faults where
  /-- A segment of the index cannot be read at this attempt. -/
  readIndex : Nat → Nat → Bool
  /-- A segment of the scores cannot be read at this attempt. -/
  readScores : Nat → Nat → Bool
  /-- The elements of a segment of the index cannot be saved. -/
  saveIndex : Nat → Bool
  /-- The elements of a segment of the scores cannot be saved. -/
  saveScores : Nat → Bool
  /-- The context is cancelled when `waitErr` looks at it. -/
  cancelled : Nat → Bool
  /-- The end of the call fails: results cannot be read or the tables cannot be saved. -/
  late : Bool

/-- Nothing fails. -/
def noFaults : Faults := ⟨fun _ _ => false, fun _ _ => false, fun _ => false, fun _ => false, fun _ => false, false⟩

/-- The segments after goroutines have replaced them: those that could not be read are as before, those that could
not be saved have only the new table entry, segments.go:270-298. -/
def settle (unread unsaved : Nat → Bool) (old new : List Seg) : List Seg :=
  mapFrom (fun i s =>
    if unread i then (old[i]?).getD s
    else if unsaved i then { s with elems := Segments.elemsAt old i } else s) 0 new

/-! ### UpdateElements -/

/-- The elements in memory during an update, `segmentScores` (list.go:1275) and the number of attempts to read so
far. -/
structure Work where
  scores : List Seg
  index : List Seg
  loaded : List Nat
  tries : Nat

/-- list.go:1289-1322 `segmentScoresLoad`: the segment is there if it was read before or can be read now. -/
def load (f : Faults) (i : Nat) (w : Work) : Bool × Work :=
  if w.loaded.contains i then (true, w)
  else if f.readScores i w.tries then (false, { w with tries := w.tries + 1 })
  else (true, { w with loaded := i :: w.loaded, tries := w.tries + 1 })

/-- list.go:1370-1376: the goroutines read the score segments in which the elements are; failures are ignored. -/
def loadExisting (f : Faults) (org : List Seg) : List (Nat × Nat × Option Element) → Work → Work
  | [], w => w
  | (_, _, none) :: loc, w => loadExisting f org loc w
  | (_, _, some ex) :: loc, w => loadExisting f org loc (load f (Segments.segIndex ex.tie org 0 0) w).2

/-- list.go:1406-1461: one element whose destination, at position `sidx`, was read. If the segment from which it
must be removed cannot be read, it stays there (list.go:1453-1459). -/
def updateOne (f : Faults) (now : Nat) (org : List Seg) (loc : List (Nat × Nat × Option Element)) (sidx : Nat)
    (w : Work) (e : Element) : Work :=
  let dstID := ((org[sidx]?).map (·.id)).getD 0
  match Lists.located loc e.id with
  | (iidx, none) =>
    { w with
      scores := Lists.onElems (Lists.addTo now e) sidx w.scores
      index := Lists.onElems (Lists.addTo now (e.asIndex dstID)) iidx w.index }
  | (iidx, some ex) =>
    if ex.tie == dstID % 2 ^ 32 then { w with scores := Lists.onElems (Lists.updateIn now e) sidx w.scores }
    else
      let w := { w with scores := Lists.onElems (Lists.addTo now e) sidx w.scores }
      match Elements.update now (Segments.elemsAt w.index iidx) (e.asIndex dstID) with
      | none => w
      | some _ =>
        let w := { w with index := Lists.onElems (Lists.updateIn now (e.asIndex dstID)) iidx w.index }
        let r := load f (Segments.segIndex ex.tie org 0 0) w
        if r.1 then
          { r.2 with scores := Lists.onElems (Lists.deleteIn e.id) (Segments.segIndex ex.tie org 0 0) r.2.scores }
        else r.2

/-- list.go:1398-1404: the elements for one segment; they are skipped if it cannot be read. -/
def updateSegment (f : Faults) (now : Nat) (org : List Seg) (loc : List (Nat × Nat × Option Element)) (w : Work)
    (d : Nat × List Element) : Work :=
  let r := load f d.1 w
  if r.1 then d.2.foldl (updateOne f now org loc d.1) r.2 else r.2

/-- list.go:1246-1497 `UpdateElements`: whether it reports success, and the list. -/
def update (f : Faults) (now : Nat) (sch : Sched) (st : ListState) (elems : List Element) : Bool × ListState :=
  if (Lists.loadedIndex st elems).any (fun i => f.readIndex i 0) || f.cancelled 0 then (false, st)
  else
    let loc := Lists.locate st.index.segs (Lists.updateIDs elems)
    let dst := Segments.splitElementsIdx 0 st.scores.segs (Elements.sortSlice elems)
    let w := (sch.order dst).foldl (updateSegment f now st.scores.segs loc)
      (loadExisting f st.scores.segs loc ⟨st.scores.segs, st.index.segs, [], 0⟩)
    let scores := settle (fun _ => false) f.saveScores st.scores.segs (Lists.refresh now w.loaded w.scores)
    let index := settle (fun _ => false) f.saveIndex st.index.segs
      (Lists.refresh now (Lists.loadedIndex st elems) w.index)
    (!f.late, { st with scores := { st.scores with segs := scores }, index := { st.index with segs := index } })

/-! ### DeleteElements -/

/-- list.go:1501-1543 `DeleteElements`: errors of `replaceSegment` are reported for the scores (segments.go:372-376)
and ignored for the index (segments.go:447). -/
def delete (f : Faults) (now : Nat) (sch : Sched) (st : ListState) (ids : List Nat) : Bool × ListState :=
  if ((Segments.splitScores st.index.segs (uniq ids)).map (·.1)).any (fun i => f.readIndex i 0) || f.cancelled 0 then
    (false, st)
  else
    let e := Lists.getIndexElements sch st ids
    let r := Segments.deleteElementsIdx now sch st.scores.segs e
    let scores := settle (fun i => f.readScores i 0) f.saveScores st.scores.segs r.1
    let st1 := { st with scores := { st.scores with segs := scores } }
    if (Disk.touchedIdx st.scores.segs e).any (fun i => f.readScores i 0 || f.saveScores i) || f.cancelled 1 then
      (false, st1)
    else if r.2.isEmpty then (!f.late, st1)
    else
      let index := settle (fun i => f.readIndex i 1) f.saveIndex st.index.segs
        (Segments.deleteElements now st.index.segs r.2)
      let st2 := { st1 with index := { st.index with segs := index } }
      if (Disk.touched 0 st.index.segs r.2).any (fun i => f.readIndex i 1) || f.cancelled 2 then (false, st2)
      else (!f.late, st2)

/-! ### Insert -/

/-- list.go:1596-1617 and segments.go:471-571: one piece of an insertion. -/
def insertChunk (f : Faults) (now : Nat) (sch : Sched) (st : ListState) (e : List Element) : Bool × ListState :=
  let r := Segments.insert now sch st.scores.segs (Elements.sortSlice e)
  let scores := settle (fun i => f.readScores i 0) f.saveScores st.scores.segs r.1
  let st1 := { st with scores := { st.scores with segs := scores } }
  if (Disk.touched 0 st.scores.segs (Elements.sortSlice (Elements.sortSlice e))).any
      (fun i => f.readScores i 0 || f.saveScores i) || f.cancelled 0 then (false, st1)
  else
    let i := Segments.insert now sch st.index.segs (Elements.sortSlice r.2)
    let index := settle (fun i => f.readIndex i 0) f.saveIndex st.index.segs i.1
    let st2 := { st1 with index := { st.index with segs := index } }
    if (Disk.touched 0 st.index.segs (Elements.sortSlice (Elements.sortSlice r.2))).any
        (fun i => f.readIndex i 0 || f.saveIndex i) || f.cancelled 1 then (false, st2)
    else (true, st2)

/-- list.go:1580-1617: the pieces one after the other, until one fails. `fs k` is what fails during piece `k`. -/
def insertChunks (fs : Nat → Faults) (now : Nat) (sch : Sched) : Nat → ListState → List (List Element) → Bool × ListState
  | k, st, [] => (!(fs k).late, st)
  | k, st, c :: cs =>
    let r := insertChunk (fs k) now sch st c
    if r.1 then insertChunks fs now sch (k + 1) r.2 cs else r

/-- list.go:1548-1618 `Insert`; `none` if it does not return. -/
def insert (fs : Nat → Faults) (now : Nat) (sch : Sched) (st : ListState) (e : List Element) :
    Option (Bool × ListState) :=
  (Lists.chunks (Lists.insertLimit st) e.length e).map (insertChunks fs now sch 0 st)

end RankDB.Faults

import Verif.Model.Element
/-
Model of segment.go and segments.go: a sorted list cut into segments.

A segment is bundled with the elements that Go keeps in a separate blob (`lockedSegment.elements`).
Loading, saving and caching of elements is not part of this file (see Model/Store and the crash
model); here every load returns what was last saved. `Segment.Parent` and the random
`Segments.ID` only matter for storage keys and are left out. `now` is the value of the clock.
-/
namespace RankDB

/-- A choice of one ordering for the results of goroutines that send to a channel, or for the
iteration over a Go map. Theorems hold for every such choice. -/
structure Sched where
  order : {α : Type} → List α → List α
  perm : ∀ {α : Type} (l : List α), (order l).Perm l

/-- The order in which the goroutines were started. -/
def Sched.inOrder : Sched := ⟨fun l => l, fun l => .refl l⟩
/-- The reverse order, as an example of another schedule. -/
def Sched.reversed : Sched := ⟨fun l => l.reverse, fun l => l.reverse_perm⟩

/-- segment.go:31-40 `type Segment` together with its elements (segments.go:261-267). -/
structure Seg where
  id : Nat
  min : Nat
  max : Nat
  minTie : Nat
  maxTie : Nat
  n : Nat
  updated : Nat
  elems : List Element
deriving DecidableEq, Repr, Inhabited

/-- segments.go:26-48 `type Segments`. The lookup table `idx` from segment IDs to positions is
represented by the function `segIndex`. -/
structure Segs where
  segs : List Seg
  nextID : Nat
  isIndex : Bool
deriving DecidableEq, Repr, Inhabited

/-- All elements, segment by segment. -/
def allElems (segs : List Seg) : List Element := segs.flatMap (·.elems)

/-- `f i s` applied to the segment `s` at every position `i`, counting from `k`. -/
def mapFrom (f : Nat → Seg → Seg) : Nat → List Seg → List Seg
  | _, [] => []
  | k, s :: ss => f k s :: mapFrom f (k + 1) ss

/-- Change of the segment at position `i`; nothing happens outside of the range. -/
def modifyAt (f : Seg → Seg) : Nat → List Seg → List Seg
  | _, [] => []
  | 0, s :: ss => f s :: ss
  | i + 1, s :: ss => s :: modifyAt f i ss

namespace Segment

/-- segments.go:270-298 `Segments.replaceSegment` and segment.go:166-169 `Segment.elementsUpdated`:
the elements of a segment are replaced, count and time are set. -/
def replace (now : Nat) (s : Seg) (elems : List Element) : Seg :=
  { s with elems := elems, n := elems.length, updated := now }

/-- segment.go:112-117, 124-129: position of the first element that is not above `b`. -/
def firstNotAbove (b : Element) : List Element → Option Nat
  | [] => none
  | e :: l => if !(e.above b) then some 0 else (firstNotAbove b l).map (· + 1)

/-- segment.go:108-131 `Segment.FilterIdx`. -/
def filterIdx (s : Seg) (l : List Element) : Nat × Nat :=
  match firstNotAbove { score := s.max, id := 0, tie := s.maxTie } l with
  | none => (0, 0)
  | some start =>
    match firstNotAbove { score := s.min, id := 0, tie := s.minTie, updated := maxU32 }
        (l.drop start) with
    | none => (start, l.length)
    | some i => (start, i + start)

/-- segment.go:91-94 `Segment.Filter`. -/
def filter (s : Seg) (l : List Element) : List Element :=
  (l.take (filterIdx s l).2).drop (filterIdx s l).1

end Segment

namespace Segments

/-- segments.go:86-113: the loop of `NewSegmentsElements`. Arguments: upper end for the next segment,
next segment ID, remaining pieces. A piece is the last one if nothing remains. The second result is
the list of index elements. -/
def build (now : Nat) : Nat × Nat → Nat → List (List Element) → List Seg × List Element × Nat
  | _, nextID, [] => ([], [], nextID)
  | next, nextID, [] :: rest => build now next nextID rest
  | next, nextID, (e :: p) :: rest =>
    let mm := Elements.minMax (e :: p)
    let last := (e :: p).getLast (by simp)
    let seg : Seg :=
      { id := nextID, max := next.1, maxTie := next.2
        min := if rest.isEmpty then 0 else mm.1
        minTie := if rest.isEmpty then 0 else mm.2.2.1
        n := (e :: p).length, updated := now, elems := e :: p }
    let r := build now (prevMax last.score last.tie) (nextID + 1) rest
    (seg :: r.1, Elements.elementIDs (e :: p) nextID ++ r.2.1, r.2.2)

/-- segment.go:53-55 `MaxSegment` after segments.go:302-317 `newLockedSegment`: an empty segment for
all scores. -/
def fullSegment (now id : Nat) : Seg :=
  { id := id, min := 0, max := maxU64, minTie := 0, maxTie := maxU32, n := 0, updated := now, elems := [] }

/-- segments.go:147-162 `AlignIndex` from a segment `prev` on. `prev.Min - 1` wraps in `uint64`. -/
def align : Seg → List Seg → List Seg
  | prev, [] => [prev]
  | prev, s :: ss =>
    { prev with minTie := 0 } ::
      align { s with maxTie := maxU32, max := (prev.min + 2 ^ 64 - 1) % 2 ^ 64 } ss

/-- segments.go:147-162 `AlignIndex`. -/
def alignIndex (isIndex : Bool) : List Seg → List Seg
  | [] => []
  | s :: ss => if isIndex then align s ss else s :: ss

/-- segments.go:70-128 `NewSegmentsElements`: the new segments and the index elements.
`isIndex` stands for `idx == nil`. -/
def newSegmentsElements (now : Nat) (pieces : List (List Element)) (isIndex : Bool) :
    Segs × List Element :=
  let r := build now (maxU64, maxU32) 1 pieces
  match r.1 with
  | [] => ({ segs := [fullSegment now r.2.2], nextID := r.2.2 + 1, isIndex := isIndex }, [])
  | s :: ss => ({ segs := alignIndex isIndex (s :: ss), nextID := r.2.2, isIndex := isIndex }, r.2.1)

/-- list.go:209-235 `initEmptyList` for one of the two segment lists. -/
def empty (now : Nat) (isIndex : Bool) : Segs :=
  { segs := [fullSegment now 1], nextID := 2, isIndex := isIndex }

/-- segments.go:132-141 `Elements`. -/
def count (segs : List Seg) : Nat := (segs.map (·.n)).sum

/-- segments.go:583-596 `reindex` followed by a lookup `s.idx[id]`: the last position with that ID, and
0 if there is none. `k` is the position of the first segment, `acc` the result so far. -/
def segIndex (id : Nat) : List Seg → Nat → Nat → Nat
  | [], _, acc => acc
  | s :: ss, k, acc => segIndex id ss (k + 1) (if s.id = id then k else acc)

/-- segments.go:488-548: the loop of `Insert`. `in` is the sorted rest of the input. The second result
is what the goroutines send to `idxC`. Segments are merged by the allocating path of
`Merge`; `Props.C03_merge_path_independent` shows that the other path gives the same. -/
def insertLoop (now : Nat) : List Seg → List Element → List Seg × List (List Element)
  | [], _ => ([], [])
  | s :: ss, inp =>
    let se := Segment.filterIdx s inp
    if se.1 = se.2 then
      let r := insertLoop now ss inp
      (s :: r.1, r.2)
    else
      let e := (inp.take se.2).drop se.1
      let r := insertLoop now ss (inp.drop se.2)
      (Segment.replace now s (Elements.merge 0 false s.elems e) :: r.1,
        Elements.elementIDs e s.id :: r.2)

/-- segments.go:471-571 `Insert` with `withIdx`: new segments and the index elements. The
call to `Sort` is represented by `sortSlice`; see `Props.C07_sort_correct`. -/
def insert (now : Nat) (sch : Sched) (segs : List Seg) (inp : List Element) : List Seg × List Element :=
  let r := insertLoop now segs (Elements.sortSlice inp)
  (r.1, Elements.sortSlice (sch.order r.2).flatten)

/-- segments.go:1298-1309 `splitElementsID`: the IDs that are looked up in the segment at position `i`. -/
def idsAt (segs : List Seg) (idx : List Element) (i : Nat) : List Nat :=
  (idx.filter fun e => segIndex e.tie segs 0 0 == i).map (·.id)

/-- segments.go:338-378: the segment at position `i` after `DeleteElementsIdx`. -/
def deleteIdxAt (now : Nat) (segs : List Seg) (idx : List Element) (i : Nat) (s : Seg) : Seg :=
  let del := idsAt segs idx i
  if del.isEmpty then s else Segment.replace now s (s.elems.filter fun e => !(del.contains e.id))

/-- segments.go:359-376: what the goroutine for the segment at position `k` sends; nothing for
segments that are not looked up. -/
def deletedLists (segs : List Seg) (idx : List Element) : Nat → List Seg → List (List Element)
  | _, [] => []
  | k, s :: ss =>
    let del := idsAt segs idx k
    let rest := deletedLists segs idx (k + 1) ss
    if del.isEmpty then rest
    else Elements.sortSlice ((s.elems.filter fun e => del.contains e.id).map (·.asIndex s.id)) :: rest

/-- segments.go:385-388: merge everything received from the channel. -/
def mergeAll (ls : List (List Element)) : List Element :=
  ls.foldl (fun acc l => Elements.merge 0 false acc l) []

/-- segments.go:322-390 `DeleteElementsIdx` with `withIdx`: new segments and index elements of
the deleted elements. -/
def deleteElementsIdx (now : Nat) (sch : Sched) (segs : List Seg) (idx : List Element) :
    List Seg × List Element :=
  (mapFrom (deleteIdxAt now segs idx) 0 segs, mergeAll (sch.order (deletedLists segs idx 0 segs)))

/-- segments.go:395-466 `DeleteElements` without `withIdx`. -/
def deleteElements (now : Nat) : List Seg → List Element → List Seg
  | [], _ => []
  | s :: ss, inp =>
    let se := Segment.filterIdx s inp
    if se.1 = se.2 then s :: deleteElements now ss inp
    else
      let e := (inp.take se.2).drop se.1
      Segment.replace now s (s.elems.filter fun x => !(e.any (·.id == x.id))) ::
        deleteElements now ss (inp.drop se.2)

/-- segments.go:601-613 `segIdxTop`; `none` is `(-1, -1)`. `k` is the position of the first segment. -/
def segIdxTop : List Seg → Nat → Nat → Option (Nat × Nat)
  | [], _, _ => none
  | s :: ss, k, offset =>
    if s.n > offset then some (k, offset) else segIdxTop ss (k + 1) (offset - s.n)

/-- segments.go:618-630 `segIdxBottom`, going through the reversed list of segments. `k` is the
position of the first segment in that list. -/
def segIdxBottomLoop : List Seg → Nat → Nat → Option (Nat × Nat)
  | [], _, _ => none
  | s :: ss, k, offset =>
    if s.n > offset then some (k, s.n - offset - 1) else segIdxBottomLoop ss (k - 1) (offset - s.n)

/-- segments.go:618-630 `segIdxBottom`; `none` is `(-1, -1)`. -/
def segIdxBottom (segs : List Seg) (offset : Nat) : Option (Nat × Nat) :=
  segIdxBottomLoop segs.reverse (segs.length - 1) offset

/-- segments.go:635-648 `segIdxScore`: position and number of elements above of the first segment
that contains the score. `k`, `above` are position and count at the first segment. -/
def segIdxScore (score : Nat) : List Seg → Nat → Nat → Option (Nat × Nat)
  | [], _, _ => none
  | s :: ss, k, above =>
    if score ≥ s.min ∧ score ≤ s.max then some (k, above) else segIdxScore score ss (k + 1) (above + s.n)

/-- segments.go:652-663 `topOffsets`, starting with count `n`. -/
def topOffsets : List Seg → Nat → List Nat
  | [], _ => []
  | s :: ss, n => n :: topOffsets ss (n + s.n)

/-- segments.go:666-726 `Verify` from the segment after `prev` on; `seen` are the IDs found. -/
def verifyFrom (isIndex : Bool) : Option Seg → List Nat → List Seg → Bool
  | _, _, [] => true
  | prev, seen, v :: rest =>
    decide (v.updated ≠ 0) && !(seen.contains v.id) &&
    (match prev with
      | none => decide (v.max = maxU64) && decide (v.maxTie = maxU32)
      | some p =>
        decide ((v.max, v.maxTie) = prevMax p.min p.minTie) &&
        (!isIndex || (decide (v.minTie = 0) && decide (v.maxTie = maxU32)))) &&
    (!rest.isEmpty || (decide (v.min = 0) && decide (v.minTie = 0))) &&
    verifyFrom isIndex (some v) (v.id :: seen) rest

/-- segments.go:666-726 `Verify`; true if no error is returned. -/
def verify (s : Segs) : Bool := !s.segs.isEmpty && verifyFrom s.isIndex none [] s.segs

/-- segments.go:753-773: the checks of `VerifyElements` on one segment. -/
def verifySeg (s : Seg) : Bool :=
  Elements.isSorted s.elems && decide (s.n = s.elems.length) &&
  decide ((Segment.filterIdx s s.elems).1 = 0) &&
  decide ((Segment.filterIdx s s.elems).2 = s.elems.length)

/-- segments.go:778-792: the map from element IDs to segment IDs, as the list of its insertions. -/
def idSegs (isIndex : Bool) (segs : List Seg) : List (Nat × Nat) :=
  segs.flatMap fun s => s.elems.map fun e => (e.id, if isIndex then e.tie else s.id)

/-- segments.go:731-800 `VerifyElements`: no segment fails, no ID occurs twice, all times are set.
The order of the goroutines decides which error is reported, not whether there is one. -/
def verifyElements (s : Segs) : Bool :=
  s.segs.all verifySeg &&
  decide ((idSegs s.isIndex s.segs).map (·.1)).Nodup &&
  (allElems s.segs).all fun e => decide (e.updated ≠ 0)

/-- segments.go:803-834 `ElementIndexAll`. -/
def elementIndexAll (sch : Sched) (segs : List Seg) : List Element :=
  Elements.sortSlice (sch.order (segs.map fun s => Elements.elementIDs s.elems s.id)).flatten

/-- rankedelement.go:13-34 `type RankedElement`. `before` has the element, `FromTop` and `FromBottom`; it
has no neighbours (list.go:1378). -/
structure Ranked where
  elem : Element
  fromTop : Nat
  fromBottom : Nat
  above : List Element
  below : List Element
  before : Option (Element × Nat × Nat) := none
deriving DecidableEq, Repr

/-- segments.go:1011-1025: the next element after `cur`, going on in the following segments while the
current one is exhausted. Used with reversed lists for segments.go:1035-1049. -/
def advance : List (List Element) → List Element → Option (Element × List Element × List (List Element))
  | segs, x :: cur => some (x, cur, segs)
  | s :: segs, [] => advance segs s
  | [], [] => none

/-- segments.go:1007-1028 (1031-1052 with reversed lists): up to `radius` elements. -/
def collect : Nat → List Element → List (List Element) → List Element
  | 0, _, _ => []
  | r + 1, cur, segs =>
    match advance segs cur with
    | none => []
    | some (x, cur, segs) => x :: collect r cur segs

/-- segments.go:987-1055 `findRanked` in the segment at position `i`. `none` is `ErrNotFound`.
`FromBottom` is not set here. -/
def findRanked (segs : List Seg) (i : Nat) (id offset radius : Nat) : Option Ranked :=
  match segs[i]? with
  | none => none
  | some s =>
    match Elements.findIdx s.elems id with
    | none => none
    | some eidx =>
      some
        { elem := s.elems.getD eidx default
          fromTop := offset + eidx
          fromBottom := 0
          below := collect radius (s.elems.drop (eidx + 1)) ((segs.drop (i + 1)).map (·.elems))
          above := collect radius (s.elems.take eidx).reverse
            ((segs.take i).reverse.map (·.elems.reverse)) }

/-- rankedelement.go:41-43 `CalculateFromBottom`. -/
def calculateFromBottom (total : Nat) (r : Ranked) : Ranked :=
  { r with fromBottom := total - r.fromTop - 1 }

/-- segments.go:933-952: what one goroutine of `FindElements` sends. -/
def findIn (segs : List Seg) (radius : Nat) (i : Nat) (ids : List Nat) : List Ranked :=
  ids.filterMap fun id =>
    (findRanked segs i id ((topOffsets segs 0).getD i 0) radius).map (calculateFromBottom (count segs))

/-- segments.go:918-964 `FindElements`. -/
def findElements (sch : Sched) (segs : List Seg) (idx : List Element) (radius : Nat) : List Ranked :=
  (sch.order ((List.range segs.length).filterMap fun i =>
    if (idsAt segs idx i).isEmpty then none else some (findIn segs radius i (idsAt segs idx i)))).flatten

/-- segments.go:968-983 `getElementIndex`. Outer `none` is a panic: no segment at that position, or
the segment is empty. -/
def getElementIndex (segs : List Seg) (i elementOff offset radius : Nat) : Option (Option Ranked) :=
  match segs[i]? with
  | none => none
  | some s =>
    match s.elems[min elementOff (s.elems.length - 1)]? with
    | none => none
    | some e => some (findRanked segs i e.id offset radius)

/-- segments.go:1090-1124 `getElementsOffset`, with the list of segments from `segIdx` on. -/
def getElementsOffset : List Seg → Nat → Nat → List Element
  | [], _, _ => []
  | s :: ss, first, n =>
    if n = 0 then []
    else if first ≥ s.elems.length then getElementsOffset ss (first - s.elems.length) n
    else if (s.elems.drop first).length > n then (s.elems.drop first).take n
    else s.elems.drop first ++ getElementsOffset ss 0 (n - (s.elems.drop first).length)

/-- segments.go:1069-1077: position of the first element with at most the score. -/
def firstAtMost (score : Nat) : List Element → Option Nat
  | [] => none
  | e :: l => if e.score ≤ score then some 0 else (firstAtMost score l).map (· + 1)

/-- segments.go:1061-1085 `getElementsFromScore`: the elements and the `FromTop` of the first of them,
relative to the segment. `none` is a panic. -/
def getElementsFromScore (segs : List Seg) (score i n : Nat) : Option (List Element × Nat) :=
  match segs[i]? with
  | none => none
  | some s =>
    match firstAtMost score s.elems with
    | some k => some (getElementsOffset (segs.drop i) k n, k)
    | none => some (getElementsOffset (segs.drop (i + 1)) 0 n, s.n)

/-- segments.go:1244-1271: the loop of `splitScores` over descending scores. `k` is the position of
the first segment. -/
def splitScoresLoop : Nat → List Seg → List Nat → List (Nat × List Nat)
  | _, [], _ => []
  | _, _ :: _, [] => []
  | k, s :: ss, top :: scores =>
    if s.min ≤ top then
      (k, (top :: scores).takeWhile fun v => decide (s.min ≤ v)) ::
        splitScoresLoop (k + 1) ss ((top :: scores).dropWhile fun v => decide (s.min ≤ v))
    else splitScoresLoop (k + 1) ss (top :: scores)

/-- segments.go:1234-1278 `splitScores`. -/
def splitScores (segs : List Seg) (scores : List Nat) : List (Nat × List Nat) :=
  splitScoresLoop 0 segs (ElementIDs.sort scores)

/-- The elements of the segment at position `i`. -/
def elemsAt (segs : List Seg) (i : Nat) : List Element := ((segs[i]?).map (·.elems)).getD []

/-- segments.go:1185-1223 `getFirstWithScore`. -/
def getFirstWithScore (sch : Sched) (segs : List Seg) (scores : List Nat) : List Element :=
  (sch.order ((splitScores segs scores).map fun m =>
    Elements.firstWithScore (elemsAt segs m.1) m.2)).flatten

/-- segments.go:1282-1294 `splitElementsIdx`, as the list of the entries of the map. -/
def splitElementsIdx : Nat → List Seg → List Element → List (Nat × List Element)
  | _, [], _ => []
  | k, s :: ss, elems =>
    let se := Segment.filterIdx s elems
    if se.1 = se.2 then splitElementsIdx (k + 1) ss elems
    else (k, (elems.take se.2).drop se.1) :: splitElementsIdx (k + 1) ss elems

/-- segments.go:1312-1315 `indexSegmentUpdate`: element ID and new segment ID. -/
abbrev IndexUpdate := Nat × Nat

/-- segments.go:1342-1346: give every match as many updates as it has scores. -/
def assignUpdates : List (Nat × List Nat) → List IndexUpdate → List (Nat × List IndexUpdate)
  | [], _ => []
  | m :: ms, ids => (m.1, ids.take m.2.length) :: assignUpdates ms (ids.drop m.2.length)

/-- segments.go:1319-1348 `splitIndexUpdates`. -/
def splitIndexUpdates (segs : List Seg) (ids : List IndexUpdate) : List (Nat × List IndexUpdate) :=
  let ids := goSort (fun a b => decide (b.1 ≤ a.1)) ids
  assignUpdates (splitScores segs (ids.map (·.1))) ids

/-- segments.go:1155-1166: set the segment of the first entry with score `upd.1`. -/
def setSegment (now : Nat) (upd : IndexUpdate) : List Element → List Element
  | [] => []
  | e :: l =>
    if e.score == upd.1 then { e with tie := upd.2 % 2 ^ 32, updated := now } :: l
    else e :: setSegment now upd l

/-- segments.go:1144-1173: the updates for one segment. -/
def applyUpdates (now : Nat) (upds : List IndexUpdate) (s : Seg) : Seg :=
  Segment.replace now s (upds.foldl (fun l u => setSegment now u l) s.elems)

/-- segments.go:1128-1180 `updateIndexElements`. -/
def updateIndexElements (now : Nat) (segs : List Seg) (upds : List IndexUpdate) : List Seg :=
  if upds.isEmpty then segs
  else
    (splitIndexUpdates segs upds).foldl
      (fun segs m => if m.2.isEmpty then segs else modifyAt (applyUpdates now m.2) m.1 segs) segs

/-- segments.go:1354-1405 `splitIdx`: the two segments and the index updates. `none` if the segment
cannot be split. -/
def splitIdx (now : Nat) (isIndex : Bool) (newID : Nat) (s : Seg) :
    Option (Seg × Seg × List IndexUpdate) :=
  match Elements.splitSize s.elems ((s.elems.length + 1) / 2) with
  | some [a, e :: b] =>
    let mm := Elements.minMax (e :: b)
    let s1min := aboveThis e.score (if isIndex then maxU32 else e.tie)
    some
      ({ s with elems := a, n := a.length, updated := now, min := s1min.1, minTie := s1min.2 },
       { id := newID, elems := e :: b, n := (e :: b).length, updated := now
         min := s.min, minTie := s.minTie
         max := mm.2.1, maxTie := if isIndex then maxU32 else mm.2.2.2 },
       (e :: b).map fun e => (e.id, newID))
  | _ => none

/-- segments.go:1411-1446 `mergeWithNext`: the merged segment and the index updates. -/
def mergeWithNext (now : Nat) (cur next : Seg) : Seg × List IndexUpdate :=
  (Segment.replace now { cur with min := next.min, minTie := next.minTie } (cur.elems ++ next.elems),
    next.elems.map fun e => (e.id, cur.id))

/-- list.go:2105-2182 and list.go:2204-2279: the loops over the segments in `List.split`. `done` are
the segments before the current position in reverse order, `skip` counts positions that are
passed over. After a merge at position `i` the loop continues at position `i + 2` of the shortened
list, after a split behind the new segment. `skipUnsplit` is the number of segments passed over after a
segment that could not be split: the index loop passes over one (list.go:2277). -/
def splitLoop (now splitSize mergeSize : Nat) (merge isIndex : Bool) (skipUnsplit : Nat) :
    Nat → Nat → List Seg → List Seg → List Seg × Nat × List IndexUpdate
  | nextID, _, done, [] => (done.reverse, nextID, [])
  | nextID, skip + 1, done, s :: ss =>
    splitLoop now splitSize mergeSize merge isIndex skipUnsplit nextID skip (s :: done) ss
  | nextID, 0, done, s :: ss =>
    if s.n < splitSize then
      match merge, done with
      | true, p :: done' =>
        if s.n + p.n > mergeSize then
          splitLoop now splitSize mergeSize merge isIndex skipUnsplit nextID 0 (s :: done) ss
        else
          let m := mergeWithNext now p s
          let r := splitLoop now splitSize mergeSize merge isIndex skipUnsplit nextID 2 (m.1 :: done') ss
          (r.1, r.2.1, m.2 ++ r.2.2)
      | _, _ => splitLoop now splitSize mergeSize merge isIndex skipUnsplit nextID 0 (s :: done) ss
    else
      match splitIdx now isIndex nextID s with
      | none =>
        splitLoop now splitSize mergeSize merge isIndex skipUnsplit nextID skipUnsplit
          ({ s with n := s.elems.length } :: done) ss
      | some (s1, s2, ch) =>
        let r := splitLoop now splitSize mergeSize merge isIndex skipUnsplit (nextID + 1) 0 (s2 :: s1 :: done) ss
        (r.1, r.2.1, ch ++ r.2.2)

end Segments
end RankDB

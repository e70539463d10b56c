import Verif.Model.List
/-
Model of the queries of a list when reads of the storage fail: `GetRankTop`, `GetRankBottom`, `GetRankScoreDesc`,
`GetPercentile`, `GetElements`, `Len` and `Stats`, as the reads of segments they make one after the other and what
they do with what they get.

The tables of the list are in memory (if they cannot be loaded every query returns an error, list.go:1635-1639).
There is no cache (the default), so `elementFullIdx` reads the elements of a segment from the storage each time
(segments.go:186-259); with a cache less is read. Nothing changes the list meanwhile, so that the reads of several
goroutines are those of the goroutines one after the other. The end of the context, which only turns answers into
errors (tools.go:73-108 `waitErr`), is not modelled.
-/
namespace RankDB.ReadFaults

/-- A segment: whether it is one of the index, and its position. -/
abbrev Place := Bool × Nat

/-- A call as the reads it makes: it is done, or it reads a segment (segments.go:186-259 `elementFullIdx`) and goes on
with the elements, or with `none` if it gets an error. -/
inductive Reading (α : Type) where
  | done (r : α)
  | load (p : Place) (next : Option (List Element) → Reading α)

/-- One after the other. -/
def Reading.bind : Reading α → (α → Reading β) → Reading β
  | .done r, f => f r
  | .load p next, f => .load p fun x => (next x).bind f

/-- The runs of a call on a storage with these elements: each read succeeds or fails. `t` are the reads with whether
they succeeded, `r` is the result. -/
inductive Runs (elems : Place → List Element) : Reading α → List (Place × Bool) → α → Prop
  | done (r : α) : Runs elems (.done r) [] r
  | ok {p next t r} : Runs elems (next (some (elems p))) t r → Runs elems (.load p next) ((p, true) :: t) r
  | fail {p next t r} : Runs elems (next none) t r → Runs elems (.load p next) ((p, false) :: t) r

/-- The run in which read number `k` of the call fails if `fails k` says so for the segment. -/
def run (fails : Nat → Place → Bool) (elems : Place → List Element) : Nat → Reading α → List (Place × Bool) × α
  | _, .done r => ([], r)
  | k, .load p next =>
    if fails k p then
      let x := run fails elems (k + 1) (next none)
      ((p, false) :: x.1, x.2)
    else
      let x := run fails elems (k + 1) (next (some (elems p)))
      ((p, true) :: x.1, x.2)

/-- How a query ends: with an error of the storage, with `ErrOffsetOutOfBounds` or `ErrNotFound`, with a panic, or with
a result. -/
inductive Answer (α : Type) where
  | failed
  | refused
  | panicked
  | given (r : α)
deriving DecidableEq, Repr

/-- The elements of a list that are stored. -/
def stored (st : ListState) (p : Place) : List Element :=
  Segments.elemsAt (if p.1 then st.index.segs else st.scores.segs) p.2

/-- segments.go:1090-1124 `getElementsOffset` from the segment at position `i` on; `left` segments are left. -/
def readOffset : Nat → Nat → Nat → Nat → Reading (Answer (List Element))
  | 0, _, _, _ => .done (.given [])
  | left + 1, i, first, n =>
    if n = 0 then .done (.given [])
    else .load (false, i) fun
      | none => .done .failed
      | some l =>
        if first ≥ l.length then readOffset left (i + 1) (first - l.length) n
        else if (l.drop first).length > n then .done (.given ((l.drop first).take n))
        else (readOffset left (i + 1) 0 (n - (l.drop first).length)).bind fun
          | .given r => .done (.given (l.drop first ++ r))
          | x => .done x

/-- list.go:1633-1662 `GetRankTop`. -/
def rankTop (st : ListState) (offset n : Nat) : Reading (Answer (List Element)) :=
  match Segments.segIdxTop st.scores.segs 0 offset with
  | none => .done .refused
  | some (i, first) => readOffset (st.scores.segs.length - i) i first n

/-- list.go:1666-1693 `GetRankBottom`. -/
def rankBottom (st : ListState) (offset n : Nat) : Reading (Answer (List Element)) :=
  match Segments.segIdxBottom st.scores.segs offset with
  | none => .done .refused
  | some (i, first) => readOffset (st.scores.segs.length - i) i first n

/-- segments.go:1068-1084 in `getElementsFromScore`: where the elements from the score on start, as position of the
segment, offset in it and `FromTop`, relative to the segment at position `i` with the elements `l`. -/
def scoreStart (st : ListState) (score i : Nat) (l : List Element) : Nat × Nat × Nat :=
  match Segments.firstAtMost score l with
  | some k => (i, k, k)
  | none => (i + 1, 0, (st.scores.segs.getD i default).n)

/-- list.go:1697-1721 `GetRankScoreDesc` with segments.go:1061-1085 `getElementsFromScore`, which reads the first
segment twice. -/
def rankScoreDesc (st : ListState) (score n : Nat) : Reading (Answer (List (Element × Int × Int))) :=
  match Segments.segIdxScore score st.scores.segs 0 0 with
  | none => .done .refused
  | some (i, above) =>
    .load (false, i) fun
      | none => .done .failed
      | some l =>
        let p := scoreStart st score i l
        (readOffset (st.scores.segs.length - p.1) p.1 p.2.1 n).bind fun
          | .given r => .done (.given (Lists.rankFrom (Segments.count st.scores.segs) above p.2.2 r))
          | .failed => .done .failed
          | .refused => .done .refused
          | .panicked => .done .panicked

/-- segments.go:1007-1028 (and 1031-1052 with `up`): the elements `cur` and those of the segments `rest`, up to
`radius`. A segment is read when more elements are needed; if that fails the rest is left out (segments.go:1018-1020,
1042-1044). The elements are taken one by one in the code. -/
def near (up : Bool) : List Nat → Nat → List Element → Reading (List Element)
  | [], radius, cur => .done (cur.take radius)
  | i :: rest, radius, cur =>
    if radius ≤ cur.length then .done (cur.take radius)
    else .load (false, i) fun
      | none => .done cur
      | some l => (near up rest (radius - cur.length) (if up then l.reverse else l)).bind fun r => .done (cur ++ r)

/-- The positions `i`, `i + 1`, … of `k` segments. -/
def upFrom : Nat → Nat → List Nat
  | _, 0 => []
  | i, k + 1 => i :: upFrom (i + 1) k

/-- The positions `i - 1`, …, 0. -/
def downFrom : Nat → List Nat
  | 0 => []
  | i + 1 => i :: downFrom i

/-- segments.go:987-1055 `findRanked` in the segment at position `i` of `m`, whose elements `l` have been read. -/
def findRanked (m i : Nat) (l : List Element) (id offset radius : Nat) : Reading (Option Segments.Ranked) :=
  match Elements.findIdx l id with
  | none => .done none
  | some eidx =>
    (near false (upFrom (i + 1) (m - (i + 1))) radius (l.drop (eidx + 1))).bind fun below =>
    (near true (downFrom i) radius (l.take eidx).reverse).bind fun above =>
    .done (some
      { elem := l.getD eidx default
        fromTop := offset + eidx
        fromBottom := 0
        below := below
        above := above })

/-- list.go:1748-1770 in `GetPercentile` for the offset `want`, with segments.go:968-983 `getElementIndex`. -/
def atOffset (st : ListState) (want radius : Nat) : Reading (Answer Segments.Ranked) :=
  let offs := Segments.topOffsets st.scores.segs 0
  let i := Lists.percentileSeg want offs 0
  if st.scores.segs.length ≤ i then .done .panicked
  else .load (false, i) fun
    | none => .done .failed
    | some l =>
      match l[min (want - offs.getD i 0) (l.length - 1)]? with
      | none => .done .panicked
      | some e =>
        (findRanked st.scores.segs.length i l e.id (offs.getD i 0) radius).bind fun
          | none => .done .refused
          | some r => .done (.given (Segments.calculateFromBottom (Segments.count st.scores.segs) r))

/-- list.go:1730-1771 `GetPercentile` for the percentile `m / 2 ^ e`. -/
def percentile (st : ListState) (m e radius : Nat) : Reading (Answer Segments.Ranked) :=
  atOffset st (Lists.percentileOffset (Segments.count st.scores.segs) (if m > 2 ^ e then 2 ^ e else m) e) radius

/-- Goroutines that each send a list or an error: all of them run, and one error is enough for an error
(tools.go:73-108 `waitErr`). -/
def fan (f : β → Reading (Option (List γ))) : List β → Reading (Option (List γ))
  | [] => .done (some [])
  | w :: ws =>
    (f w).bind fun x =>
    (fan f ws).bind fun y =>
    .done (match x, y with
      | some x, some y => some (x ++ y)
      | _, _ => none)

/-- segments.go:1199-1213: one goroutine of `getFirstWithScore`. -/
def firstIn (m : Nat × List Nat) : Reading (Option (List Element)) :=
  .load (true, m.1) fun
    | none => .done none
    | some l => .done (some (Elements.firstWithScore l m.2))

/-- segments.go:941-948: the elements that are looked up in one segment, one after the other. -/
def findEach (m total i : Nat) (l : List Element) (offset radius : Nat) : List Nat → Reading (List Segments.Ranked)
  | [] => .done []
  | id :: ids =>
    (findRanked m i l id offset radius).bind fun x =>
    (findEach m total i l offset radius ids).bind fun rs =>
    .done (match x with
      | none => rs
      | some r => Segments.calculateFromBottom total r :: rs)

/-- segments.go:933-952: one goroutine of `FindElements`. -/
def findIn (segs : List Seg) (idx : List Element) (radius i : Nat) : Reading (Option (List Segments.Ranked)) :=
  .load (false, i) fun
    | none => .done none
    | some l =>
      (findEach segs.length (Segments.count segs) i l ((Segments.topOffsets segs 0).getD i 0) radius
        (Segments.idsAt segs idx i)).bind fun rs => .done (some rs)

/-- list.go:1212-1242 `GetElements` with list.go:1170-1207 `getIndexElements` and segments.go:918-964
`FindElements`. -/
def getElements (sch : Sched) (st : ListState) (ids : List Nat) (radius : Nat) : Reading (Answer (List Segments.Ranked)) :=
  (fan firstIn (sch.order (Segments.splitScores st.index.segs (uniq ids)))).bind fun
    | none => .done .failed
    | some e =>
      let e := e.filter fun x => (uniq ids).contains x.score
      if e.isEmpty then .done (.given [])
      else
        (fan (findIn st.scores.segs e radius) (sch.order ((List.range st.scores.segs.length).filter fun i =>
          !(Segments.idsAt st.scores.segs e i).isEmpty))).bind fun
          | none => .done .failed
          | some rs => .done (.given rs)

/-- list.go:1011-1053 `Stats` with `elements` set: errors of the two queries are dropped. The numbers are those of the
table, as in `Len` (list.go:977-995), which reads no segments. -/
def stats (st : ListState) : Reading Lists.Stats :=
  (rankTop st 0 1).bind fun top =>
  (rankBottom st 0 1).bind fun bottom =>
  let n := Segments.count st.scores.segs
  let first : Answer (List Element) → Option Element := fun
    | .given l => l.head?
    | _ => none
  .done
    { elements := n
      segments := st.scores.segs.length
      top := (first top).map fun e => (e, 0, (n : Int) - 0 - 1)
      bottom := (first bottom).map fun e => (e, (n : Int) - 1, 0) }

end RankDB.ReadFaults

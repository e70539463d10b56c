import Verif.Spec.Lists
/-
Model of `GetElements` without neighbours running at the same time as calls of `UpdateElements`.

The locks decide what the lookup can see (see `Model/Locks`): both calls hold `segmentsLock` for reading, so
that the segments themselves stay, and updates exclude each other with `updateLock`. A segment can be read while
no update holds it for writing. An update first locks all segments it needs (list.go:1343-1402), then changes
the elements in memory (1398-1462), and then stores the segments and unlocks them one by one, those of the
index first (1464-1476, segments.go:270-299).

Simplifications: a goroutine reads a segment in one step, because it holds the lock of the segment meanwhile.
The order in which an update takes its locks is free here. Errors of the storage are not modelled.
-/
namespace RankDB.Concurrent
open Segments

/-- An update in progress: the list it leads to, and the positions of the segments of the index and of the
scores that it locks. -/
structure Update where
  next : ListState
  idx : List Nat
  scr : List Nat

/-- Where the update is: there is none, it has locked the given segments of the index and the scores, or it
has set the counts of the segments `counted` of the scores, and has stored and unlocked those in `outI` and
`outS`. -/
inductive Phase
  | idle
  | locking (u : Update) (gotI gotS : List Nat)
  | storing (u : Update) (outI counted outS : List Nat)

/-- The list before the update in progress. `hist` records the lists that were in effect since the beginning of
the lookup, the latest first; it is only there to state properties. -/
structure World where
  cur : ListState
  phase : Phase
  hist : List ListState

/-- The elements of the segment of the index at position `i`, unless the segment is locked for writing. -/
def seeIndex (w : World) (i : Nat) : Option (List Element) :=
  match w.phase with
  | .idle => some (elemsAt w.cur.index.segs i)
  | .locking _ gotI _ => if i ∈ gotI then none else some (elemsAt w.cur.index.segs i)
  | .storing u outI _ _ =>
    if i ∈ u.idx then if i ∈ outI then some (elemsAt u.next.index.segs i) else none
    else some (elemsAt w.cur.index.segs i)

/-- The same for the scores. -/
def seeScores (w : World) (i : Nat) : Option (List Element) :=
  match w.phase with
  | .idle => some (elemsAt w.cur.scores.segs i)
  | .locking _ _ gotS => if i ∈ gotS then none else some (elemsAt w.cur.scores.segs i)
  | .storing u _ _ outS =>
    if i ∈ u.scr then if i ∈ outS then some (elemsAt u.next.scores.segs i) else none
    else some (elemsAt w.cur.scores.segs i)

/-- The table of the score segments with their counts: `replaceSegment` sets the count before it stores a
segment, segments.go:279-284. -/
def table (w : World) : List Seg :=
  match w.phase with
  | .storing u _ counted _ => mapFrom (fun i s => if i ∈ counted then (u.next.scores.segs[i]?).getD s else s) 0 w.cur.scores.segs
  | _ => w.cur.scores.segs

/-- A lookup: the segments of the index that are still to be read with the IDs for each, what was found
there, the offsets and the total count once they are known, the segments of the scores still to be read with
the IDs, and the result. -/
structure Look where
  ids : List Nat
  todo : List (Nat × List Nat)
  got : List Element
  offs : Option (List Nat × Nat)
  rest : List (Nat × List Nat)
  res : List Ranked

/-- list.go:1226-1236, 1170-1185 and segments.go:1185-1190: the beginning. -/
def Look.start (w : World) (ids : List Nat) : Look :=
  { ids := ids, todo := splitScores w.cur.index.segs (uniq ids), got := [], offs := none, rest := [], res := [] }

/-- list.go:1191-1202: the index elements that were requested. -/
def Look.found (k : Look) : List Element := k.got.filter fun e => (uniq k.ids).contains e.score

/-- segments.go:924-931 with 1298-1309: the segments in which elements are looked up. -/
def places (segs : List Seg) (found : List Element) : List (Nat × List Nat) :=
  (List.range segs.length).filterMap fun i =>
    if (idsAt segs found i).isEmpty then none else some (i, idsAt segs found i)

/-- segments.go:933-952 with 987-1003: one goroutine of `FindElements`, which has read the elements `l`. -/
def findIn (l : List Element) (off total : Nat) (ids : List Nat) : List Ranked :=
  ids.filterMap fun id =>
    (Elements.findIdx l id).map fun i =>
      calculateFromBottom total
        { elem := l.getD i default, fromTop := off + i, fromBottom := 0, above := [], below := [] }

/-- What a call of `UpdateElements` must be given: storable elements with distinct IDs, before the end of the
clock. -/
def Fine (now : Nat) (es : List Element) : Prop :=
  (∀ e ∈ es, Spec.Storable e) ∧ Spec.DistinctIDs es ∧ now < 2 ^ 32 - 1

/-- A step of the update or of the lookup. -/
inductive Step : World × Option Look → World × Option Look → Prop
  /-- list.go:1252: an update begins. -/
  | begin {cur : ListState} {hist : List ListState} {k : Option Look} (now : Nat) (sch : Sched) (es : List Element)
      (hf : Fine now es) :
      Step (⟨cur, .idle, hist⟩, k)
        (⟨cur, .locking ⟨Lists.updateElements now sch cur es, Lists.loadedIndex cur es, Lists.loadedScores cur es⟩ [] [],
          hist⟩, k)
  /-- list.go:1343: it locks a segment of the index. -/
  | lockIndex {cur : ListState} {hist : List ListState} {k : Option Look} {u : Update} {gi gs : List Nat} (i : Nat)
      (hi : i ∈ u.idx) : Step (⟨cur, .locking u gi gs, hist⟩, k) (⟨cur, .locking u (i :: gi) gs, hist⟩, k)
  /-- list.go:1303: it locks a segment of the scores. -/
  | lockScores {cur : ListState} {hist : List ListState} {k : Option Look} {u : Update} {gi gs : List Nat} (i : Nat)
      (hi : i ∈ u.scr) : Step (⟨cur, .locking u gi gs, hist⟩, k) (⟨cur, .locking u gi (i :: gs), hist⟩, k)
  /-- list.go:1398-1462: all segments are locked, the elements are changed. -/
  | change {cur : ListState} {hist : List ListState} {k : Option Look} {u : Update} {gi gs : List Nat}
      (hi : ∀ i ∈ u.idx, i ∈ gi) (hs : ∀ i ∈ u.scr, i ∈ gs) :
      Step (⟨cur, .locking u gi gs, hist⟩, k) (⟨cur, .storing u [] [] [], u.next :: hist⟩, k)
  /-- list.go:1464-1469: it stores and unlocks a segment of the index. -/
  | storeIndex {cur : ListState} {hist : List ListState} {k : Option Look} {u : Update} {oi cs os : List Nat} (i : Nat)
      (hi : i ∈ u.idx) : Step (⟨cur, .storing u oi cs os, hist⟩, k) (⟨cur, .storing u (i :: oi) cs os, hist⟩, k)
  /-- list.go:1471-1476, segments.go:279-284: it sets the count of a segment of the scores. -/
  | setCount {cur : ListState} {hist : List ListState} {k : Option Look} {u : Update} {oi cs os : List Nat} (i : Nat)
      (hi : i ∈ u.scr) (hall : ∀ j ∈ u.idx, j ∈ oi) :
      Step (⟨cur, .storing u oi cs os, hist⟩, k) (⟨cur, .storing u oi (i :: cs) os, hist⟩, k)
  /-- list.go:1471-1476, segments.go:286-298: it stores and unlocks the segment. -/
  | storeScores {cur : ListState} {hist : List ListState} {k : Option Look} {u : Update} {oi cs os : List Nat} (i : Nat)
      (hi : i ∈ cs) : Step (⟨cur, .storing u oi cs os, hist⟩, k) (⟨cur, .storing u oi cs (i :: os), hist⟩, k)
  /-- list.go:1489: it returns. -/
  | finish {cur : ListState} {hist : List ListState} {k : Option Look} {u : Update} {oi cs os : List Nat}
      (hi : ∀ i ∈ u.idx, i ∈ oi) (hs : ∀ i ∈ u.scr, i ∈ os) :
      Step (⟨cur, .storing u oi cs os, hist⟩, k) (⟨u.next, .idle, hist⟩, k)
  /-- list.go:1212-1236: the lookup begins. The history restarts with the list in effect. -/
  | call {w : World} (ids : List Nat) : Step (w, none) ({ w with hist := w.hist.take 1 }, some (Look.start w ids))
  /-- segments.go:1199-1212: a goroutine of the lookup reads a segment of the index. -/
  | readIndex {w : World} {k : Look} {a b : List (Nat × List Nat)} {i : Nat} {ids : List Nat} {l : List Element}
      (ht : k.todo = a ++ (i, ids) :: b) (hl : seeIndex w i = some l) :
      Step (w, some k) (w, some { k with todo := a ++ b, got := k.got ++ Elements.firstWithScore l ids })
  /-- segments.go:918-931: the offsets are read and the found IDs are divided. -/
  | offsets {w : World} {k : Look} (ht : k.todo = []) (ho : k.offs = none) :
      Step (w, some k) (w, some { k with offs := some (topOffsets (table w) 0, count (table w)), rest := places (table w) k.found })
  /-- segments.go:933-952: a goroutine of the lookup reads a segment of the scores. -/
  | readScores {w : World} {k : Look} {a b : List (Nat × List Nat)} {i : Nat} {ids : List Nat} {l : List Element}
      {offs : List Nat} {total : Nat} (ho : k.offs = some (offs, total)) (hr : k.rest = a ++ (i, ids) :: b)
      (hl : seeScores w i = some l) :
      Step (w, some k) (w, some { k with rest := a ++ b, res := k.res ++ findIn l (offs.getD i 0) total ids })

/-- Any number of steps. -/
inductive Run : World × Option Look → World × Option Look → Prop
  | refl (x : World × Option Look) : Run x x
  | step {x y z : World × Option Look} (h : Run x y) (hs : Step y z) : Run x z

/-- A list that is not in use. -/
def start (st : ListState) : World × Option Look := (⟨st, .idle, [st]⟩, none)

/-- The lookup has returned. -/
def Look.Returned (k : Look) : Prop := k.todo = [] ∧ k.offs.isSome ∧ k.rest = []

end RankDB.Concurrent

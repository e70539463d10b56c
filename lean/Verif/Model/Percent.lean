import Verif.Model.Near
/-
Model of `GetPercentile` (list.go:1730-1771) while updates of the list are in progress (`Model/Concurrent`).

It takes the position of the element from the counts in the table of segments, and then reads the segment, under the
lock of the segment only. Neighbours are collected as by a goroutine of `GetElements` (`Model/Near`).

Simplifications: those of `Model/Near`. A call that cannot load its segment returns an error; this is not modelled.
-/
namespace RankDB.Concurrent
open Segments

/-- Where a call is. -/
inductive Pct
  /-- list.go:1748-1755, 1764: the segment and the position in it, its offset and the total count. -/
  | located (seg pos off total : Nat)
  /-- segments.go:969-978: the segment is locked, `findRanked` is on its way or has returned. -/
  | reading (g : Goro)
  /-- segments.go:975-978: the index -1 of a segment without elements. -/
  | panicked

/-- list.go:1731-1764: the segment in which the element is, from the counts in the table. -/
def Pct.locate (segs : List Seg) (m e : Nat) : Pct :=
  let offs := topOffsets segs 0
  let want := Lists.percentileOffset (count segs) (if m > 2 ^ e then 2 ^ e else m) e
  let i := Lists.percentileSeg want offs 0
  .located i (want - offs.getD i 0) (offs.getD i 0) (count segs)

/-- The segments that the call has locked, with their elements. -/
def Pct.held : Pct → List (Nat × List Element)
  | .reading g => g.held
  | _ => []

/-- A step of an update or of the call for the percentile `m / 2 ^ e`. -/
inductive PctStep (m e radius : Nat) : World × Option Pct → World × Option Pct → Prop
  /-- A step of an update. It does not have a lock that the call has. -/
  | update {w w' : World} {p : Option Pct} (hs : Step (w, none) (w', none))
      (hl : ∀ q, p = some q → ∀ x ∈ q.held, x.1 ∉ lockedScores w') : PctStep m e radius (w, p) (w', p)
  /-- list.go:1738-1764: the call begins. The history restarts with the list in effect. -/
  | call {w : World} : PctStep m e radius (w, none) ({ w with hist := w.hist.take 1 }, some (.locate (table w) m e))
  /-- segments.go:969-978: the segment is locked; the element is searched by its ID. -/
  | read {w : World} {i k off total : Nat} {l : List Element} {x : Element} (hl : seeScores w i = some l)
      (hx : l[min k (l.length - 1)]? = some x) :
      PctStep m e radius (w, some (.located i k off total))
        (w, some (.reading ⟨i, radius, off, total, l, [x.id], [x.id], .idle, false, []⟩))
  /-- segments.go:969-978: the segment is locked and has no elements. -/
  | panic {w : World} {i k off total : Nat} (hl : seeScores w i = some []) :
      PctStep m e radius (w, some (.located i k off total)) (w, some .panicked)
  /-- segments.go:987-1055: `findRanked` goes on. -/
  | go {w : World} {g g' : Goro} (hs : GoroStep w g g') : PctStep m e radius (w, some (.reading g)) (w, some (.reading g'))

/-- Any number of steps. -/
inductive PctRun (m e radius : Nat) : World × Option Pct → World × Option Pct → Prop
  | refl (x : World × Option Pct) : PctRun m e radius x x
  | step {x y z : World × Option Pct} (h : PctRun m e radius x y) (hs : PctStep m e radius y z) : PctRun m e radius x z

/-- The call has returned `r`; `failed` if a segment with neighbours could not be loaded. -/
def Pct.Returned (p : Pct) (r : Ranked) (failed : Bool) : Prop :=
  ∃ g : Goro, p = .reading g ∧ g.ids = [] ∧ g.way = .idle ∧ g.res = [r] ∧ g.failed = failed

end RankDB.Concurrent

import Verif.Model.Scan
import Verif.Model.Near
/-
Model of `GetRankScoreDesc` (list.go:1697-1721) while updates of the list are in progress (`Model/Concurrent`).

It takes the segment that contains the score and the number of elements above it from the table of segments. Then it
locks the segment, finds the first element at or below the score, and reads from there on, segment after segment
(`Model/Scan`). The first segment stays locked until the call returns.

Simplifications: those of `Model/Scan`. The first segment is locked for reading a second time by `getElementsOffset`;
that this can block for ever is shown by C53. A call that cannot load a segment returns an error; this is not modelled.
-/
namespace RankDB.Concurrent
open Segments

/-- Where a call is. -/
inductive Desc
  /-- list.go:1707: the segment that contains the score, the number of elements above it and the total count. -/
  | located (seg above total : Nat)
  /-- segments.go:1062-1085: the segment is locked and has the elements `elems`; `first` is the rank in the segment
  that the first element gets. -/
  | reading (seg : Nat) (elems : List Element) (first above total : Nat) (s : Scan)

/-- list.go:1707 with segments.go:635-648; `none` is `ErrOffsetOutOfBounds`. -/
def Desc.locate (segs : List Seg) (score : Nat) : Option Desc :=
  (segIdxScore score segs 0 0).map fun p => .located p.1 p.2 (count segs)

/-- segments.go:1068-1084: from where on elements are read, and the rank of the first of them in the segment. -/
def Desc.begin (w : World) (score n seg : Nat) (l : List Element) : Nat × Scan :=
  match firstAtMost score l with
  | some k => (k, ⟨seg, k, some n, []⟩)
  | none => (((table w)[seg]?.map (·.n)).getD 0, ⟨seg + 1, 0, some n, []⟩)

/-- The segment that stays locked. -/
def Desc.held : Desc → List Nat
  | .located .. => []
  | .reading seg .. => [seg]

/-- A step of an update or of a call for the `n` elements from `score` on. -/
inductive DescStep (score n : Nat) : World × Option Desc → World × Option Desc → Prop
  /-- A step of an update. It does not have the lock that the call has. -/
  | update {w w' : World} {d : Option Desc} (hs : Step (w, none) (w', none))
      (hl : ∀ q, d = some q → ∀ i ∈ q.held, i ∉ lockedScores w') : DescStep score n (w, d) (w', d)
  /-- list.go:1699-1713: the call begins. The history restarts with the list in effect. -/
  | call {w : World} {d : Desc} (hd : Desc.locate (table w) score = some d) :
      DescStep score n (w, none) ({ w with hist := w.hist.take 1 }, some d)
  /-- segments.go:1062-1084: the segment is locked and searched. -/
  | lock {w : World} {i above total : Nat} {l : List Element} (hl : seeScores w i = some l) :
      DescStep score n (w, some (.located i above total))
        (w, some (.reading i l (Desc.begin w score n i l).1 above total (Desc.begin w score n i l).2))
  /-- segments.go:1092-1120: a segment is read, if no update holds it. -/
  | read {w : World} {i first above total : Nat} {e l : List Element} {s : Scan} (hm : s.More w)
      (hl : seeScores w s.pos = some l) :
      DescStep score n (w, some (.reading i e first above total s)) (w, some (.reading i e first above total (s.read l)))

/-- Any number of steps. -/
inductive DescRun (score n : Nat) : World × Option Desc → World × Option Desc → Prop
  | refl (x : World × Option Desc) : DescRun score n x x
  | step {x y z : World × Option Desc} (h : DescRun score n x y) (hs : DescStep score n y z) : DescRun score n x z

/-- The call has returned these elements with their ranks from the top and from the bottom: list.go:1718-1720. -/
def Desc.Returned (w : World) (d : Desc) (r : List (Element × Int × Int)) : Prop :=
  ∃ i e first above total s, d = .reading i e first above total s ∧ ¬ s.More w ∧ r = Lists.rankFrom total above first s.res

end RankDB.Concurrent

import Verif.Model.Concurrent
/-
Model of the calls that read the segments of the scores one after the other, while `UpdateElements` changes the
same list: cloning a list, and the ranges `GetRankTop` and `GetRankBottom`.

They load the segments with `segsReadOnly|segsAllowUpdates` (list.go:493, 1640, 1672), which takes `segmentsLock`
for reading and not `updateLock`, as an update does (list.go:1252). Every segment is read under its own lock and
unlocked before the next one.

Simplifications: those of `Model/Concurrent`. The count of a new segment of a clone, its ID and the index that is
made of what was read are left out here: `Model/List` has them.
-/
namespace RankDB.Concurrent
open Segments

/-- The reading of a list: the position of the next segment, the number of elements that are skipped, the number
of elements still wanted (`none` for a clone, which reads everything), and what was read. -/
structure Scan where
  pos : Nat
  first : Nat
  left : Option Nat
  res : List Element
  deriving DecidableEq

/-- list.go:507-513: the beginning of `cloneElements`. -/
def Scan.clone : Scan := ⟨0, 0, none, []⟩

/-- list.go:1648-1659 with segments.go:1090-1094: the beginning of `getRankTop`, from the counts in the table;
`none` is `ErrOffsetOutOfBounds`. -/
def Scan.fromTop (w : World) (offset n : Nat) : Option Scan :=
  (segIdxTop (table w) 0 offset).map fun p => ⟨p.1, p.2, some n, []⟩

/-- list.go:1681-1691 with segments.go:1090-1094: the beginning of `getRankBottom`. -/
def Scan.fromBottom (w : World) (offset n : Nat) : Option Scan :=
  (segIdxBottom (table w) offset).map fun p => ⟨p.1, p.2, some n, []⟩

/-- The loop goes on: list.go:513, segments.go:1092-1095. -/
def Scan.More (w : World) (s : Scan) : Prop := s.pos < w.cur.scores.segs.length ∧ s.left ≠ some 0

/-- One iteration, for a segment with the elements `l`: segments.go:1101-1116, and list.go:514-535 if everything
is wanted. -/
def Scan.read (s : Scan) (l : List Element) : Scan :=
  match s.left with
  | none => { s with pos := s.pos + 1, res := s.res ++ l }
  | some n =>
    if s.first ≥ l.length then { s with pos := s.pos + 1, first := s.first - l.length }
    else if (l.drop s.first).length > n then { s with left := some 0, res := s.res ++ (l.drop s.first).take n }
    else ⟨s.pos + 1, 0, some (n - (l.drop s.first).length), s.res ++ l.drop s.first⟩

/-- A step of an update or of the reading. -/
inductive ScanStep : World × Option Scan → World × Option Scan → Prop
  /-- A step of an update. -/
  | update {w w' : World} {s : Option Scan} (hs : Step (w, none) (w', none)) : ScanStep (w, s) (w', s)
  /-- list.go:490-513: cloning begins. The history restarts with the list in effect. -/
  | clone {w : World} : ScanStep (w, none) ({ w with hist := w.hist.take 1 }, some .clone)
  /-- list.go:1636-1659: `GetRankTop` begins. -/
  | fromTop {w : World} {s : Scan} (offset n : Nat) (hs : Scan.fromTop w offset n = some s) :
      ScanStep (w, none) ({ w with hist := w.hist.take 1 }, some s)
  /-- list.go:1668-1691: `GetRankBottom` begins. -/
  | fromBottom {w : World} {s : Scan} (offset n : Nat) (hs : Scan.fromBottom w offset n = some s) :
      ScanStep (w, none) ({ w with hist := w.hist.take 1 }, some s)
  /-- A segment is read, if no update holds it. -/
  | read {w : World} {s : Scan} {l : List Element} (hm : s.More w) (hl : seeScores w s.pos = some l) :
      ScanStep (w, some s) (w, some (s.read l))

/-- Any number of steps. -/
inductive ScanRun : World × Option Scan → World × Option Scan → Prop
  | refl (x : World × Option Scan) : ScanRun x x
  | step {x y z : World × Option Scan} (h : ScanRun x y) (hs : ScanStep y z) : ScanRun x z

/-- A list that nobody uses. -/
def World.idle (st : ListState) : World := ⟨st, .idle, [st]⟩

end RankDB.Concurrent

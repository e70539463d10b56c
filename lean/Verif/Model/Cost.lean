import Verif.Model.Disk
import Verif.Model.ReadFaults
/-
Model of the segments that changes of a list read. The tables of the list are in memory and there is no cache (the
default), so `elementFullIdx` reads the elements of a segment from the storage each time (segments.go:186-259); no read
fails. What changes write is in Model/Disk, what queries read in Model/ReadFaults.
-/
namespace RankDB.Cost
open ReadFaults

/-- list.go:1337-1461 in `UpdateElements`: the index segments of the IDs (list.go:1352), and with `segmentScoresLoad`
(list.go:1289-1322) once each the score segments in which elements are or will be. -/
def updateReads (st : ListState) (es : List Element) : List Place :=
  (Lists.loadedIndex st es).eraseDups.map (fun i => (true, i)) ++
    (Lists.loadedScores st es).eraseDups.map fun i => (false, i)

/-- list.go:1246-1497 `UpdateElements` with `results`: the changed elements are looked up again (list.go:1482-1486). -/
def updateResultReads (now : Nat) (sch : Sched) (st : ListState) (es : List Element) (radius : Nat) : List Place :=
  updateReads st es ++
    (run (fun _ _ => false) (stored (Lists.updateElements now sch st es)) 0
      (getElements sch (Lists.updateElements now sch st es) (Lists.updateIDs es) radius)).1.map (·.1)

/-- list.go:1501-1543 `DeleteElements`: the index segments of the IDs (segments.go:1199-1213), the score segments with
the elements (segments.go:341-376), and the index segments again (segments.go:415-450). -/
def deleteReads (now : Nat) (sch : Sched) (st : ListState) (ids : List Nat) : List Place :=
  let e := Lists.getIndexElements sch st ids
  let deleted := (Segments.deleteElementsIdx now sch st.scores.segs e).2
  (Segments.splitScores st.index.segs (uniq ids)).map (fun m => (true, m.1)) ++
    ((Disk.touchedIdx st.scores.segs e).map (fun i => (false, i)) ++
      (Disk.touched 0 st.index.segs deleted).map fun i => (true, i))

end RankDB.Cost

import Verif.Model.Stored
import Verif.Model.List
import Verif.Model.Catalogue
/-
Model of backups: list.go:1847-2006 (one list), backup/job.go and backup/restore.go (sets of lists).
-/
namespace RankDB.Backup
open Wire Stored

/-- The stored form of a segment (segment.go:31-40), without its elements. -/
def segMeta (parent : Str) (s : Seg) : SegMeta :=
  { id := s.id, min := s.min, max := s.max, minTie := s.minTie, maxTie := s.maxTie, n := s.n, updated := s.updated
    parent := parent }

/-- The stored form of the segments of a list (segments.go:35-48). -/
def table (id : Str) (s : Segs) : Table :=
  { id := id, segments := s.segs.map (segMeta id), nextID := s.nextID, isIndex := s.isIndex }

/-- list.go:1897-1913: one segment and its elements. -/
def encPart (p : SegMeta × List Element) : Bytes := encSegment p.1 ++ encElements p.2

/-- list.go:1850-1915 `Backup`; `l.scores` is the ID of the score segments. -/
def backup (l : ListRec) (st : ListState) : Bytes :=
  encUint backupVersion ++ (encList l ++ (encUint segmentsVersion ++ (encTable (table l.scores st.scores) ++
    (encUint segmentVersion ++ (encInt st.scores.segs.length ++
      (st.scores.segs.map fun s => (segMeta l.scores s, s.elems)).flatMap encPart)))))

/-- list.go:1963-1989, reading of one segment and its elements. -/
def decPart : Dec (SegMeta × List Element) := do
  let m ← decSegment
  let e ← decElements
  return (m, e)

/-- What a stream contains: list, table, and the segments with their elements. -/
structure Parsed where
  list : ListRec
  table : Table
  parts : List (SegMeta × List Element)

/-- list.go:1922-1980, the reading part of `RestoreList`. A negative count, for which `make` panics, is an error. -/
def parse (b : Bytes) : Except Err Parsed :=
  let (v, b) := getVersion b
  if v ≠ backupVersion then .error .version else
  match decList b with
  | none => .error .decode
  | some (l, b) =>
    let (v, b) := getVersion b
    if v ≠ segmentsVersion then .error .version else
    match decTable b with
    | none => .error .decode
    | some (t, b) =>
      let (v, b) := getVersion b
      if v ≠ segmentVersion then .error .version else
      match decInt b with
      | none => .error .decode
      | some (n, b) =>
        if n < 0 then .error .decode else
        match decN decPart n.toNat b with
        | none => .error .decode
        | some (parts, _) => .ok { list := l, table := t, parts := parts }

/-- list.go:1967-1985 with segments.go:270-298 `replaceSegment`: the segment from its stored form. -/
def toSeg (now : Nat) (p : SegMeta × List Element) : Seg :=
  { id := p.1.id, min := p.1.min, max := p.1.max, minTie := p.1.minTie, maxTie := p.1.maxTie
    n := p.2.length, updated := now, elems := p.2 }

/-- list.go:1920-2006 `RestoreList`: the list, and its elements. `scores` and `index` are the random IDs for the
new score segments (list.go:1951, only with a new list ID) and for the new index (list.go:735, 1999). The outer
`none` is the division by zero in `SplitSize`. Storage does not fail. -/
def restore (now : Nat) (sch : Sched) (newID : Option Str) (scores index : Str) (b : Bytes) :
    Option (Except Err (ListRec × ListState)) :=
  match parse b with
  | .error e => some (.error e)
  | .ok p =>
    let l := match newID with
      | some id => { p.list with id := id, scores := scores, index := index }
      | none => { p.list with index := index }
    let st : ListState :=
      { scores := { segs := p.parts.map (toSeg now), nextID := p.table.nextID, isIndex := p.table.isIndex }
        index := { segs := [], nextID := 1, isIndex := true }
        mergeSize := l.mergeSize.toNat, splitSize := l.splitSize.toNat }
    (Lists.reindex now sch st).map fun st => .ok (l, st)

/-! ### Sets of lists -/

/-- backup/job.go:250 `backupListVersion`. -/
def backupListVersion : Nat := 1

/-- backup/job.go:267-281 in `backupList`: one record of the set. -/
def record (id : Str) (payload : Bytes) : Bytes :=
  encBool true ++ (encUint backupListVersion ++ (encStr id ++ encBin payload))

/-- backup/job.go:80-99 `Status`: what is reported about lists. -/
structure Status where
  success : List Str := []
  errors : List Str := []
deriving DecidableEq, Repr

/-- backup/job.go:199-235: the loop over the lists, without cancelling. `payload` is the backup of a list: outer
`none` if there is no such list, inner `none` if its backup fails. -/
def backupLoop (payload : Str → Option (Option Bytes)) : List Str → Bytes × Status → Bytes × Status
  | [], r => r
  | id :: ids, (out, s) =>
    match payload id with
    | some (some p) => backupLoop payload ids (out ++ record id p, { s with success := s.success ++ [id] })
    | _ => backupLoop payload ids (out, { s with errors := s.errors ++ [id] })

/-- backup/job.go:124-248 `Start`, what is written before compression, and the status in the end. -/
def backupSet (payload : Str → Option (Option Bytes)) (lists : List Str) : Bytes × Status :=
  let r := backupLoop payload (Catalogue.sortIDs lists) ([], {})
  (r.1 ++ encBool false, r.2)

/-- backup/restore.go:33-37 `RestoreResult`. -/
structure Result where
  restored : Nat := 0
  skipped : Nat := 0
  failed : List Str := []
deriving DecidableEq, Repr

/-- How `Restore` ends. -/
inductive Outcome
  | done (r : Result)
  | error (e : Err)
  | panic
deriving DecidableEq, Repr

/-- backup/restore.go:29-30, 76: the ID of the destination. -/
def dest (pre suf id : Str) : Str := pre ++ id ++ suf

/-- backup/restore.go:58-104, the loop, on the decompressed stream. `db` are the lists of the database, `one` is
`RestoreList`. `res.Failed` is nil: the assignment at backup/restore.go:98 panics. `fuel` is more than the number
of bytes. An error of `DeleteList` is ignored, as in the code. -/
def restoreLoop {α : Type} (pre suf : Str) (replace : Bool) (one : Str → Bytes → Option α) :
    Nat → (Str → Option α) → Result → Bytes → (Str → Option α) × Outcome
  | 0, db, _, _ => (db, .error .decode)
  | fuel + 1, db, res, b =>
    match decBool b with
    | none => (db, .error .decode)
    | some (false, _) => (db, .done res)
    | some (true, b) =>
      let (v, b) := getVersion b
      if v ≠ backupListVersion then (db, .error .version) else
      match decStr b with
      | none => (db, .error .decode)
      | some (id, b) =>
        match decBin b with
        | none => (db, .error .decode)
        | some (p, b) =>
          if (db (dest pre suf id)).isSome ∧ replace = false then
            restoreLoop pre suf replace one fuel db { res with skipped := res.skipped + 1 } b
          else
            let db := fun x => if x = dest pre suf id then none else db x
            match one (dest pre suf id) p with
            | none => (db, .panic)
            | some l =>
              restoreLoop pre suf replace one fuel (fun x => if x = dest pre suf id then some l else db x)
                { res with restored := res.restored + 1 } b

/-- backup/restore.go:41-108 `Restore`, after decompression. -/
def restoreSet {α : Type} (pre suf : Str) (replace : Bool) (one : Str → Bytes → Option α) (db : Str → Option α)
    (b : Bytes) : (Str → Option α) × Outcome :=
  restoreLoop pre suf replace one (b.length + 1) db {} b

end RankDB.Backup

import Verif.Model.Bytes
import Verif.Model.Backup
/-
Model of api/multilist.go `Backup` and `Restore` on the server of `Model/Server`: backup/job.go and
backup/restore.go with the catalogue and the blobs they read and write. `Model/Backup` has the streams.

Simplifications: as in `Model/Server`, and the set is not compressed. Nothing else changes the lists while they are
restored. Errors of the storage are left out.
-/
namespace RankDB.Server
open Disk Stored Wire

/-- backup/job.go:199-235 with list.go:1850-1915 `Backup`: the backup of a list of a server. The outer `none` if there
is no such list, the inner one if it cannot be read. -/
def payloadOf (db : Db) (id : Str) : Option (Option Bytes) :=
  (byID db.lists id).map fun l => (reload db.store l.ent).map fun st => Backup.backup (Files.recOf l) st

/-- What `RestoreList` does not get from the stream: the time, the order of goroutines, and the random names of the
score segments (list.go:1951), of the stub of an index (list.go:1999), and of the index (list.go:753). -/
structure Names where
  now : Nat
  sch : Sched
  scores : Str
  stub : Str
  index : Str

/-- list.go:1963-1989: the segments that are read from the stream before it ends or something cannot be read. -/
def readParts : Nat → Bytes → List (SegMeta × List Element)
  | 0, _ => []
  | n + 1, b =>
    match Backup.decPart b with
    | none => []
    | some (p, b) => p :: readParts n b

/-- list.go:1922-1989: the segments that `RestoreList` reads, also if it fails afterwards. -/
def partsOf (b : Bytes) : List (SegMeta × List Element) :=
  let (v, b) := getVersion b
  if v ≠ backupVersion then [] else
  match decList b with
  | none => []
  | some (_, b) =>
    let (v, b) := getVersion b
    if v ≠ segmentsVersion then [] else
    match decTable b with
    | none => []
    | some (_, b) =>
      let (v, b) := getVersion b
      if v ≠ segmentVersion then [] else
      match decInt b with
      | none => []
      | some (n, b) => readParts n.toNat b

/-- list.go:1920-2006 `RestoreList` with a new ID: the list, or that it fails (`none`), and the writes. A segment is
written when it was read (list.go:1985). Then list.go:733-781 `reindex`, where the old index is the stub. -/
def restoreList (e : Names) (dst : Str) (b : Bytes) : Option Listing × List Write :=
  let ws := newSegs e.scores ((partsOf b).map (Backup.toSeg e.now))
  match Backup.restore e.now e.sch (some dst) e.scores e.index b with
  | some (.ok (l, st)) =>
    let new := (Files.listingOf l).ent
    (some (Files.listingOf l), ws ++ (newSegs new.index st.index.segs ++ ([.head new.index (head st.index)] ++
      (deleteSegs e.sch e.stub [] ++ saveSegments new st))))
  | _ => (none, ws)

/-- backup/restore.go:81-91: an existing list is deleted (manager.go:198-205). -/
def dropOld (e : Names) (db : Db) (dst : Str) : List Effect :=
  match byID db.lists dst with
  | none => []
  | some o => .drop dst :: (deleteAll e.sch db.store o.ent).map .blob

/-- backup/restore.go:58-104, the loop, with the changes it makes in order. `env` has the names for restored list
number `k`. The assignment at backup/restore.go:98 panics. `fuel` is more than the number of bytes. -/
def restoreLoop (pre suf : Str) (replace : Bool) (env : Nat → Names) :
    Nat → Nat → Db → Backup.Result → Bytes → Backup.Outcome × List Effect
  | 0, _, _, _, _ => (.error .decode, [])
  | fuel + 1, k, db, res, b =>
    match decBool b with
    | none => (.error .decode, [])
    | some (false, _) => (.done res, [])
    | some (true, b) =>
      let (v, b) := getVersion b
      if v ≠ Backup.backupListVersion then (.error .version, []) else
      match decStr b with
      | none => (.error .decode, [])
      | some (id, b) =>
        match decBin b with
        | none => (.error .decode, [])
        | some (p, b) =>
          let dst := Backup.dest pre suf id
          if (byID db.lists dst).isSome ∧ replace = false then
            restoreLoop pre suf replace env fuel k db { res with skipped := res.skipped + 1 } b
          else
            let r := restoreList (env k) dst p
            match r.1 with
            | none => (.panic, dropOld (env k) db dst ++ r.2.map .blob)
            | some l =>
              let es := dropOld (env k) db dst ++ (r.2.map .blob ++ [.put l])
              let t := restoreLoop pre suf replace env fuel (k + 1) (applyAll db es)
                { res with restored := res.restored + 1 } b
              (t.1, es ++ t.2)

/-- api/multilist.go:410-480 `Restore` with backup/restore.go:41-108: how it ends, and the changes. -/
def restoreSet (pre suf : Str) (replace : Bool) (env : Nat → Names) (db : Db) (b : Bytes) :
    Backup.Outcome × List Effect :=
  restoreLoop pre suf replace env (b.length + 1) 0 db {} b

/-- The server after restoring a set. -/
def restored (pre suf : Str) (replace : Bool) (env : Nat → Names) (db : Db) (b : Bytes) : Db :=
  applyAll db (restoreSet pre suf replace env db b).2

end RankDB.Server

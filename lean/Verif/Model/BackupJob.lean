import Verif.Model.Backup
/-
Model of backup jobs: backup/job.go `Request.Start` with cancelling, with destinations that fail, and with the
status that is reported; backup/file, backup/reader, backup/server and backup/s3 as destinations.
-/
namespace RankDB.BackupJob
open Wire Backup

/-- What happens to the bytes that a job writes. `fault n` is about the `n`-th write to the compressor: `some k` is an
error after `k` of its bytes were taken. `keeps = some k`: of the bytes given to the compressor only those that stand
for the first `k` ones reach the place of the backup, because of an error when the compressor or the destination is
closed (backup/job.go:189, 196: errors of `Close` are dropped), or because the request to the other server is
cancelled by `job.cancel()` at backup/job.go:179 (backup/server/rankdb.go:52, 77). The bytes are counted before
compression: of a truncated compressed stream a prefix of the data can be read. -/
inductive Dst
  /-- `Save` returns an error (backup/job.go:184-188). -/
  | refused
  /-- A file (backup/file/file.go:21-23), a download (backup/reader/reader.go:31-33) or another server
  (backup/server/rankdb.go:47-60). -/
  | direct (fault : Nat → Option Nat) (keeps : Option Nat)
  /-- An upload (backup/s3/s3.go:35-59) that returns without error. The pipe is only closed by the reader when the
  upload fails, so that no write fails. -/
  | uploaded
  /-- An upload that fails: there is no object. -/
  | uploadFailed (fault : Nat → Option Nat)

/-- Writes that fail. -/
def Dst.fault : Dst → Nat → Option Nat
  | .direct f _, n => f n
  | .uploadFailed f, n => f n
  | _, _ => none

/-- The writers of a job: `buf` is the buffer of the MessagePack writer, `given` what it has given to the compressor.
The compressor reports an error again for every later write (`broken`). -/
structure Sink where
  buf : Bytes := []
  given : Bytes := []
  writes : Nat := 0
  broken : Bool := false
deriving DecidableEq, Repr

/-- A write to the compressor, and if it succeeds. A write that fails has not taken all bytes. -/
def Sink.write (d : Dst) (s : Sink) (p : Bytes) : Sink × Bool :=
  if s.broken then (s, false) else
  match d.fault s.writes with
  | none => ({ s with given := s.given ++ p, writes := s.writes + 1 }, true)
  | some k => ({ s with given := s.given ++ p.dropLast.take k, broken := true }, false)

/-- `msgp.Writer.Flush`: nothing is done when the buffer is empty. -/
def Sink.flush (d : Dst) (s : Sink) : Sink × Bool :=
  if s.buf = [] then (s, true) else
  let r := s.write d s.buf
  if r.2 then ({ r.1 with buf := [] }, true) else (r.1, false)

/-- `msgp.Writer.Write` with a buffer of `cap` bytes: what fits is buffered, what is larger than the buffer is passed
on. The head and the content of a string are one write here; this only changes how the bytes are divided into
writes. -/
def Sink.put (cap : Nat) (d : Dst) (s : Sink) (p : Bytes) : Sink × Bool :=
  if s.buf.length + p.length ≤ cap then ({ s with buf := s.buf ++ p }, true) else
  let r := s.flush d
  if r.2 then
    if cap < p.length then r.1.write d p else ({ r.1 with buf := p }, true)
  else (r.1, false)

/-- Writes until one fails (backup/job.go:267-281). -/
def Sink.putAll (cap : Nat) (d : Dst) (s : Sink) : List Bytes → Sink × Bool
  | [] => (s, true)
  | p :: ps =>
    let r := s.put cap d p
    if r.2 then r.1.putAll cap d ps else (r.1, false)

/-- The parts of a record (backup/job.go:267-281). -/
def parts (id : Str) (payload : Bytes) : List Bytes :=
  [encBool true, encUint backupListVersion, encStr id, encBin payload]

/-- The keys of `Status.Errors`. List IDs and the fixed strings are kept apart here. -/
inductive Key
  | list (id : Str)
  | saver
  | finalizing
  | delayed
deriving DecidableEq, Repr

/-- backup/job.go:80-99 `Status`, without times, size and the kind of the destination. -/
structure Report where
  lists : Nat
  listsDone : Nat := 0
  success : List Str := []
  errors : List Key := []
  cancelled : Bool := false
  done : Bool := false
deriving DecidableEq, Repr

/-- What a job meets: `cancelled t` tells if the job is cancelled when it looks before the `t`-th list, `payload t id`
is the backup of a list at that time: outer `none` if there is no such list, inner `none` if its backup fails. -/
structure Env where
  cancelled : Nat → Bool
  payload : Nat → Str → Option (Option Bytes)
  dst : Dst

/-- backup/job.go:204-236: the loop over the lists. -/
def loop (cap : Nat) (e : Env) : Nat → List Str → Sink × Report → Sink × Report
  | _, [], j => j
  | t, id :: ids, (s, r) =>
    if e.cancelled t then (s, { r with cancelled := true }) else
    match e.payload t id with
    | some (some p) =>
      let w := s.putAll cap e.dst (parts id p)
      if w.2 then
        loop cap e (t + 1) ids (w.1, { r with success := r.success ++ [id], listsDone := r.listsDone + 1 })
      else loop cap e (t + 1) ids (w.1, { r with errors := r.errors ++ [.list id] })
    | _ => loop cap e (t + 1) ids (s, { r with errors := r.errors ++ [.list id] })

/-- backup/job.go:237-243: the end of the stream. The error of `Flush` is dropped (msgppool.go:69-71). A cancelled job
returns before (backup/job.go:210): what is in the buffer is dropped by `Close` (msgppool.go:76-80). -/
def finish (cap : Nat) (e : Env) (j : Sink × Report) : Sink × Report :=
  if j.2.cancelled then j else
  let w := j.1.put cap e.dst (encBool false)
  let r := if w.2 then j.2 else { j.2 with errors := j.2.errors ++ [.finalizing] }
  ((w.1.flush e.dst).1, r)

/-- What is found at the place of the backup, before compression. -/
def Dst.arrived : Dst → Bytes → Bytes
  | .refused, _ => []
  | .direct _ none, b => b
  | .direct _ (some k), b => b.take k
  | .uploaded, b => b
  | .uploadFailed _, _ => []

/-- backup/job.go:124-248 `Start`, from the start of the goroutine to its end: what is found at the destination, and
the status in the end (backup/job.go:162-181). `cap` is the size of the buffer of the MessagePack writer. -/
def run (cap : Nat) (e : Env) (lists : List Str) : Bytes × Report :=
  match e.dst with
  | .refused => ([], { lists := lists.length, errors := [.saver], done := true })
  | d =>
    let j := finish cap e (loop cap e 0 (Catalogue.sortIDs lists) ({}, { lists := lists.length }))
    let r := match d with
      | .uploadFailed _ => { j.2 with errors := j.2.errors ++ [Key.delayed] }
      | _ => j.2
    (d.arrived j.1.given, { r with done := true })

/-! ### Asking for the status while a job runs -/

/-- What happens to the map `Status.Errors` of a job: the job stores an error (backup/job.go:208-225), and a request for
the status encodes the map it got from `Status` (backup/job.go:32-43 copies the struct, not the map) after the lock has
been released (api/backup.go:41-52, api/morph/backup.go:30-47). -/
inductive Access
  | store (k : Key)
  | encodeStarts (i : Nat)
  | encodeEnds (i : Nat)
deriving DecidableEq, Repr

/-- The requests that are encoding the map, or `none` when the process has been ended by the runtime, which ends it
when a map is written while it is iterated ("concurrent map iteration and map write"). -/
def access : Option (List Nat) → Access → Option (List Nat)
  | none, _ => none
  | some rs, .store _ => if rs = [] then some rs else none
  | some rs, .encodeStarts i => some (i :: rs)
  | some rs, .encodeEnds i => some (rs.erase i)

end RankDB.BackupJob

import Verif.Model.ListFile
import Verif.Model.Saver
/-
Model of a server that is started, saves its catalogue and is stopped, again and again: api/rankdb.go:252-273
`StartServer`, manager.go:161-183 `LoadLists`, and the saver of `Model/Saver`. Reads and writes can fail.

Simplifications: the storage of the catalogue and its backup are two cells. What requests do to the catalogue is any
change. If `StartServer` returns an error the process ends (cmd/rankdb/main.go:45-47); the jobs that were already
started do nothing until their first tick.
-/
namespace RankDB.Startup
open Wire Stored

/-- The result of reading a blob: there is none (`blobstore.ErrBlobNotFound`), another error, or the blob. -/
inductive Read
  | missing
  | failed
  | found (b : Bytes)

/-- How loading ended. -/
inductive Loaded
  | ok
  | missing
  | failed
deriving DecidableEq, Repr

/-- lists.go:146-226 `Lists.Load`; none of its errors is `blobstore.ErrBlobNotFound`. -/
def parse (c : Compression) (old : List ListRec) (b : Bytes) : List ListRec × Loaded :=
  match loadLists c old b with
  | (ls, none) => (ls, .ok)
  | (ls, some _) => (ls, .failed)

/-- Reading a blob, and `Load`. -/
def readAndParse (c : Compression) (old : List ListRec) : Read → List ListRec × Loaded
  | .missing => (old, .missing)
  | .failed => (old, .failed)
  | .found b => parse c old b

/-- manager.go:161-183 `LoadLists` of a new process. `backup` is `none` if there is no storage for backups. -/
def load (c : Compression) (primary : Read) (backup : Option Read) : List ListRec × Loaded :=
  let first := readAndParse c [] primary
  match first.2, backup with
  | .ok, _ => first
  | _, none => first
  | _, some r => readAndParse c first.1 r

/-- api/rankdb.go:256-273: the lists of the server, or `none` if it does not start. If the error is
`blobstore.ErrBlobNotFound` there are no lists. -/
def startServer (c : Compression) (primary : Read) (backup : Option Read) : Option (List ListRec) :=
  match load c primary backup with
  | (ls, .ok) => some ls
  | (_, .missing) => some []
  | (_, .failed) => none

/-- The two stored catalogues, the catalogue in memory (`none` if the server is not running), and the counter of the
saver. -/
structure World where
  primary : Option Bytes := none
  backup : Option Bytes := none
  lists : Option (List ListRec) := none
  last : Nat := 0

/-- The configuration. -/
structure Config where
  lib : Compression
  compress : Bool
  saver : Saver.Config

/-- api/rankdb.go:188-189: there are backups. -/
def Config.backups (c : Config) : Bool := c.saver.hasBackup && decide (c.saver.every > 0)

/-- What happens. -/
inductive Event
  /-- requests change the catalogue -/
  | change (ls : List ListRec)
  /-- the saver saves; which stores accept a write -/
  | tick (backupOK primaryOK : Bool)
  /-- the server is shut down -/
  | shutdown (primaryOK : Bool)
  /-- the process is killed -/
  | kill
  /-- the server is started; which reads succeed -/
  | start (primaryOK backupOK : Bool)

/-- A read of a stored catalogue. -/
def read (ok : Bool) (b : Option Bytes) : Read :=
  if ok then match b with
    | none => .missing
    | some b => .found b
  else .failed

/-- The saver in this world. -/
def World.saver (w : World) : Saver.State := { last := w.last, primary := w.primary, backup := w.backup }

/-- One event. -/
def step (c : Config) (w : World) : Event → World
  | .change ls => { w with lists := w.lists.map fun _ => ls }
  | .tick bOK pOK =>
    match w.lists with
    | none => w
    | some ls =>
      let s := Saver.step c.saver w.saver (.tick (saveLists c.lib c.compress ls) bOK pOK)
      { w with primary := s.primary, backup := s.backup, last := s.last }
  | .shutdown pOK =>
    match w.lists with
    | none => w
    | some ls =>
      let s := Saver.step c.saver w.saver (.shutdown (saveLists c.lib c.compress ls) pOK)
      { w with primary := s.primary, backup := s.backup, lists := none }
  | .kill => { w with lists := none }
  | .start pOK bOK =>
    match w.lists with
    | some _ => w
    | none =>
      { w with
        lists := startServer c.lib (read pOK w.primary)
          (if c.backups then some (read bOK w.backup) else none)
        last := 0 }

/-- Events one after the other. -/
def run (c : Config) (w : World) (es : List Event) : World := es.foldl (step c) w

end RankDB.Startup

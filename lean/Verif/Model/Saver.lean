import Verif.Model.Wire
/-
Model of manager.go:59-96 `StartIntervalSaver` and manager.go:186-200 `SaveLists`. The list file itself is
modelled in Model/ListFile; here it is a sequence of bytes.
-/
namespace RankDB.Saver
open Wire (Bytes)

/-- `m.Backup != nil` and `m.BackupEvery`. -/
structure Config where
  hasBackup : Bool
  every : Nat
deriving DecidableEq, Repr

/-- A tick of manager.go:72-84 or the shutdown of 85-93: the list file at that time and which of the two
stores accept a write. -/
inductive Event
  | tick (file : Bytes) (backupOK primaryOK : Bool)
  | shutdown (file : Bytes) (primaryOK : Bool)
deriving DecidableEq, Repr

/-- The counter `lastBackup`, the two stored files, and whether the goroutine has ended. -/
structure State where
  last : Nat := 0
  primary : Option Bytes := none
  backup : Option Bytes := none
  stopped : Bool := false
deriving DecidableEq, Repr

/-- manager.go:75: whether this tick writes a backup. -/
def due (c : Config) (s : State) : Bool := c.hasBackup && decide (c.every > 0) && decide (s.last ≥ c.every)

/-- manager.go:186-200 `SaveLists`: the backup is written first; if that fails the file is written all the
same. -/
def saveLists (backup : Bool) (file : Bytes) (backupOK primaryOK : Bool) (s : State) : State :=
  let s := if backup && backupOK then { s with backup := some file } else s
  if primaryOK then { s with primary := some file } else s

/-- manager.go:70-95: one round of the loop. -/
def step (c : Config) (s : State) : Event → State
  | .tick file bOK pOK =>
    if s.stopped then s
    else
      let backup := due c s
      let s := if backup then { s with last := 0 } else s
      let s := saveLists backup file bOK pOK s
      { s with last := s.last + 1 }
  | .shutdown file pOK => if s.stopped then s else { saveLists false file false pOK s with stopped := true }

/-- The loop. -/
def run (c : Config) (s : State) (evs : List Event) : State := evs.foldl (step c) s

end RankDB.Saver

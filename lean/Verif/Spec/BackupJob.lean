import Verif.Model.BackupJob
/-
Specification for backup jobs.
-/
namespace RankDB.Spec
open Wire Backup BackupJob

/-- The destination takes everything: no write fails and nothing is lost when it is closed. -/
def TakesAll (d : Dst) : Prop := d = .uploaded ∨ ∃ f, d = .direct f none ∧ ∀ n, f n = none

/-- The status that a user reads as success. -/
def SaysSuccess (r : Report) : Prop := r.done = true ∧ r.cancelled = false ∧ r.errors = []

/-- Restoring a set only gives an error and no list. -/
def NothingToRestore (b : Bytes) : Prop :=
  ∀ {α : Type} (pre suf : Str) (replace : Bool) (one : Str → Bytes → Option α) (db : Str → Option α),
    ∃ err, restoreSet pre suf replace one db b = (db, .error err)

/-- The `t`-th list the job looks at, with its backup at that time. -/
def backedUp (pay : Nat → Str → Bytes) (ids : List Str) : List (Str × Bytes) := ids.mapIdx fun t id => (id, pay t id)

/-- The number of bytes of a set before compression. -/
def setSize (items : List (Str × Bytes)) : Nat := (items.flatMap fun i => record i.1 i.2).length + 1

end RankDB.Spec

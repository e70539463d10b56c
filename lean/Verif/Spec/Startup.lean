import Verif.Model.Startup
import Verif.Spec.Stored
/-
Specification of starts: the catalogue that was saved last is the one that a start finds.
-/
namespace RankDB.Spec
open Stored Startup

/-- What operators rely on: the catalogue in memory, if the server is running, and the one that was saved last, if any
was saved. -/
structure Remembered where
  lists : Option (List ListRec) := none
  saved : Option (List ListRec) := none

/-- A catalogue as it is after a start: metadata that were not given are empty (C35). -/
def loaded (ls : List ListRec) : List ListRec := ls.map fun l => { l with metadata := some (l.metadata.getD []) }

/-- One event: a save that succeeds is remembered; a start brings back what was saved last, or fails. -/
def Remembered.step (s : Remembered) : Event → Remembered
  | .change ls => { s with lists := s.lists.map fun _ => ls }
  | .tick _ ok => if ok then { s with saved := s.lists.or s.saved } else s
  | .shutdown ok => { lists := none, saved := if ok then s.lists.or s.saved else s.saved }
  | .kill => { s with lists := none }
  | .start ok _ =>
    match s.lists with
    | some _ => s
    | none => { s with lists := if ok then some ((s.saved.map loaded).getD []) else none }

def Remembered.run (s : Remembered) (es : List Event) : Remembered := es.foldl Remembered.step s

/-- Catalogues that fit their stored form: strings are not too long, every list and every metadata key is there once. -/
def Fitting (es : List Event) : Prop :=
  ∀ ls, Event.change ls ∈ es → (∀ l ∈ ls, l.WF) ∧ (ls.map (·.id)).Nodup

/-- The storage can be read at every start. -/
def Readable (es : List Event) : Prop := ∀ p b, Event.start p b ∈ es → p = true ∧ b = true

/-- The storage accepts the catalogue whenever it accepts a backup. -/
def Written (es : List Event) : Prop := ∀ b p, Event.tick b p ∈ es → b = true → p = true

/-- Between two stops the saver runs at most `n` times, `k` times already before the first event. -/
def ShortRuns (n : Nat) : Nat → List Event → Prop
  | _, [] => True
  | k, .tick _ _ :: es => k < n ∧ ShortRuns n (k + 1) es
  | _, .shutdown _ :: es | _, .kill :: es => ShortRuns n 0 es
  | k, _ :: es => ShortRuns n k es

/-- The catalogue that was saved last, after one more event. -/
def nextSaved (w : World) (last : Option (List ListRec)) : Event → Option (List ListRec)
  | .tick _ true | .shutdown true => w.lists.or last
  | _ => last

/-- The catalogue of the last backup, after one more event. -/
def nextBackup (c : Startup.Config) (w : World) (last : Option (List ListRec)) : Event → Option (List ListRec)
  | .tick b _ => if Saver.due c.saver w.saver && b then w.lists.or last else last
  | _ => last

/-- The catalogue that was saved last, whatever reads and writes fail. -/
def lastSaved (c : Startup.Config) (w : World) (last : Option (List ListRec)) : List Event → Option (List ListRec)
  | [] => last
  | e :: es => lastSaved c (step c w e)
      (nextSaved w last e) es

/-- The catalogue of the last backup. -/
def lastBackup (c : Startup.Config) (w : World) (last : Option (List ListRec)) : List Event → Option (List ListRec)
  | [] => last
  | e :: es => lastBackup c (step c w e)
      (nextBackup c w last e) es

end RankDB.Spec

import Verif.Model.Faults
/-
Specification of repeated requests (C111): a client that got an error, or no answer, sends the same request again.
-/
namespace RankDB.Spec
open Faults

/-- One attempt: what fails during it, when it happens and the order of the goroutines. -/
structure Attempt where
  faults : Faults
  now : Nat
  sch : Sched

/-- The list after the same deletion was attempted several times. -/
def deleteTries (ids : List Nat) (tries : List Attempt) (st : ListState) : ListState :=
  tries.foldl (fun st t => (delete t.faults t.now t.sch st ids).2) st

/-- The list after the same update was attempted several times. -/
def updateTries (es : List Element) (tries : List Attempt) (st : ListState) : ListState :=
  tries.foldl (fun st t => (update t.faults t.now t.sch st es).2) st

/-- During the attempt the elements of the score segments can be read and everything can be saved. Segments of the
index may be unreadable, the client may go away and the results may be lost. -/
def Attempt.Stores (t : Attempt) : Prop :=
  (∀ i k, t.faults.readScores i k = false) ∧ (∀ i, t.faults.saveScores i = false) ∧ ∀ i, t.faults.saveIndex i = false

end RankDB.Spec

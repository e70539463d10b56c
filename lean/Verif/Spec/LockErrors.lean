import Verif.Model.LockErrors
import Verif.Spec.Locks
/-
Notions for the properties of calls on a list that fail.
-/
namespace RankDB.Locks

/-- The failures after which a lock remains held or is released twice, see the properties below. -/
def Failure.Clean : Failure → Prop
  | .loadUnsaved wr _ _ => wr = true
  | .backupUnwritten _ => False
  | .splitUnsaved .. => False
  | .splitIndexUnsaved .. => False
  | .reindexUnsaved .. => False
  | .populateNoIndex _ => False
  | .repair stat .. => stat ≠ .failed
  | .repairPanics _ => False
  | .repairNoIndex .. => False
  | _ => True

/-- A request that is fine: a simple operation that goes through, a clean failure, or the saving of the
catalogue. -/
def Request.Clean : Request → Prop
  | .done op => op.Simple
  | .fails f => f.Clean
  | .saveLists => True

/-- The next thing some goroutine does is to release a lock it does not hold. In Go that is
"fatal error: sync: unlock of unlocked mutex", which ends the server, or it takes the lock away from somebody
else. -/
def Crash (st : State) : Prop :=
  ∃ c ∈ st, (∃ l w p, c.main.prog = .act (.rel l w) :: p ∧ (l, w) ∉ c.main.own) ∨
    ∃ k ∈ c.kids, ∃ l w p, k.prog = .rel l w :: p ∧ (l, w) ∉ k.own

/-- The next thing some goroutine does is to release a lock that nobody holds: the server ends with
"fatal error: sync: Unlock of unlocked RWMutex". -/
def Fatal (st : State) : Prop :=
  ∃ c ∈ st, ∃ l w p, c.main.prog = .act (.rel l w) :: p ∧ ∀ w', (l, w') ∉ st.flatMap held

/-- An action that has to wait while somebody else holds the lock `l`, for writing if `w`. -/
def waitsFor (l : Lock) (w : Bool) : Act → Bool
  | .acq l' w' => l' == l && (w || w')
  | .load l' _ => l' == l
  | .rel _ _ => false

/-- A call has to wait for it at some time, itself or in a goroutine. -/
def Needs (l : Lock) (w : Bool) (p : List Instr) : Bool :=
  p.any fun x =>
    match x with
    | .act a => waitsFor l w a
    | .par ps => ps.any (·.any (waitsFor l w))
    | _ => false

end RankDB.Locks

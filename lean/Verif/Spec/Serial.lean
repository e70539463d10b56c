import Verif.Model.Serial
import Verif.Spec.History
import Verif.Spec.Locks
/-
What it means that calls take effect one after the other.
-/
namespace RankDB.Serial
open Spec

/-- The steps of a job alone. -/
inductive Job.Steps (j : Job) (v : j.Vars) (l : ListState) : j.Vars → ListState → Prop
  | refl : Job.Steps j v l v l
  | step {v' v'' : j.Vars} {l' l'' : ListState} (h : Job.Steps j v l v' l') (hs : j.step v' l' v'' l'') :
      Job.Steps j v l v'' l''

/-- The job, alone from its beginning to its end, leads from `l` to `l'`. -/
def Job.Alone (j : Job) (l l' : ListState) : Prop := ∃ v, j.Steps j.vars l v l' ∧ j.done v

/-- The jobs, one after the other, lead from `l` to `l'`. -/
inductive OneByOne : List Job → ListState → ListState → Prop
  | nil (l : ListState) : OneByOne [] l l
  | cons {j : Job} {js : List Job} {l l' l'' : ListState} (h : j.Alone l l') (ht : OneByOne js l' l'') :
      OneByOne (j :: js) l l''

/-- The calls that change a list. -/
def Changes : Locks.Op → Prop
  | .insert .. | .updateElements .. | .deleteElements .. | .split .. | .reindex .. | .populate .. | .deleteAll .. => True
  | .repair stat .. => stat ≠ .failed
  | _ => False

/-- Calls that do not change the list have jobs that cannot make a step. -/
def Fits (calls : List (Locks.Op × Job)) : Prop :=
  ∀ p ∈ calls, Changes p.1 ∨ ∀ v l v' l', ¬ p.2.step v l v' l'

/-- The calls that have begun to change the list have made all their changes. -/
def World.Settled (w : World) : Prop := ∀ i ∈ w.order, ∀ j, w.jobs[i]? = some j → j.done j.vars

/-- A call has returned: it has gone through its program and made its changes. -/
def World.Returned (w : World) (i : Nat) : Prop :=
  (∃ c, w.locks[i]? = some c ∧ c.Finished) ∧ ∃ j, w.jobs[i]? = some j ∧ j.done j.vars

/-- The job does what the operation of the specification does. -/
def Job.Does (j : Job) (op : Op) : Prop := ∀ l l', j.Alone l l' → op.run l = some l'

/-- What operations mean for a map, one after the other. -/
def meanings (m : ElementMap) (ops : List Op) : ElementMap := ops.foldl Op.meaning m

/-- Updates and deletions with arguments that are allowed for all lists. -/
def PutOrDelete : Op → Prop
  | .update now _ es => (∀ e ∈ es, Storable e) ∧ DistinctIDs es ∧ now < 2 ^ 32 - 1
  | .delete _ _ ids => ∀ v ∈ ids, v < 2 ^ 64
  | _ => False

/-- The elements that an operation names. -/
def Names (id : Nat) : Op → Prop
  | .update _ _ es => ∃ e ∈ es, e.id = id
  | .delete _ _ ids => id ∈ ids
  | _ => False

end RankDB.Serial

import Verif.Model.LazyLife
import Verif.Spec.LazySaver
/-
What callers of the write-behind store rely on.
-/
namespace RankDB.Spec.LazyLife
open RankDB.LazyLife

/-- The state is reached by some schedule of the goroutines. -/
def Reached (o : Opts) (store : MaxSize.Store) (calls : List (Str × Str × Option Wire.Bytes)) (as : List Act) (w : Life) : Prop :=
  execAll o (start o store calls) as = some w

/-- No call is between its look at `shuttingDown` and its change of the queue when `Shutdown` is called: whenever the
first step of `Shutdown` is made, no call has looked and not yet changed the queue. -/
def NoLateCall (o : Opts) (store : MaxSize.Store) (calls : List (Str × Str × Option Wire.Bytes)) (as : List Act) : Prop :=
  ∀ a b w, as = a ++ Act.stop :: b → Reached o store calls a w → w.stop = .before → ∀ s k v, Caller.checked s k v ∉ w.callers

/-- The call has not begun, or has returned. -/
def Out : Caller → Prop
  | .idle .. | .refused | .done => True
  | _ => False

/-- Nothing is left to do: all calls that have begun have returned, everything has been written, and `Shutdown` has
returned if it was called. -/
structure AtRest (w : Life) : Prop where
  calls : ∀ c ∈ w.callers, Out c
  queue : w.base.queue = []
  stop : w.stop = .before ∨ w.stop = .finished

/-- No goroutine can make a step. -/
def Stuck (o : Opts) (w : Life) : Prop := ∀ a, exec o w a = none

/-- A step of a goroutine that is already at work: not the beginning of a call, and a step of `Shutdown` only if it was
called. Writes to the store below end as `ok` says. -/
def Own (ok stopped : Bool) : Act → Prop
  | .check _ => False
  | .write _ b => b = ok
  | .stop => stopped = true
  | _ => True

/-- The calls that have added an item and still wait. -/
def waiters (w : Life) : Nat := (w.callers.filter fun c => decide (c = .added ∨ c = .waiting)).length

/-- The change that a step makes to the queue for a call. -/
def change (w : Life) : Act → List LazySaver.Label
  | .put i => match w.callers[i]? with
    | some (.checked s k b) => [.put s k b]
    | _ => []
  | _ => []

/-- The changes that calls made to the queue, in their order. -/
def puts (o : Opts) : Life → List Act → List LazySaver.Label
  | _, [] => []
  | w, a :: as => change w a ++ match exec o w a with
    | some w' => puts o w' as
    | none => []

end RankDB.Spec.LazyLife

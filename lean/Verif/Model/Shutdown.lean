/-
Model of how the server lets requests in and how it stops: api/shutdown.go (`ShutdownMiddleware`, `UpdateRequest`),
api/services.go:32-35, api/rankdb.go:128-136 and 226-272, and manager.go:56-101 `StartIntervalSaver`. Any number of
requests are handled at once; what happens is a list of events in any order.

Simplifications: what a request does to the catalogue is a list of changes of any type `α`, made one at a time, and the
catalogue is the list of all changes that were made. The library github.com/klauspost/shutdown2 is not in the repository
and is modelled by its documentation: `Lock` fails once a shutdown was requested; the first stage ends when all locks are
returned and its functions have returned, or after its timeout; the three stages after it follow one after the other, and
each ends when its functions have returned, or after its timeout. Saving succeeds. A job for a backup does not change
the catalogue and is not modelled.
-/
namespace RankDB.Shutdown

/-- The answers: done; an error of the handler (also a panic, which `middleware.Recover` turns into an error);
api/shutdown.go:19 `errShutdown`; api/shutdown.go:20 `errCancelled`. -/
inductive Answer
  | ok
  | failed
  | restarting
  | cancelled
deriving DecidableEq, Repr

/-- Where the handling of a request is. -/
inductive Stage (α : Type)
  /-- before api/shutdown.go:27 -/
  | entering
  /-- has the lock; waits at api/shutdown.go:66-77 for a token -/
  | gate
  /-- in its handler, behind `UpdateRequest` -/
  | working (todo : List α)
  /-- the handler returns; before `defer done()` -/
  | returning
  /-- before `defer lock()`, api/shutdown.go:31 -/
  | leaving
  /-- no longer handled -/
  | gone
deriving DecidableEq, Repr

/-- A request: whether its handler calls `UpdateRequest`, the changes that it is to make, where it is, and the answer,
if one was sent. -/
structure Req (α : Type) where
  update : Bool
  plan : List α
  stage : Stage α := .entering
  answer : Option Answer := none
deriving DecidableEq, Repr

/-- The stages of a shutdown. -/
inductive Phase
  /-- no shutdown was requested -/
  | serving
  /-- `shutdown.StagePS`: waits for the locks -/
  | draining
  /-- `shutdown.Stage1`: pruner and splitter stop -/
  | jobs
  /-- `shutdown.Stage2`: the list saver saves -/
  | saving
  /-- `shutdown.Stage3`: the stores are closed -/
  | closing
  /-- the process has ended -/
  | ended
deriving DecidableEq, Repr

/-- The server. -/
structure World (α : Type) where
  reqs : List (Req α) := []
  /-- the tokens in `updateBucket` -/
  free : Nat := 0
  phase : Phase := .serving
  /-- `shutdownStarted` is closed -/
  announced : Bool := false
  /-- all changes that were made: by which request, and the change -/
  made : List (Nat × α) := []
  /-- the catalogue that was saved last -/
  saved : Option (List (Nat × α)) := none
  /-- goroutines that go on after their request was answered -/
  adrift : List (Nat × List α) := []
deriving DecidableEq, Repr

/-- api/rankdb.go:226-228: `config.MaxUpdates`; `none` if there is no limit (0 or less). -/
structure Config where
  limit : Option Nat
deriving DecidableEq, Repr

/-- A step in the handling of one request. -/
inductive Move
  /-- it asks for its lock -/
  | lock
  /-- `UpdateRequest` gets a token, or there is no limit -/
  | take
  /-- `UpdateRequest` sees that the request was cancelled -/
  | cancel
  /-- `UpdateRequest` sees that a shutdown has started -/
  | refuse
  /-- the handler makes its next change -/
  | change
  /-- the handler, all of whose changes are made, answers -/
  | answer
  /-- the handler fails or panics -/
  | fail
  /-- `onEveryList` (api/multilist.go:480-483) returns before all lists are done because the request was cancelled; the
  goroutines that it started go on -/
  | abandon
  /-- `defer done()` -/
  | release
  /-- `defer lock()` -/
  | unlock
deriving DecidableEq, Repr

/-- What happens. -/
inductive Event (α : Type)
  /-- a request arrives -/
  | arrive (update : Bool) (plan : List α)
  /-- request `i` is handled further -/
  | move (i : Nat) (m : Move)
  /-- a goroutine that goes on after its request makes its next change, or ends -/
  | late
  /-- the list saver saves at an interval -/
  | tick
  /-- a shutdown is requested -/
  | signal
  /-- api/services.go:33-35 closes `shutdownStarted` -/
  | announce
  /-- a stage of the shutdown ends because its work is done -/
  | advance
  /-- a stage of the shutdown ends because of its timeout -/
  | timeout
deriving DecidableEq, Repr

variable {α : Type}

/-- Whether a request holds a lock. -/
def Req.locked (r : Req α) : Bool :=
  match r.stage with
  | .entering | .gone => false
  | _ => true

/-- Whether the handler of a request is behind `UpdateRequest` and has not called `done`. -/
def Req.admitted (r : Req α) : Bool :=
  r.update && match r.stage with
    | .working _ | .returning => true
    | _ => false

/-- What a step in the handling of a request does: the request afterwards, the tokens in the bucket, a change of the
catalogue, and what is left to goroutines. -/
structure Effect (α : Type) where
  req : Req α
  free : Nat
  change : Option α := none
  left : Option (List α) := none

/-- One step in the handling of a request; `none` if it cannot happen now.

* `lock`: api/shutdown.go:27-31: the lock, or the answer "Server restarting". A handler that does not call
  `UpdateRequest` starts to work.
* `take`, `cancel`, `refuse`: api/shutdown.go:65-80 `UpdateRequest`. Without a limit it returns at once.
* `change`, `answer`, `fail`, `abandon`: the handler.
* `release`: api/shutdown.go:71-73, called by `defer` in the handlers that called `UpdateRequest`.
* `unlock`: api/shutdown.go:31. -/
def move (c : Config) (w : World α) (r : Req α) (m : Move) : Option (Effect α) :=
  match m, r.stage with
  | .lock, .entering =>
    if w.phase = .serving then some { req := { r with stage := if r.update then .gate else .working r.plan }, free := w.free }
    else some { req := { r with stage := .gone, answer := some .restarting }, free := w.free }
  | .take, .gate =>
    match c.limit with
    | none => some { req := { r with stage := .working r.plan }, free := w.free }
    | some _ => if 0 < w.free then some { req := { r with stage := .working r.plan }, free := w.free - 1 } else none
  | .cancel, .gate =>
    if c.limit.isSome then some { req := { r with stage := .leaving, answer := some .cancelled }, free := w.free } else none
  | .refuse, .gate =>
    if c.limit.isSome && w.announced then some { req := { r with stage := .leaving, answer := some .restarting }, free := w.free }
    else none
  | .change, .working (a :: todo) => some { req := { r with stage := .working todo }, free := w.free, change := some a }
  | .answer, .working [] => some { req := { r with stage := .returning, answer := some .ok }, free := w.free }
  | .fail, .working _ => some { req := { r with stage := .returning, answer := some .failed }, free := w.free }
  | .abandon, .working todo =>
    some { req := { r with stage := .returning, answer := some .cancelled }, free := w.free, left := some todo }
  | .release, .returning =>
    some { req := { r with stage := .leaving }, free := if r.update && c.limit.isSome then w.free + 1 else w.free }
  | .unlock, .leaving => some { req := { r with stage := .gone }, free := w.free }
  | _, _ => none

/-- What a step in the handling of request `i` does to the server. -/
def put (w : World α) (i : Nat) (f : Effect α) : World α :=
  { w with
    reqs := w.reqs.set i f.req
    free := f.free
    made := w.made ++ f.change.toList.map fun a => (i, a)
    adrift := w.adrift ++ f.left.toList.map fun t => (i, t) }

/-- The next stage of a shutdown. -/
def Phase.next : Phase → Phase
  | .serving => .serving
  | .draining => .jobs
  | .jobs => .saving
  | .saving => .closing
  | .closing => .ended
  | .ended => .ended

/-- A stage of the shutdown ends: the first when all locks are returned and `shutdownStarted` is closed, the third when
the lists are saved. Pruner and splitter, and the closing of the stores, end by themselves. -/
def advance (w : World α) : Option (World α) :=
  match w.phase with
  | .serving | .ended => none
  | .draining => if w.announced && w.reqs.all (fun r => !r.locked) then some { w with phase := .jobs } else none
  | .saving => some { w with phase := .closing, saved := some w.made }
  | .jobs => some { w with phase := .saving }
  | .closing => some { w with phase := .ended }

/-- One event; `none` if it cannot happen now. Nothing happens in a process that has ended. -/
def step (c : Config) (w : World α) (e : Event α) : Option (World α) :=
  if w.phase = .ended then none else
  match e with
  | .arrive u p => some { w with reqs := w.reqs ++ [{ update := u, plan := if u then p else [] }] }
  | .move i m =>
    match w.reqs[i]? with
    | some r => (move c w r m).map (put w i)
    | none => none
  | .late => match w.adrift with
    | (i, a :: todo) :: rest => some { w with made := w.made ++ [(i, a)], adrift := (i, todo) :: rest }
    | (_, []) :: rest => some { w with adrift := rest }
    | [] => none
  | .tick => match w.phase with
    | .serving | .draining | .jobs => some { w with saved := some w.made }
    | _ => none
  | .signal => if w.phase = .serving then some { w with phase := .draining } else none
  | .announce => if w.phase = .draining && !w.announced then some { w with announced := true } else none
  | .advance => advance w
  | .timeout => match w.phase with
    | .serving => none
    | _ => some { w with phase := w.phase.next }

/-- Events one after the other; `none` if one of them cannot happen. -/
def run (c : Config) (w : World α) : List (Event α) → Option (World α)
  | [] => some w
  | e :: es => (step c w e).bind fun w => run c w es

/-- api/rankdb.go:226-228: a new server. -/
def start (c : Config) : World α := { free := c.limit.getD 0 }

end RankDB.Shutdown

/-
Model of the fan-out of segment operations to goroutines: tools.go:73-108 `waitErr` and the goroutines of
its callers (segments.go:322-466, 731-834, 918-964, 1128-1220; list.go:1336-1392).
-/
namespace RankDB.FanOut

/-- What a goroutine does that concerns others. Loading and saving of segments is not modelled here. -/
inductive Act
  /-- `b.Get()` -/
  | get
  /-- `Release()` of the token -/
  | put
  /-- `errch <- err` -/
  | send (e : Nat)
  /-- `resch <- res` -/
  | result
  /-- `wg.Done()` -/
  | done
deriving DecidableEq, Repr

/-- The value returned by `waitErr`: nil, the error of the context, or the collected errors. -/
inductive Ret
  | nil
  | ctxErr
  | errors (es : List Nat)
deriving DecidableEq, Repr

/-- Where the caller of `waitErr` is: in the loop of tools.go:80-98, in the inner loop of 84-91, or back
from `waitErr`. -/
inductive Main
  | collecting (es : List Nat)
  | flushing
  | returned (r : Ret)
deriving DecidableEq, Repr

/-- The goroutines with what they have still to do, the token bucket (`avail` of `tokens` tokens), the error
channel with its capacity, the number of values in the result channel with its capacity, the wait group
counter, whether the error channel is closed, whether the context is cancelled, the caller. `sent`
records all errors sent so far. -/
structure State where
  workers : List (List Act)
  tokens : Nat
  avail : Nat
  errCap : Nat
  errBuf : List Nat := []
  resCap : Nat
  results : Nat := 0
  wg : Nat
  closed : Bool := false
  cancelled : Bool := false
  main : Main := .collecting []
  sent : List Nat := []
deriving DecidableEq, Repr

/-- The caller takes an error from the channel: tools.go:92-96 or 85-90. -/
def Main.take (e : Nat) : Main → Option Main
  | .collecting es => some (.collecting (es ++ [e]))
  | .flushing => some .flushing
  | .returned _ => none

/-- The caller finds the channel closed: tools.go:93-94, 99-107 or 87-89. -/
def Main.finish : Main → Option Main
  | .collecting es => some (.returned (if es = [] then .nil else .errors es))
  | .flushing => some (.returned .ctxErr)
  | .returned _ => none

/-- Replace the program of one goroutine. -/
def State.at (s : State) (pre : List (List Act)) (p : List Act) (post : List (List Act)) : State :=
  { s with workers := pre ++ p :: post }

/-- One step of the goroutines, the caller, or the closing goroutine of tools.go:74-77. -/
inductive Step : State → State → Prop
  | get (s pre p post) (h : s.workers = pre ++ (.get :: p) :: post) (ha : 0 < s.avail) :
      Step s { s.at pre p post with avail := s.avail - 1 }
  | put (s pre p post) (h : s.workers = pre ++ (.put :: p) :: post) (ha : s.avail < s.tokens) :
      Step s { s.at pre p post with avail := s.avail + 1 }
  | result (s pre p post) (h : s.workers = pre ++ (.result :: p) :: post) (ha : s.results < s.resCap) :
      Step s { s.at pre p post with results := s.results + 1 }
  /-- into the buffer of the channel -/
  | send (s pre p post e) (h : s.workers = pre ++ (.send e :: p) :: post) (ha : s.errBuf.length < s.errCap) :
      Step s { s.at pre p post with errBuf := s.errBuf ++ [e], sent := s.sent ++ [e] }
  /-- directly to the caller -/
  | handover (s pre p post e m) (h : s.workers = pre ++ (.send e :: p) :: post) (ha : s.errBuf = [])
      (hm : s.main.take e = some m) : Step s { s.at pre p post with main := m, sent := s.sent ++ [e] }
  | done (s pre p post) (h : s.workers = pre ++ (.done :: p) :: post) :
      Step s { s.at pre p post with wg := s.wg - 1 }
  | close (s) (h : s.wg = 0) (hc : s.closed = false) : Step s { s with closed := true }
  | recv (s e b m) (h : s.errBuf = e :: b) (hm : s.main.take e = some m) :
      Step s { s with errBuf := b, main := m }
  | finish (s m) (h : s.errBuf = []) (hc : s.closed = true) (hm : s.main.finish = some m) :
      Step s { s with main := m }
  /-- tools.go:82-83, `select` may choose this case or another one that is ready -/
  | seeCancel (s es) (h : s.main = .collecting es) (hc : s.cancelled = true) : Step s { s with main := .flushing }

/-- The context is cancelled from outside. -/
inductive Cancel : State → State → Prop
  | mk (s) : Cancel s { s with cancelled := true }

/-- The start: all goroutines have been started and counted in the wait group. -/
def init (progs : List (List Act)) (tokens errCap resCap : Nat) : State :=
  { workers := progs, tokens := tokens, avail := tokens, errCap := errCap, resCap := resCap, wg := progs.length }

/-- Executions with `n` steps of the program, and cancellations at any time. -/
inductive Exec : Nat → State → State → Prop
  | refl (s) : Exec 0 s s
  | step {n s s' s''} (h : Exec n s s') (hs : Step s' s'') : Exec (n + 1) s s''
  | cancel {n s s' s''} (h : Exec n s s') (hs : Cancel s' s'') : Exec n s s''

/-- The end: the caller has returned and all goroutines have ended. -/
def Final (s : State) : Prop := (∃ r, s.main = .returned r) ∧ ∀ p ∈ s.workers, p = []

/-- The programs of goroutines in the code (`held`: has a token): tokens are returned and not asked for while
holding one, there is at most one result, errors and results are sent before `wg.Done`, which is called
once. -/
def wellFormed : Bool → List Act → Bool
  | held, [] => !held
  | held, .get :: p => !held && wellFormed true p
  | held, .put :: p => held && wellFormed false p
  | held, .send _ :: p => wellFormed held p && p.contains .done
  | held, .result :: p => wellFormed held p && p.contains .done && !p.contains .result
  | held, .done :: p => wellFormed held p && p.all fun a => a == .get || a == .put

/-- The errors a program sends. -/
def errorsOf (p : List Act) : List Nat :=
  p.filterMap fun a => match a with
    | .send e => some e
    | _ => none

end RankDB.FanOut

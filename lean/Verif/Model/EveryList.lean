import Verif.Model.Catalogue
/-
Model of api/multilist.go:468-521 `onEveryList`: an operation is applied to many lists by goroutines, at most
`limit` of them at a time.
-/
namespace RankDB.EveryList

/-- What happens with a list: it is not in the catalogue, or the operation returns a result, returns an error
or panics. Values and messages are numbers. -/
inductive Outcome
  | missing
  | ok (res : Nat)
  | error (msg : Nat)
  | panic (msg : Nat)
deriving DecidableEq, Repr

/-- A message in the map of errors. -/
inductive Message
  | notFound
  | error (msg : Nat)
  | panic (msg : Nat)
deriving DecidableEq, Repr

/-- Assignment to a key of a Go map. -/
def put {α : Type} (k : Str) (v : α) (m : List (Str × α)) : List (Str × α) := (k, v) :: m.filter (·.1 != k)

/-- api/multilist.go:473-476 `results`. -/
structure Results where
  success : List (Str × Nat) := []
  errors : List (Str × Message) := []
deriving DecidableEq, Repr

/-- api/multilist.go:491-496 for a panic, 502-506, 508-513 and 514-516: the entry for a list. Each is made
under the mutex. -/
def Results.record (r : Results) (id : Str) : Outcome → Results
  | .missing => { r with errors := put id .notFound r.errors }
  | .ok v => { r with success := put id v r.success }
  | .error m => { r with errors := put id (.error m) r.errors }
  | .panic m => { r with errors := put id (.panic m) r.errors }

/-- Where a goroutine is: before it makes its entry, before the return of the token at 497-499, before
`wg.Done` at 500. -/
inductive Phase
  | run
  | release
  | done
deriving DecidableEq, Repr

/-- Where the caller is: at the check of the context at 482, at 485-488 (token and start of the goroutine), at
`wg.Wait` at 519, or back with the results, or with nil. -/
inductive Main
  | check
  | start
  | wait
  | returned (r : Option Results)
deriving DecidableEq, Repr

/-- The lists not started, the caller, the goroutines that have not ended, the tokens in the channel, the
results, the wait group counter, whether the context is cancelled. -/
structure State where
  todo : List Str
  main : Main := .check
  running : List (Str × Phase) := []
  avail : Nat
  results : Results := {}
  wg : Nat
  cancelled : Bool := false
deriving DecidableEq, Repr

/-- api/multilist.go:469-480: the start. -/
def init (lists : List Str) (limit : Nat) : State := { todo := lists, avail := limit, wg := lists.length }

/-- One step of the caller or of a goroutine. -/
inductive Step (limit : Nat) (out : Str → Outcome) : State → State → Prop
  /-- 482-484 -/
  | cancelled (s id rest) (hm : s.main = .check) (ht : s.todo = id :: rest) (hc : s.cancelled = true) :
      Step limit out s { s with main := .returned none }
  /-- 482 -/
  | go (s id rest) (hm : s.main = .check) (ht : s.todo = id :: rest) (hc : s.cancelled = false) :
      Step limit out s { s with main := .start }
  /-- 485-488 -/
  | start (s id rest) (hm : s.main = .start) (ht : s.todo = id :: rest) (ha : limit > 0 → 0 < s.avail) :
      Step limit out s { s with main := .check, todo := rest, running := s.running ++ [(id, .run)]
                                avail := if limit > 0 then s.avail - 1 else s.avail }
  | allStarted (s) (hm : s.main = .check) (ht : s.todo = []) : Step limit out s { s with main := .wait }
  /-- 519-520 -/
  | return (s) (hm : s.main = .wait) (hw : s.wg = 0) :
      Step limit out s { s with main := .returned (some s.results) }
  | record (s pre id post) (hr : s.running = pre ++ (id, .run) :: post) :
      Step limit out s { s with running := pre ++ (id, .release) :: post, results := s.results.record id (out id) }
  /-- 497-499: blocks if the channel is full -/
  | release (s pre id post) (hr : s.running = pre ++ (id, .release) :: post) (ha : limit > 0 → s.avail < limit) :
      Step limit out s { s with running := pre ++ (id, .done) :: post
                                avail := if limit > 0 then s.avail + 1 else s.avail }
  | done (s pre id post) (hr : s.running = pre ++ (id, .done) :: post) :
      Step limit out s { s with running := pre ++ post, wg := s.wg - 1 }

/-- Executions with `n` steps; the context may be cancelled at any time. -/
inductive Exec (limit : Nat) (out : Str → Outcome) : Nat → State → State → Prop
  | refl (s) : Exec limit out 0 s s
  | step {n s s' s''} (h : Exec limit out n s s') (hs : Step limit out s' s'') : Exec limit out (n + 1) s s''
  | cancel {n s s'} (h : Exec limit out n s s') : Exec limit out n s { s' with cancelled := true }

/-- The end: the caller has returned and all goroutines have ended. -/
def Final (s : State) : Prop := (∃ r, s.main = .returned r) ∧ s.running = []

end RankDB.EveryList

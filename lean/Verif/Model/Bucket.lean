/-
Model of bucket.go: a token bucket, shared by any number of goroutines.
-/
namespace RankDB.Bucket

/-- A Go channel of `struct{}`: its capacity and the number of values in the buffer. -/
structure Chan where
  cap : Nat
  buf : Nat
deriving DecidableEq, Repr

/-- Sending on a buffered channel; `none` while it would block. -/
def Chan.send (c : Chan) : Option Chan := if c.buf < c.cap then some { c with buf := c.buf + 1 } else none
/-- Receiving from a channel; `none` while it would block. -/
def Chan.recv (c : Chan) : Option Chan := if 0 < c.buf then some { c with buf := c.buf - 1 } else none

/-- The loop of bucket.go:15-17. -/
def fill : Nat → Chan → Option Chan
  | 0, c => some c
  | n + 1, c => c.send.bind (fill n)

/-- bucket.go:13-19 `NewBucket`; `none` if it would block for ever. -/
def newBucket (tokens : Nat) : Option Chan := fill tokens ⟨tokens, 0⟩

/-- What a goroutine is doing: something else, in `Get`, or in `Release`. -/
inductive Phase
  | idle | getting | releasing
deriving DecidableEq, Repr

/-- A goroutine: the tokens it has and what it is doing. A token in `Release` is still held. -/
structure Thread where
  phase : Phase := .idle
  held : Nat := 0
deriving DecidableEq, Repr

/-- The bucket and the goroutines using it. -/
structure State where
  chan : Chan
  threads : List Thread
deriving DecidableEq, Repr

/-- One step of one goroutine. A goroutine releases only tokens it has, each once. -/
inductive ThreadStep : Chan → Thread → Chan → Thread → Prop
  /-- calls `Get` -/
  | wantGet (c h) : ThreadStep c ⟨.idle, h⟩ c ⟨.getting, h⟩
  /-- bucket.go:29-32 `Get` returns -/
  | get (c c' h) (hr : c.recv = some c') : ThreadStep c ⟨.getting, h⟩ c' ⟨.idle, h + 1⟩
  /-- calls `Release` of a token -/
  | wantRelease (c h) : ThreadStep c ⟨.idle, h + 1⟩ c ⟨.releasing, h + 1⟩
  /-- bucket.go:35-37 `Release` returns -/
  | release (c c' h) (hs : c.send = some c') : ThreadStep c ⟨.releasing, h + 1⟩ c' ⟨.idle, h⟩

/-- One step of the system: any goroutine moves. -/
inductive Step : State → State → Prop
  | mk (pre post : List Thread) (c c' : Chan) (t t' : Thread) (h : ThreadStep c t c' t') :
      Step ⟨c, pre ++ t :: post⟩ ⟨c', pre ++ t' :: post⟩

/-- States reachable from a new bucket of `tokens` tokens and `k` goroutines. -/
inductive Reachable (tokens k : Nat) : State → Prop
  | init (c : Chan) (h : newBucket tokens = some c) : Reachable tokens k ⟨c, List.replicate k {}⟩
  | step {s s' : State} (h : Reachable tokens k s) (hs : Step s s') : Reachable tokens k s'

/-- The number of tokens in use. -/
def inUse (s : State) : Nat := (s.threads.map (·.held)).sum

end RankDB.Bucket

import Verif.Model.Element
/-
Model of the loading of one segment by several calls at the same time: segments.go:186-259 `elementFullIdx`,
segment.go:173-222 `loadElements` and segments.go:270-299 `replaceSegment`.

Any number of calls take the lock of the segment, for reading or for writing, look into the cache, and load the
elements or wait for another call that is loading them. Every step is one critical section of the code.

Simplifications: elements are values; that slices are shared with the cache is the subject of `Model/Cache` (here a
save that fails may leave the changed elements in the cache for this reason). The lock is given to any call that may
have it; which of the waiting calls gets it is left open. `elementFullIdx` returns with the lock, so the step `leave`
is the caller releasing it. Reading and decoding the segment is one step with an arbitrary outcome: what is stored, an
error of this call (its context was cancelled, the storage did not answer), or a panic, e.g. `make` in segment.go:215
with a negative count. A call that panics is recovered by the server (api/services.go:52, `middleware.Recover`), or ends the
process; here it goes on.
-/
namespace RankDB.Loader

/-- Why a call fails: the segment is missing or cannot be decoded, or call number `t` could not read it. -/
inductive Err
  | stored
  | call (t : Nat)
deriving DecidableEq, Repr

/-- The two results of `loadElements`. -/
inductive Res
  | ok (v : List Element)
  | error (e : Err)
deriving DecidableEq

/-- Where a call is. -/
inductive Pc
  /-- segments.go:205, 222: waits for the lock -/
  | want
  /-- segments.go:236: has the lock -/
  | locked
  /-- segments.go:247: the segment is not in the cache -/
  | missed
  /-- segment.go:181: waits for load number `c` -/
  | waiting (c : Nat)
  /-- segment.go:206: reads the segment; the load has number `c` -/
  | loading (c : Nat)
  /-- segment.go:221: has read the segment -/
  | fetched (c : Nat)
  /-- has panicked -/
  | panicked (c : Nat)
  /-- segments.go:250: `loadElements` has returned -/
  | got (r : Res)
  /-- segments.go:258: `elementFullIdx` has returned elements -/
  | use (v : List Element)
  /-- the lock is released -/
  | done (e : Option Err)
  /-- has panicked, and its deferred functions are done; the lock is not released (segments.go:250-252) -/
  | dead
deriving DecidableEq

/-- A call has the lock. -/
def Pc.holds : Pc → Bool
  | .want | .done _ => false
  | _ => true

/-- The load that a call is executing. -/
def Pc.load : Pc → Option Nat
  | .loading c | .fetched c | .panicked c => some c
  | _ => none

structure Call where
  write : Bool
  pc : Pc
deriving DecidableEq

/-- segment.go:44-49 `elementLoader`. `cell` is what is stored, `none` if it is missing or cannot be decoded.
`loading` is the load in progress (`Loading` and `Gimme`), `res` what the closures `Gimme` refer to (`err` and
`forReader` in segment.go:173-194, at first no error and no elements) and `closed` which channels are closed. -/
structure State where
  cell : Option (List Element)
  cache : Option (List Element)
  loading : Option Nat
  res : Nat → Res
  closed : Nat → Bool
  next : Nat
  calls : List Call

def start (cell : Option (List Element)) : State :=
  { cell := cell, cache := none, loading := none, res := fun _ => .ok [], closed := fun _ => false, next := 0, calls := [] }

/-- How reading and decoding the segment ends. -/
inductive Outcome
  | stored
  | error
  | panic
deriving DecidableEq

inductive Label
  /-- a new call -/
  | call (write : Bool)
  | acquire (t : Nat)
  | look (t : Nat)
  | enter (t : Nat)
  | fetch (t : Nat) (o : Outcome)
  | close (t : Nat)
  | wake (t : Nat)
  | deliver (t : Nat)
  | leave (t : Nat)
  /-- save `v`, and whether this succeeds; if not, whether the elements in the cache have changed too -/
  | save (t : Nat) (v : List Element) (ok : Bool) (shared : Bool)
  /-- the cache drops the segment -/
  | evict
deriving DecidableEq

/-- segment.go:205-221. -/
def State.stored (σ : State) : Res :=
  match σ.cell with
  | some v => .ok v
  | none => .error .stored

def State.set (σ : State) (t : Nat) (w : Bool) (pc : Pc) : State := { σ with calls := σ.calls.set t ⟨w, pc⟩ }

/-- `sync.RWMutex`: who may have the lock. -/
def State.free (σ : State) (write : Bool) : Bool := σ.calls.all fun x => !(x.pc.holds && (write || x.write))

/-- One step, if it is possible. `cached` says whether there is a cache. -/
def exec (cached : Bool) (σ : State) : Label → Option State
  | .call w => some { σ with calls := σ.calls ++ [⟨w, .want⟩] }
  -- segments.go:201-235
  | .acquire t =>
    match σ.calls[t]? with
    | some ⟨w, .want⟩ => if σ.free w then some (σ.set t w .locked) else none
    | _ => none
  -- segments.go:238-248
  | .look t =>
    match σ.calls[t]? with
    | some ⟨w, .locked⟩ =>
      match (if cached then σ.cache else none) with
      | some v => some (σ.set t w (.use v))
      | none => some (σ.set t w .missed)
    | _ => none
  -- segment.go:175-196
  | .enter t =>
    match σ.calls[t]? with
    | some ⟨w, .missed⟩ =>
      match σ.loading with
      | some c => some (σ.set t w (.waiting c))
      | none => some { σ.set t w (.loading σ.next) with loading := some σ.next, next := σ.next + 1 }
    | _ => none
  -- segment.go:206-221
  | .fetch t o =>
    match σ.calls[t]? with
    | some ⟨w, .loading c⟩ =>
      match o with
      | .stored => some { σ.set t w (.fetched c) with res := fun d => if d = c then σ.stored else σ.res d }
      | .error => some { σ.set t w (.fetched c) with res := fun d => if d = c then .error (.call t) else σ.res d }
      | .panic => some (σ.set t w (.panicked c))
    | _ => none
  -- segment.go:197-204
  | .close t =>
    match σ.calls[t]? with
    | some ⟨w, .fetched c⟩ =>
      some { σ.set t w (.got (σ.res c)) with loading := none, closed := fun d => if d = c then true else σ.closed d }
    | some ⟨w, .panicked c⟩ =>
      some { σ.set t w .dead with loading := none, closed := fun d => if d = c then true else σ.closed d }
    | _ => none
  -- segment.go:181-182, and `Gimme` (186-194)
  | .wake t =>
    match σ.calls[t]? with
    | some ⟨w, .waiting c⟩ => if σ.closed c then some (σ.set t w (.got (σ.res c))) else none
    | _ => none
  -- segments.go:250-258
  | .deliver t =>
    match σ.calls[t]? with
    | some ⟨w, .got (.ok v)⟩ => some { σ.set t w (.use v) with cache := if cached then some v else σ.cache }
    | some ⟨w, .got (.error e)⟩ => some (σ.set t w (.done (some e)))
    | _ => none
  | .leave t =>
    match σ.calls[t]? with
    | some ⟨w, .use _⟩ => some (σ.set t w (.done none))
    | _ => none
  -- segments.go:270-299
  | .save t v ok shared =>
    match σ.calls[t]? with
    | some ⟨true, .use _⟩ =>
      if ok then some { σ.set t true (.done none) with cell := some v, cache := if cached then some v else σ.cache }
      else some { σ.set t true (.done none) with cache := if cached && shared then some v else σ.cache }
    | _ => none
  | .evict => some { σ with cache := none }

/-- Any number of steps. -/
def execs (cached : Bool) : State → List Label → Option State
  | σ, [] => some σ
  | σ, l :: ls => (exec cached σ l).bind fun σ1 => execs cached σ1 ls

end RankDB.Loader

import Verif.Model.LazySaver
/-
Model of the buffers of the write-behind store: blobstore/lazysaver.go with its pools of buffers (642-685).

The values of `Model/LazySaver` are replaced by buffers. A buffer is a number; `heap` has its bytes and `caps` its
capacity. A buffer that is put into a pool can be given to any later call, which writes into it.

Simplifications: the bytes of a buffer are read or written in one step. (The source of a copy is not written meanwhile
if no one else has the buffer, which is what is proved.) `sync.Pool` may give any buffer it has, or a new one, and may
lose buffers; `pick` and `drop` stand for this. The store below has taken the bytes over when its `Set` returns.
-/
namespace RankDB.LazyBuf
open Wire
open MaxSize (Store)
open LazySaver (Label Status lazyKey)

/-- lazysaver.go:69-76 `updateItemRequest` with a buffer, `none` for `nil`. -/
structure BItem where
  id : Nat
  set : Str
  key : Str
  buf : Option Nat
  status : Status
deriving DecidableEq

/-- A call of `set` that has copied its argument (lazysaver.go:239) and waits for the lock. `given` are the bytes the
caller passed; they are only there to state properties. -/
structure Pend where
  set : Str
  key : Str
  buf : Nat
  given : Bytes

/-- lazysaver.go:20-41 and 642-656. `pool` has the buffers in the pools with the number of the pool, `fresh` is the next
new buffer. `out` has the buffers returned to callers of `get`, with the bytes they had then or that the caller has
written since. -/
structure State where
  heap : Nat → Bytes
  caps : Nat → Nat
  pool : List (Nat × Nat)
  fresh : Nat
  queue : List BItem
  idx : Str → Option Nat
  store : Store
  next : Nat
  pend : List Pend
  out : List (Nat × Bytes)

def start (store : Store) : State :=
  { heap := fun _ => [], caps := fun _ => 0, pool := [], fresh := 0, queue := [], idx := fun _ => none, store := store,
    next := 0, pend := [], out := [] }

/-- `bits.Len32`. -/
def len32 (n : Nat) : Nat := if n % 2 ^ 32 = 0 then 0 else (n % 2 ^ 32).log2 + 1

/-- lazysaver.go:660-668 `getDataBufferChunk`: the number of the pool. -/
def poolFor (size : Nat) : Nat :=
  if size ≤ 2 ^ 10 then 0 else if size ≥ 2 ^ 20 then 10 else len32 (size - 1) - 10

/-- lazysaver.go:672-685 `putDataBufferChunk`: the number of the pool. -/
def poolOf (cap : Nat) : Nat :=
  if cap ≥ 2 ^ 20 then 10 else if cap ≥ 2 ^ 10 then len32 (cap - 1) - 10 else 0

/-- lazysaver.go:660-668 `getDataBufferChunk`: the buffer at position `pick` of the pools if it is in the right pool, or
a new one (642-656). -/
def take (σ : State) (size : Nat) (pick : Option Nat) : Nat × State :=
  let make : Nat × State :=
    (σ.fresh, { σ with caps := fun b => if b = σ.fresh then 2 ^ (10 + poolFor size) else σ.caps b, fresh := σ.fresh + 1 })
  match pick with
  | none => make
  | some j =>
    match σ.pool[j]? with
    | none => make
    | some (p, b) => if p = poolFor size then (b, { σ with pool := σ.pool.eraseIdx j }) else make

/-- lazysaver.go:212, 239: `append(getDataBufferChunk(len(x)), x...)`. If the buffer is too small, `append` makes a new
one, with `extra` bytes of room. -/
def copyIn (σ : State) (x : Bytes) (pick : Option Nat) (extra : Nat) : Nat × State :=
  match take σ x.length pick with
  | (b, σ1) =>
    if x.length ≤ σ1.caps b then (b, { σ1 with heap := fun c => if c = b then x else σ1.heap c })
    else (σ1.fresh, { σ1 with
      heap := fun c => if c = σ1.fresh then x else σ1.heap c
      caps := fun c => if c = σ1.fresh then x.length + extra else σ1.caps c
      fresh := σ1.fresh + 1 })

/-- lazysaver.go:672-685 `putDataBufferChunk`. -/
def release (σ : State) (buf : Option Nat) : State :=
  match buf with
  | none => σ
  | some b => if σ.caps b = 0 then σ else { σ with pool := (poolOf (σ.caps b), b) :: σ.pool }

def State.item (σ : State) (id : Nat) : Option BItem := σ.queue.find? (fun e => e.id = id)
def State.lookup (σ : State) (set key : Str) : Option BItem := (σ.idx (lazyKey set key)).bind σ.item

/-- lazysaver.go:240-263 `set` and 266-292 `delete` (with `none`), after the copy was made. -/
def put (σ : State) (set key : Str) (buf : Option Nat) : State :=
  let add : State :=
    { σ with
      queue := σ.queue ++ [{ id := σ.next, set := set, key := key, buf := buf, status := .queued }]
      idx := fun k => if k = lazyKey set key then some σ.next else σ.idx k
      next := σ.next + 1 }
  match σ.lookup set key with
  | some e =>
    if e.status ≠ .queued then add
    else { release σ e.buf with queue := σ.queue.map (fun x => if x.id = e.id then { x with buf := buf } else x) }
  | none => add

/-- lazysaver.go:329-350 `saveFront`. -/
def chooseFirst : List BItem → List BItem
  | [] => []
  | e :: r => if e.status = .queued then { e with status := .chosen } :: r else e :: chooseFirst r

/-- What happens next. -/
inductive Call
  /-- a call of `set` copies its argument -/
  | copy (set key : Str) (x : Bytes) (pick : Option Nat) (extra : Nat)
  /-- the waiting call number `j` gets the lock -/
  | enter (j : Nat)
  | delete (set key : Str)
  | get (set key : Str) (pick : Option Nat) (extra : Nat)
  /-- a caller of `get` writes into the buffer it was given -/
  | change (j : Nat) (x : Bytes)
  /-- the pools lose a buffer -/
  | drop (j : Nat)
  | choose
  | take (i : Nat)
  | write (i : Nat) (ok : Bool)
  | remove (i : Nat)

def setStatus (old new : Status) (e : BItem) : BItem := if e.status = old then { e with status := new } else e

/-- One step with `n` savers, if it is possible, and the step of `Model/LazySaver` it stands for. -/
def exec (n : Nat) (σ : State) : Call → Option (State × List Label)
  -- lazysaver.go:239
  | .copy s k x pick extra =>
    match copyIn σ x pick extra with
    | (b, σ1) => some ({ σ1 with pend := σ1.pend ++ [⟨s, k, b, x⟩] }, [])
  -- lazysaver.go:240-263
  | .enter j =>
    match σ.pend[j]? with
    | none => none
    | some p => some (put { σ with pend := σ.pend.eraseIdx j } p.set p.key (some p.buf), [.put p.set p.key (some p.given)])
  -- lazysaver.go:266-292
  | .delete s k => some (put σ s k none, [.put s k none])
  -- lazysaver.go:196-221
  | .get s k pick extra =>
    match σ.lookup s k with
    | none => some (σ, [])
    | some e =>
      if e.set = s ∧ e.key = k then
        match e.buf with
        | none => some (σ, [])
        | some b =>
          match copyIn σ (σ.heap b) pick extra with
          | (c, σ1) => some ({ σ1 with out := σ1.out ++ [(c, σ.heap b)] }, [])
      else some (σ, [])
  | .change j x =>
    match σ.out[j]? with
    | none => none
    | some (b, _) => some ({ σ with heap := fun c => if c = b then x else σ.heap c, out := σ.out.set j (b, x) }, [])
  | .drop j => some ({ σ with pool := σ.pool.eraseIdx j }, [])
  -- lazysaver.go:329-348
  | .choose =>
    if (∀ e ∈ σ.queue, e.status ≠ .chosen) ∧ ∃ e ∈ σ.queue, e.status = .queued then
      some ({ σ with queue := chooseFirst σ.queue }, [.choose])
    else none
  -- lazysaver.go:465-466
  | .take i =>
    if i < n ∧ (∀ e ∈ σ.queue, e.status ≠ .taken i ∧ e.status ≠ .written i) ∧ ∃ e ∈ σ.queue, e.status = .chosen then
      some ({ σ with queue := σ.queue.map (setStatus .chosen (.taken i)) }, [.take i])
    else none
  -- lazysaver.go:468-503
  | .write i ok =>
    match σ.queue.find? (fun e => e.status = .taken i) with
    | none => none
    | some e =>
      some ({ σ with
        queue := σ.queue.map (setStatus (.taken i) (.written i))
        store := if ok then σ.store.put e.set e.key (e.buf.map σ.heap) else σ.store }, [.write i ok])
  -- lazysaver.go:505-516
  | .remove i =>
    match σ.queue.find? (fun e => e.status = .written i) with
    | none => none
    | some e =>
      some ({ release σ e.buf with
        queue := σ.queue.filter (fun x => x.status ≠ .written i)
        idx := fun k => if k = lazyKey e.set e.key ∧ σ.idx k = some e.id then none else σ.idx k }, [.remove i])

/-- Any number of steps. -/
def execs (n : Nat) : State → List Call → Option (State × List Label)
  | σ, [] => some (σ, [])
  | σ, c :: cs =>
    match exec n σ c with
    | none => none
    | some (σ1, l) => (execs n σ1 cs).map fun x => (x.1, l ++ x.2)

/-- The items with their bytes in place of their buffers. -/
def State.values (σ : State) : LazySaver.State :=
  { queue := σ.queue.map fun e => ⟨e.id, e.set, e.key, e.buf.map σ.heap, e.status⟩, idx := σ.idx, store := σ.store, next := σ.next }

end RankDB.LazyBuf

import Verif.Model.Wire
import Verif.Model.MaxSize
/-
Model of the write-behind store: blobstore/lazysaver.go.

Each critical section under `l.mu`, each operation on the store below and each handover to a saver is one step; the
steps of callers, of the request handler and of any number of savers interleave in any order. Timers, the threshold
of queued items and shutting down only decide when the handler takes the next item, which may happen at any time
here. The tokens that make callers wait when the queue is full, statistics and the pool of buffers are not modelled.
The store below is a map; a write to it may fail without an effect.
-/
namespace RankDB.LazySaver
open Wire
open MaxSize (Store)

/-- Where an item of the queue is: waiting, chosen by the request handler (lazysaver.go:345-348, `saving` is set
and `savech <- e` is waiting), received by saver `i`, written by saver `i` to the store below and not yet removed. -/
inductive Status
  | queued
  | chosen
  | taken (i : Nat)
  | written (i : Nat)
deriving DecidableEq, Repr

/-- lazysaver.go:69-76 `updateItemRequest`, with an identity for the list element. The flag `saving` and which
goroutine is working on the item are combined in `status`. -/
structure Item where
  id : Nat
  set : Str
  key : Str
  /-- `nil` for a deletion. -/
  val : Option Bytes
  status : Status
deriving DecidableEq, Repr

/-- lazysaver.go:638-640. -/
def lazyKey (set key : Str) : Str := set ++ 47 :: key

def Item.lk (e : Item) : Str := lazyKey e.set e.key

/-- lazysaver.go:75 `saving`. -/
def Item.saving (e : Item) : Bool := e.status ≠ .queued

/-- lazysaver.go:20-41: `cache`, `cacheIdx`, the store below and the next identity. -/
structure State where
  queue : List Item
  idx : Str → Option Nat
  store : Store
  next : Nat

/-- A lazy saver on an existing store. -/
def start (store : Store) : State := { queue := [], idx := fun _ => none, store := store, next := 0 }

def State.item (σ : State) (id : Nat) : Option Item := σ.queue.find? (fun e => e.id = id)

/-- The item the index has for a key. -/
def State.lookup (σ : State) (set key : Str) : Option Item := (σ.idx (lazyKey set key)).bind σ.item

/-- lazysaver.go:236-264 `set` and 266-292 `delete` (with `none`), and `add` 311-325. -/
def put (σ : State) (set key : Str) (b : Option Bytes) : State :=
  let add : State :=
    { σ with
      queue := σ.queue ++ [{ id := σ.next, set := set, key := key, val := b, status := .queued }]
      idx := fun k => if k = lazyKey set key then some σ.next else σ.idx k
      next := σ.next + 1 }
  match σ.lookup set key with
  | some e =>
    if e.saving then add
    else { σ with queue := σ.queue.map (fun x => if x.id = e.id then { x with val := b } else x) }
  | none => add

/-- lazysaver.go:196-221, first part of `get`: `some` when the answer is in the queue. -/
def getQueue (σ : State) (set key : Str) : Option (Option Bytes) :=
  match σ.lookup set key with
  | some v => if v.set = set ∧ v.key = key then some v.val else none
  | none => none

/-- lazysaver.go:196-234 `get` when nothing happens between looking into the queue and reading the store. -/
def get (σ : State) (set key : Str) : Option Bytes := (getQueue σ set key).getD (σ.store set key)

/-- lazysaver.go:329-350 `saveFront`: the first item that is not being saved. -/
def chooseFirst : List Item → List Item
  | [] => []
  | e :: r => if e.status = .queued then { e with status := .chosen } :: r else e :: chooseFirst r

/-- Steps: calls, and steps of the request handler and of the savers. -/
inductive Label
  | put (set key : Str) (b : Option Bytes)
  /-- the request handler chooses an item -/
  | choose
  /-- saver `i` receives it -/
  | take (i : Nat)
  /-- saver `i` writes it; whether the store reports success -/
  | write (i : Nat) (ok : Bool)
  /-- saver `i` removes it from the queue -/
  | remove (i : Nat)
deriving DecidableEq, Repr

/-- The item saver `i` is working on. -/
def State.takenBy (σ : State) (i : Nat) : Option Item := σ.queue.find? (fun e => e.status = .taken i)
def State.writtenBy (σ : State) (i : Nat) : Option Item := σ.queue.find? (fun e => e.status = .written i)

/-- Whether a step can be taken, with `n` savers. -/
def enabled (n : Nat) (σ : State) : Label → Prop
  | .put _ _ _ => True
  | .choose => (∀ e ∈ σ.queue, e.status ≠ .chosen) ∧ ∃ e ∈ σ.queue, e.status = .queued
  | .take i => i < n ∧ (∀ e ∈ σ.queue, e.status ≠ .taken i ∧ e.status ≠ .written i) ∧
      ∃ e ∈ σ.queue, e.status = .chosen
  | .write i _ => ∃ e ∈ σ.queue, e.status = .taken i
  | .remove i => ∃ e ∈ σ.queue, e.status = .written i

def setStatus (old new : Status) (e : Item) : Item := if e.status = old then { e with status := new } else e

/-- lazysaver.go:465-516 for the savers, 329-350 for the request handler. -/
def step (σ : State) : Label → State
  | .put s k b => put σ s k b
  | .choose => { σ with queue := chooseFirst σ.queue }
  | .take i => { σ with queue := σ.queue.map (setStatus .chosen (.taken i)) }
  | .write i ok =>
    match σ.takenBy i with
    | none => σ
    | some e =>
      { σ with
        queue := σ.queue.map (setStatus (.taken i) (.written i))
        store := if ok then σ.store.put e.set e.key e.val else σ.store }
  | .remove i =>
    match σ.writtenBy i with
    | none => σ
    | some e =>
      { σ with
        queue := σ.queue.filter (fun x => x.status ≠ .written i)
        idx := fun k => if k = e.lk ∧ σ.idx k = some e.id then none else σ.idx k }

/-- States reached by steps that can be taken. -/
inductive Run (n : Nat) (σ0 : State) : List Label → State → Prop
  | nil : Run n σ0 [] σ0
  | snoc {ls σ l} : Run n σ0 ls σ → enabled n σ l → Run n σ0 (ls ++ [l]) (step σ l)

end RankDB.LazySaver

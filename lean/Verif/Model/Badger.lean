import Verif.Model.LazySaver
/-
Model of the Badger store with its queue of writes: blobstore/badgerstore/badger.go.

The database is a map with transactions that are applied as a whole when they are committed, or not at all.
-/
namespace RankDB.Badger
open Wire

/-- badger.go:17. -/
def queueSize : Nat := 100

/-- badger.go:52-58 `key` and `keyString`. -/
def joined (set key : Str) : Str := set ++ 47 :: key

/-- badger.go:34-38: the database and the queue, which has each key once. -/
structure State where
  db : Str → Option Bytes
  queue : List (Str × Bytes)

/-- The entry of the queue for a key. -/
def find (q : List (Str × Bytes)) (k : Str) : Option Bytes := (q.find? (fun e => e.1 = k)).map (·.2)

/-- `delete(b.queue, k)` -/
def drop (q : List (Str × Bytes)) (k : Str) : List (Str × Bytes) := q.filter (fun e => e.1 ≠ k)

/-- What `txn.Set` says to an entry (badger.go:87-101): accepted, too big for the transaction (then whether the
commit and the `Set` in the next transaction succeed), or another error. -/
inductive SetResult
  | ok
  | tooBig (commitOk setOk : Bool)
  | fail
deriving DecidableEq, Repr

/-- A transaction applied to the database. -/
def commit (db : Str → Option Bytes) (txn : List (Str × Bytes)) : Str → Option Bytes :=
  txn.foldl (fun db e k => if k = e.1 then some e.2 else db k) db

/-- badger.go:84-105 `flush`, the loop over the queue: `todo` are the entries still to visit in the order of the
iteration, `txn` the writes of the transaction so far. `evs` are the answers of the database; the last commit
succeeds when `lastOk`. Whether an error is returned is the second component. -/
def flushLoop (lastOk : Bool) : List SetResult → List (Str × Bytes) → List (Str × Bytes) → State → State × Bool
  | _, [], txn, st => if lastOk then ({ st with db := commit st.db txn }, true) else (st, false)
  | [], _ :: _, _, st => (st, false)
  | ev :: evs, e :: todo, txn, st =>
    match ev with
    | .ok => flushLoop lastOk evs todo (txn ++ [e]) { st with queue := drop st.queue e.1 }
    | .tooBig commitOk setOk =>
      let st1 := if commitOk then { st with db := commit st.db txn } else st
      if setOk then flushLoop lastOk evs todo [e] { st1 with queue := drop st1.queue e.1 } else (st1, false)
    | .fail => (st, false)

/-- badger.go:84-105 `flush`; `order` is the order in which Go visits the map. -/
def flush (lastOk : Bool) (evs : List SetResult) (order : List (Str × Bytes)) (st : State) : State × Bool :=
  flushLoop lastOk evs order [] st

/-- badger.go:107-117 `Set`; `order` gives the order of the iteration for the queue, if it is flushed. -/
def set (lastOk : Bool) (evs : List SetResult) (order : List (Str × Bytes) → List (Str × Bytes)) (st : State)
    (s k : Str) (v : Bytes) : State × Bool :=
  let q := drop st.queue (joined s k) ++ [(joined s k, v)]
  let st1 : State := { st with queue := q }
  if queueSize ≤ q.length then flush lastOk evs (order q) st1 else (st1, true)

/-- badger.go:60-82 `Get`. -/
def get (st : State) (s k : Str) : Option Bytes :=
  match find st.queue (joined s k) with
  | some v => some v
  | none => st.db (joined s k)

/-- badger.go:119-123, first part of `Delete`. -/
def deleteQueue (st : State) (s k : Str) : State := { st with queue := drop st.queue (joined s k) }

/-- badger.go:124-131, second part of `Delete`; nothing changes when the transaction fails. -/
def deleteDb (ok : Bool) (st : State) (s k : Str) : State :=
  if ok then { st with db := fun k' => if k' = joined s k then none else st.db k' } else st

/-- badger.go:40-50 `Close`: the state and the error (`true` for nil) from the errors of `flush` and `db.Close`. -/
def close (lastOk : Bool) (evs : List SetResult) (order : List (Str × Bytes) → List (Str × Bytes)) (closeOk : Bool)
    (st : State) : State × Bool :=
  let (st1, err) := flush lastOk evs (order st.queue) st
  if err = false then (st1, closeOk) else (st1, err)

end RankDB.Badger

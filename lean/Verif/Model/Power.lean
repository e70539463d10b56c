import Verif.Model.Disk
/-
Model of what survives when the process or the machine stops: api/rankdb.go:277-300 `newBlobstore`,
blobstore/badgerstore/badger.go and blobstore/boltstore/boltstore.go, under the list operations of `Model/Disk.lean`.

Assumed of the databases: Bolt and Badger apply a transaction before they report that it was committed. With synced
writes a committed transaction survives a power failure. Without, a power failure loses the most recent ones: the
operating system has written any number of the transactions since the last sync, in order. Not modelled: flushes that
Badger splits since they are too big for one transaction (`Model/Badger.lean` has these), the closing of the store.
-/
namespace RankDB.Power
open Disk

/-- The storages with files, and the setting `NoSync` of each (api/rankdb.go:77-86). -/
inductive Driver
  | bolt (noSync : Bool)
  | badger (noSync : Bool)
deriving DecidableEq, Repr

/-- Whether a commit is synced: api/rankdb.go:297 sets Bolt's `NoSync`, api/rankdb.go:282 sets Badger's `SyncWrites`, each
to the value of the setting. -/
def syncs : Driver → Bool
  | .bolt noSync => !noSync
  | .badger noSync => noSync

/-- What is safe on the disk, the transactions that were not synced, and the queue of badger.go:34-38. -/
structure Machine where
  disk : Store
  cache : List (List Write)
  queue : List Write

/-- The blob that a write changes. -/
def Write.key : Write → Str × Option Nat
  | .head p _ | .delHead p => (p, none)
  | .elems p i _ | .delElems p i => (p, some i)

/-- Whether the write deletes a blob. -/
def Write.deletes : Write → Bool
  | .head .. | .elems .. => false
  | .delHead _ | .delElems .. => true

/-- A committed transaction. -/
def commit (drv : Driver) (m : Machine) (ws : List Write) : Machine :=
  if syncs drv then { m with disk := writes m.disk (m.cache.flatten ++ ws), cache := [] }
  else { m with cache := m.cache ++ [ws] }

/-- boltstore.go:62-105 and badger.go:109-133, `Set` and `Delete`. Badger's queue is a map; it is kept here in the order of
the writes. -/
def put (drv : Driver) (m : Machine) (w : Write) : Machine :=
  match drv with
  | .bolt _ => commit drv m [w]
  | .badger _ =>
    let rest := m.queue.filter fun v => decide (Write.key v ≠ Write.key w)
    if Write.deletes w then commit drv { m with queue := rest } [w]
    else if 100 ≤ rest.length + 1 then { commit drv m (rest ++ [w]) with queue := [] }
    else { m with queue := rest ++ [w] }

/-- Writes one after the other. -/
def run (drv : Driver) (m : Machine) (ws : List Write) : Machine := ws.foldl (put drv) m

/-- A machine that has nothing but a store on its disk. -/
def start (d : Store) : Machine := ⟨d, [], []⟩

/-- The process is killed: the queue is lost. -/
def killed (m : Machine) : Store := writes m.disk m.cache.flatten

/-- The power fails, after the operating system has written `n` of the transactions that were not synced. -/
def powerFailure (n : Nat) (m : Machine) : Store := writes m.disk (m.cache.take n).flatten

end RankDB.Power

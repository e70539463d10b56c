import Verif.Model.MaxSize
import Verif.Model.Badger
/-
Model of the storage that is configured: the drivers in blobstore/memstore, boltstore, aerostore, dynamo, badgerstore,
the wrappers blobstore/maxsize.go and blobstore/retry.go on top of them, and api/rankdb.go:276-332, which stacks them.

A store is given by its states and by what a call may do, a relation: databases may fail. A change that is reported as
failed may have been made nevertheless (the connection is lost after it). Calls are atomic: memstore has a lock, Bolt
transactions, the others one request to the database; `runningOp` for maxsize.go.
-/
namespace RankDB.Layers
open Wire
open MaxSize (Store Err)

/-- blobstore/blobstore.go:16-34, the calls of the interface `Store`. -/
inductive Call
  | get (s k : Str)
  | set (s k : Str) (v : Bytes)
  | delete (s k : Str)
deriving DecidableEq, Repr

def Call.inSet : Call → Str
  | .get s _ | .set s _ _ | .delete s _ => s

def Call.key : Call → Str
  | .get _ k | .set _ k _ | .delete _ k => k

/-- Results: a blob, nil, or an error. -/
inductive Ret
  | blob (b : Bytes)
  | done
  | err (e : Err)
deriving DecidableEq, Repr

/-- A store: its states, the state when it is new, what a call may return and do, and what a stop of the server and a
start may do. -/
structure Layer where
  State : Type
  init : State
  call : State → Call → Ret → State → Prop
  restart : State → State → Prop

/-- What becomes of a request to a database: done, or failed without or with an effect. -/
inductive Fate
  | ok | failed | late
deriving DecidableEq, Repr

/-! ### Memory -/

/-- blobstore/memstore/memstore.go:35-37. -/
def memKey (s k : Str) : Str := s ++ 47 :: k

/-- memstore.go:47-92 `Get`, `Set` and `Delete`. The counters of reads and writes are not modelled. -/
def memCall (m : Str → Option Bytes) : Call → Ret × (Str → Option Bytes)
  | .get s k =>
    match m (memKey s k) with
    | none => (.err .notFound, m)
    | some b => (.blob b, m)
  | .set s k v =>
    if v.length > 2 ^ 20 then (.err .tooBig, m)
    else if k.length < 2 then (.err .store, m)
    else (.done, fun x => if x = memKey s k then some v else m x)
  | .delete s k => (.done, fun x => if x = memKey s k then none else m x)

/-- blobstore/memstore. Nothing survives the process. -/
def memory : Layer where
  State := Str → Option Bytes
  init := fun _ => none
  call m c r m' := (r, m') = memCall m c
  restart _ m' := m' = fun _ => none

/-! ### Bolt -/

/-- Buckets with their keys. -/
abbrev Buckets := Str → Option (Str → Option Bytes)

/-- blobstore/boltstore/boltstore.go:42-95 `Get`, `Set` and `Delete`: one transaction. From Bolt: the name of a bucket
and the key must not be empty when they are created, and keys and values have a maximum size; otherwise the transaction
is rolled back. -/
def boltCall (fate : Fate) (m : Buckets) : Call → Ret × Buckets
  | .get s k =>
    if fate = .ok then
      match m s with
      | none => (.err .notFound, m)
      | some b =>
        match b k with
        | none => (.err .notFound, m)
        | some v => (.blob v, m)
    else (.err .store, m)
  | .set s k v =>
    if s = [] ∨ k = [] ∨ 32768 < k.length ∨ 2 ^ 31 - 2 < v.length then (.err .store, m)
    else
      let b := (m s).getD fun _ => none
      let m' : Buckets := fun x => if x = s then some fun y => if y = k then some v else b y else m x
      match fate with
      | .ok => (.done, m')
      | .late => (.err .store, m')
      | .failed => (.err .store, m)
  | .delete s k =>
    match m s with
    | none => if fate = .ok then (.done, m) else (.err .store, m)
    | some b =>
      let m' : Buckets := fun x => if x = s then some fun y => if y = k then none else b y else m x
      match fate with
      | .ok => (.done, m')
      | .late => (.err .store, m')
      | .failed => (.err .store, m)

def bolt : Layer where
  State := Buckets
  init := fun _ => none
  call m c r m' := ∃ fate, (r, m') = boltCall fate m c
  restart m m' := m' = m

/-! ### Aerospike -/

/-- blobstore/aerostore/aerostore.go:59-111 `Get`, `Set` and `Delete`. A record is its bin "blob"; records are found by
a hash of set and key, which is taken to be injective. -/
def aeroCall (fate : Fate) (m : Store) : Call → Ret × Store
  | .get s k =>
    if fate = .ok then
      match m s k with
      | none => (.err .notFound, m)
      | some v => (.blob v, m)
    else (.err .store, m)
  | .set s k v =>
    if v.length > 2 ^ 20 then (.err .tooBig, m)
    else
      match fate with
      | .ok => (.done, m.put s k (some v))
      | .late => (.err .store, m.put s k (some v))
      | .failed => (.err .store, m)
  | .delete s k =>
    match fate with
    | .ok => (.done, m.put s k none)
    | .late => (.err .store, m.put s k none)
    | .failed => (.err .store, m)

def aerospike : Layer where
  State := Store
  init := fun _ _ => none
  call m c r m' := ∃ fate, (r, m') = aeroCall fate m c
  restart m m' := m' = m

/-! ### DynamoDB -/

/-- blobstore/dynamo/dynamo.go:65-104 `Get`, `Set` and `Delete`: a table for each set, which has to exist
(`CreateSet`, 49-63). Requests that the database rejects are failures without an effect. -/
def dynamoCall (fate : Fate) (m : Buckets) (c : Call) : Ret × Buckets :=
  match m c.inSet with
  | none => (.err .store, m)
  | some t =>
    match c with
    | .get _ k =>
      if fate = .ok then
        match t k with
        | none => (.err .notFound, m)
        | some v => (.blob v, m)
      else (.err .store, m)
    | .set s k v =>
      let m' : Buckets := fun x => if x = s then some fun y => if y = k then some v else t y else m x
      match fate with
      | .ok => (.done, m')
      | .late => (.err .store, m')
      | .failed => (.err .store, m)
    | .delete s k =>
      let m' : Buckets := fun x => if x = s then some fun y => if y = k then none else t y else m x
      match fate with
      | .ok => (.done, m')
      | .late => (.err .store, m')
      | .failed => (.err .store, m)

/-- `tables` are the tables that were created. The state is what was written last and what was there before: `Get`
does not set `ConsistentRead` (dynamo.go:66-69), so that the database may answer from a copy that is not up to date. Any
former state is possible, the database promises only that copies catch up at some time. -/
def dynamo (tables : Str → Bool) : Layer where
  State := Buckets × List Buckets
  init := (fun s => if tables s then some fun _ => none else none, [])
  call st c r st' :=
    match c with
    | .get _ _ => st' = st ∧ ∃ fate, ∃ m ∈ st.1 :: st.2, (r, m) = dynamoCall fate m c
    | _ => st'.2 = st.1 :: st.2 ∧ ∃ fate, (r, st'.1) = dynamoCall fate st.1 c
  restart st st' := st' = st

/-! ### Badger -/

/-- The answers of the database to one iteration over the queue, and the order of the iteration. -/
structure Flushing where
  evs : List Badger.SetResult
  order : List (Str × Bytes) → List (Str × Bytes)

/-- The iteration visits the entries of the queue, and there is no failure; transactions may be too big. -/
def Flushing.Fine (f : Flushing) : Prop :=
  (∀ q, (f.order q).Perm q) ∧ Badger.queueSize ≤ f.evs.length ∧ ∀ e ∈ f.evs, e = .ok ∨ e = .tooBig true true

/-- blobstore/badgerstore/badger.go:60-131, on a database that does not fail (otherwise see C62). -/
def badgerCall (f : Flushing) (st : Badger.State) : Call → Ret × Badger.State
  | .get s k =>
    match Badger.get st s k with
    | none => (.err .notFound, st)
    | some v => (.blob v, st)
  | .set s k v =>
    let x := Badger.set true f.evs f.order st s k v
    (if x.2 then .done else .err .store, x.1)
  | .delete s k => (.done, Badger.deleteDb true (Badger.deleteQueue st s k) s k)

/-- badger.go:40-50: the server closes the store when it is stopped. -/
def badger : Layer where
  State := Badger.State
  init := { db := fun _ => none, queue := [] }
  call st c r st' := ∃ f : Flushing, f.Fine ∧ (r, st') = badgerCall f st c
  restart st st' := ∃ f : Flushing, f.Fine ∧ st' = (Badger.close true f.evs f.order true st).1

/-! ### Retry -/

/-- blobstore/retry.go:44-48: errors that are not retried. -/
def permanent : Err → Bool
  | .notFound | .tooBig => true
  | .corrupt | .store => false

/-- blobstore/retry.go:122-196 (see `Model/Retry` for the loop): calls until one succeeds or fails for good. Any call
can be the last one, because the context may be done or the backoff may say stop. -/
inductive Attempts (L : Layer) (c : Call) : L.State → Ret → L.State → Prop
  | last {s r s'} : L.call s c r s' → Attempts L c s r s'
  | again {s e s1 r s'} : L.call s c (.err e) s1 → permanent e = false → Attempts L c s1 r s' → Attempts L c s r s'

def retry (L : Layer) : Layer where
  State := L.State
  init := L.init
  call s c r s' := Attempts L c s r s'
  restart := L.restart

/-! ### Limited size -/

/-- Code that calls a store. -/
inductive Prog (α : Type) : Type
  | ret (a : α)
  | call (c : Call) (k : Ret → Prog α)

/-- Then do something with the result. -/
def Prog.map {α β : Type} (f : α → β) : Prog α → Prog β
  | .ret a => .ret (f a)
  | .call c k => .call c fun r => (k r).map f

/-- What code may return, and what it may do to the store. -/
inductive Runs {α : Type} (L : Layer) : Prog α → L.State → α → L.State → Prop
  | ret {a s} : Runs L (.ret a) s a s
  | call {c k s r s1 a s2} : L.call s c r s1 → Runs L (k r) s1 a s2 → Runs L (.call c k) s a s2

open MaxSize in
/-- maxsize.go:85-95, the loop of `Get`. -/
def getPartsP (s k : Str) : Nat → Nat → Bytes → Prog (Except Err Bytes)
  | 0, _, acc => .ret (.ok acc)
  | c + 1, i, acc => .call (.get s (extKey k i)) fun
    | .blob b => getPartsP s k c (i + 1) (acc ++ b)
    | .err e => .ret (.error e)
    | .done => .ret (.error .store)

open MaxSize in
/-- maxsize.go:69-97 `Get`: the result and the number of parts to remember, if it is to be changed. -/
def getP (s k : Str) : Prog (Option Nat × Except Err Bytes) :=
  .call (.get s k) fun
    | .blob b =>
      match uvarint b with
      | none => .ret (none, .error .corrupt)
      | some (n, size) =>
        if n = 0 then .ret (some 0, .ok (b.drop size))
        else (getPartsP s k n 0 (b.drop size)).map fun r => (some (n + 1), r)
    | .err e => .ret (none, .error e)
    | .done => .ret (none, .error .store)

open MaxSize in
/-- maxsize.go:133-147: write the parts; the error of the first that fails. -/
def setPartsP (max : Nat) (s k : Str) : Nat → Nat → Bytes → Prog (Option Err)
  | 0, _, _ => .ret none
  | c + 1, i, b2 => .call (.set s (partKey k i) (b2.take max)) fun
    | .err e => .ret (some e)
    | _ => setPartsP max s k c (i + 1) (b2.drop max)

open MaxSize in
/-- maxsize.go:115-126: delete `c` parts from part `i` on, then go on; errors are ignored. -/
def deleteExtraP {α : Type} (s k : Str) : Nat → Nat → Prog α → Prog α
  | 0, _, p => p
  | c + 1, i, p => .call (.delete s (extKey k (i - 1))) fun _ => deleteExtraP s k c (i + 1) p

open MaxSize in
/-- maxsize.go:100-155 `Set` when the remembered number of parts is `old`. -/
def setP (max old : Nat) (s k : Str) (b : Bytes) : Prog (Option Err) :=
  if 65535 ≤ total max b then .ret (some .tooBig)
  else deleteExtraP s k (old - total max b) (total max b)
    (setPartsP max s k (total max b) 0 (putUvarint 3 (total max b - 1) ++ b))

open MaxSize in
/-- maxsize.go:176-185. -/
def deletePartsP (s k : Str) : Nat → Nat → Prog (Option Err)
  | 0, _ => .ret none
  | c + 1, i => .call (.delete s (partKey k i)) fun
    | .err e => .ret (some e)
    | _ => deletePartsP s k c (i + 1)

open MaxSize in
/-- maxsize.go:158-190 `Delete` when the remembered number of parts is `old`; the number of parts is forgotten if the
second component says so. -/
def deleteP (old : Nat) (s k : Str) : Prog (Option Err × Bool) :=
  let remove (n : Nat) : Prog (Option Err × Bool) := (deletePartsP s k n 0).map fun r => (r, r.isNone)
  if old = 0 then
    .call (.get s k) fun
      | .blob b =>
        match uvarint b with
        | none => remove 1
        | some (n, _) => remove (n + 1)
      | _ => .ret (none, false)
  else remove old

open MaxSize in
/-- blobstore/maxsize.go on the store `L`; the remembered numbers of parts are lost with the process. -/
def maxSize (max : Nat) (L : Layer) : Layer where
  State := L.State × (Str → Nat)
  init := (L.init, fun _ => 0)
  restart st st' := L.restart st.1 st'.1 ∧ st'.2 = fun _ => 0
  call st c r st' :=
    match c with
    | .get s k => ∃ o x, Runs L (getP s k) st.1 (o, x) st'.1 ∧
        r = (match x with | .ok b => .blob b | .error e => .err e) ∧
        st'.2 = (match o with | none => st.2 | some n => setCount st.2 (mapKey s k) n)
    | .set s k b => ∃ x, Runs L (setP max (st.2 (mapKey s k)) s k b) st.1 x st'.1 ∧
        r = (match x with | none => .done | some e => .err e) ∧
        st'.2 = (if x = none then setCount st.2 (mapKey s k) (if total max b = 1 then 0 else total max b) else st.2)
    | .delete s k => ∃ x fin, Runs L (deleteP (st.2 (mapKey s k)) s k) st.1 (x, fin) st'.1 ∧
        r = (match x with | none => .done | some e => .err e) ∧
        st'.2 = (if fin then setCount st.2 (mapKey s k) 0 else st.2)

/-! ### The configured storage -/

/-- api/rankdb.go:279-316: the storage that is named in the configuration; for Aerospike with the size of write
blocks. -/
inductive Storage
  | badger
  | bolt
  | memory
  | aerospike (writeBlock : Nat)
deriving DecidableEq, Repr

/-- api/rankdb.go:278-318 `newBlobstore`. That Badger gets `WithSyncWrites(NoSync)` only matters when the machine
crashes. -/
def newBlobstore : Storage → Layer
  | .badger => badger
  | .bolt => bolt
  | .memory => memory
  | .aerospike writeBlock => maxSize ((if writeBlock = 0 then 2 ^ 20 else writeBlock) - 1024) aerospike

/-- api/rankdb.go:177-185, 321-332: with `wrapRetry` if enabled. -/
def configured (storage : Storage) (retries : Bool) : Layer :=
  if retries then retry (newBlobstore storage) else newBlobstore storage

/-! ### Histories -/

/-- A call with its result, or a stop and start of the server. -/
inductive Event
  | call (c : Call) (r : Ret)
  | restart
deriving DecidableEq, Repr

/-- Histories of a store. -/
inductive Hist (L : Layer) : L.State → List Event → L.State → Prop
  | nil {s} : Hist L s [] s
  | call {s c r s1 es s'} : L.call s c r s1 → Hist L s1 es s' → Hist L s (.call c r :: es) s'
  | restart {s s1 es s'} : L.restart s s1 → Hist L s1 es s' → Hist L s (.restart :: es) s'

end RankDB.Layers

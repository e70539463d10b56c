import Verif.Model.MaxSize
/-
Model of the store that limits the size of blobs with any number of calls at the same time: blobstore/maxsize.go.

`Model/MaxSize` takes calls as atomic. Here a call is a sequence of single operations on the store below and on the
cache of part counts, and the operations of different calls interleave. Only calls with the same `mapKey` exclude each
other (`runningOp`, maxsize.go:56-66). The process may end at any point (`crash`) and be started again.

Simplifications: looking up the mutex of a key (maxsize.go:57-63) and taking it is one step, and the mutex is
given to any call waiting for it. Counts are unbounded; `int(n)` in maxsize.go:85 and 176 is not modelled for counts of 2^63 and more,
which `Set` does not write.
-/
namespace RankDB.MaxSteps
open Wire
open RankDB.MaxSize (Store State Err Res mapKey extKey partKey setCount putUvarint uvarint total)

/-- How an operation on the store below ends: as asked, or with an error, the change made (`late`) or not. -/
inductive Fate
  | ok
  | fail
  | late
deriving DecidableEq, Repr

/-- What is left of a call. -/
inductive Prog
  /-- the call is to return -/
  | done (r : Res)
  /-- `Get` of the store below: `none` for an error other than `ErrBlobNotFound`, `some none` for the latter -/
  | read (set key : Str) (k : Option (Option Bytes) → Prog)
  /-- `Set` or `Delete` (`none`) of the store below; `false` for an error -/
  | write (set key : Str) (v : Option Bytes) (k : Bool → Prog)
  /-- `r.parts[m]` -/
  | count (m : Str) (k : Nat → Prog)
  /-- assign or delete (0) `r.parts[m]` -/
  | setCount (m : Str) (n : Nat) (k : Prog)

/-- maxsize.go:85-95, from part `i` on. -/
def getLoop (set key : Str) : Nat → Nat → Bytes → Prog
  | 0, _, acc => .done (.blob (.ok acc))
  | c + 1, i, acc =>
    .read set (extKey key i) fun
      | none => .done (.blob (.error .store))
      | some none => .done (.blob (.error .notFound))
      | some (some b) => getLoop set key c (i + 1) (acc ++ b)

/-- maxsize.go:69-97 `Get`. -/
def getProg (set key : Str) : Prog :=
  .read set key fun
    | none => .done (.blob (.error .store))
    | some none => .done (.blob (.error .notFound))
    | some (some b) =>
      match uvarint b with
      | none => .done (.blob (.error .corrupt))
      | some (n, size) =>
        if n = 0 then .setCount (mapKey set key) 0 (.done (.blob (.ok (b.drop size))))
        else .setCount (mapKey set key) (n + 1) (getLoop set key n 0 (b.drop size))

/-- maxsize.go:120-126: delete `c` parts from part `i` on, then go on with `p`. -/
def extraLoop (set key : Str) : Nat → Nat → Prog → Prog
  | 0, _, p => p
  | c + 1, i, p => .write set (extKey key (i - 1)) none fun _ => extraLoop set key c (i + 1) p

/-- maxsize.go:133-147: write `c` parts from part `i` on, then go on with `p`. -/
def setLoop (max : Nat) (set key : Str) : Nat → Nat → Bytes → Prog → Prog
  | 0, _, _, p => p
  | c + 1, i, b2, p =>
    .write set (partKey key i) (some (b2.take max)) fun
      | true => setLoop max set key c (i + 1) (b2.drop max) p
      | false => .done (.unit (.error .store))

/-- maxsize.go:100-155 `Set`. -/
def setProg (max : Nat) (set key : Str) (b : Bytes) : Prog :=
  if 65535 ≤ total max b then .done (.unit (.error .tooBig))
  else
    .count (mapKey set key) fun prev =>
      extraLoop set key (prev - total max b) (total max b)
        (setLoop max set key (total max b) 0 (putUvarint 3 (total max b - 1) ++ b)
          (.setCount (mapKey set key) (if total max b = 1 then 0 else total max b) (.done (.unit (.ok ())))))

/-- maxsize.go:176-189: delete `c` parts from part `i` on, and the entry in the cache. -/
def deleteLoop (set key : Str) : Nat → Nat → Prog
  | 0, _ => .setCount (mapKey set key) 0 (.done (.unit (.ok ())))
  | c + 1, i =>
    .write set (partKey key i) none fun
      | true => deleteLoop set key c (i + 1)
      | false => .done (.unit (.error .store))

/-- maxsize.go:158-190 `Delete`. -/
def deleteProg (set key : Str) : Prog :=
  .count (mapKey set key) fun n =>
    if n = 0 then
      .read set key fun
        | none => .done (.unit (.ok ()))
        | some none => .done (.unit (.ok ()))
        | some (some b) =>
          match uvarint b with
          | none => deleteLoop set key 1 0
          | some (n, _) => deleteLoop set key (n + 1) 0
    else deleteLoop set key n 0

/-- The calls of `Store`. -/
inductive Call
  | get (set key : Str)
  | set (set key : Str) (b : Bytes)
  | delete (set key : Str)
deriving DecidableEq

def Call.name : Call → Str
  | .get s _ | .set s _ _ | .delete s _ => s

def Call.key : Call → Str
  | .get _ k | .set _ k _ | .delete _ k => k

def Call.prog (max : Nat) : Call → Prog
  | .get s k => getProg s k
  | .set s k b => setProg max s k b
  | .delete s k => deleteProg s k

/-- One operation. -/
def act (st : State) : Prog → Fate → State × Prog
  | .done r, _ => (st, .done r)
  | .read s k c, f => (st, c (if f = .ok then some (st.store s k) else none))
  | .write s k v c, f => (if f = .fail then st else { st with store := st.store.put s k v }, c (f = .ok))
  | .count m c, _ => (st, c (st.parts m))
  | .setCount m n p, _ => ({ st with parts := setCount st.parts m n }, p)

/-- Where a call is: waiting for the mutex, running (`clean`: no operation has failed so far), or over. -/
inductive Pc
  | want
  | running (p : Prog) (clean : Bool)
  | over

structure Thread where
  call : Call
  pc : Pc

/-- What happened: a call returned, a call was running when the process ended, and the end of the process. -/
inductive Event
  | returned (c : Call) (r : Res) (clean : Bool)
  | lost (c : Call)
  | crash

structure Conc where
  st : State
  threads : List Thread
  log : List Event

inductive Label
  /-- a new call -/
  | call (c : Call)
  /-- it takes the mutex -/
  | begin (t : Nat)
  /-- its next operation -/
  | step (t : Nat) (f : Fate)
  /-- it releases the mutex and returns -/
  | finish (t : Nat)
  /-- the process ends and is started again on the same store -/
  | crash

def Pc.isRunning : Pc → Bool
  | .running _ _ => true
  | _ => false

/-- maxsize.go:64: nobody has the mutex of the key. -/
def free (ts : List Thread) (m : Str) : Bool :=
  ts.all fun t => !(t.pc.isRunning && (mapKey t.call.name t.call.key == m))

/-- The calls that a crash ends while they are running. -/
def lostCalls (ts : List Thread) : List Event :=
  (ts.filter (·.pc.isRunning)).map fun t => .lost t.call

/-- One step, if it is possible. -/
def exec (max : Nat) (σ : Conc) : Label → Option Conc
  | .call c => some { σ with threads := σ.threads ++ [⟨c, .want⟩] }
  | .begin t =>
    match σ.threads[t]? with
    | some ⟨c, .want⟩ =>
      if free σ.threads (mapKey c.name c.key) then
        some { σ with threads := σ.threads.set t ⟨c, .running (c.prog max) true⟩ }
      else none
    | _ => none
  | .step t f =>
    match σ.threads[t]? with
    | some ⟨_, .running (.done _) _⟩ => none
    | some ⟨c, .running p clean⟩ =>
      some { σ with
        st := (act σ.st p f).1
        threads := σ.threads.set t ⟨c, .running (act σ.st p f).2 (clean && f = .ok)⟩ }
    | _ => none
  | .finish t =>
    match σ.threads[t]? with
    | some ⟨c, .running (.done r) clean⟩ =>
      some { σ with threads := σ.threads.set t ⟨c, .over⟩, log := σ.log ++ [.returned c r clean] }
    | _ => none
  | .crash =>
    some { st := { σ.st with parts := fun _ => 0 }, threads := [], log := σ.log ++ lostCalls σ.threads ++ [.crash] }

/-- A schedule, if it is possible. -/
def execs (max : Nat) (σ : Conc) : List Label → Option Conc
  | [] => some σ
  | l :: ls =>
    match exec max σ l with
    | some σ' => execs max σ' ls
    | none => none

/-- A new `MaxSizeStore` on a store. -/
def start (st : State) : Conc := { st := st, threads := [], log := [] }

end RankDB.MaxSteps

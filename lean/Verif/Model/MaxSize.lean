import Verif.Model.Keys
import Verif.Model.Wire
/-
Model of the store that limits the size of blobs: blobstore/maxsize.go.

The store below is a map from set and key to a blob, each of whose operations may also fail: `f i` says whether the
`i`th of the operations of a call succeeds, and `late` whether the change that failed (it ends the call) was made
nevertheless. Operations on one key exclude each other
(`runningOp`, maxsize.go:56-66), so that calls are modelled as atomic; `Model/MaxSteps` has single operations, and C98
proves that this makes no difference.
-/
namespace RankDB.MaxSize
open Keys Wire

/-- Blobs by set and key. -/
abbrev Store := Str → Str → Option Bytes

def Store.put (s : Store) (set key : Str) (b : Option Bytes) : Store :=
  fun set' key' => if set' = set ∧ key' = key then b else s set' key'

/-- Errors: `ErrBlobNotFound`, "corrupt blob", `ErrBlobTooBig` and an error of the store below. -/
inductive Err
  | notFound | corrupt | tooBig | store
deriving DecidableEq, Repr

/-- maxsize.go:21-30: the store below and the cache of the number of parts (0 for no entry). -/
structure State where
  store : Store
  parts : Str → Nat

/-- maxsize.go:48-50. -/
def mapKey (set key : Str) : Str := set ++ 47 :: 92 :: key

/-- maxsize.go:52-54. -/
def extKey (key : Str) (n : Nat) : Str := key ++ 43 :: itoa n

/-- maxsize.go:135-138, 178-181. -/
def partKey (key : Str) (i : Nat) : Str := if i = 0 then key else extKey key (i - 1)

/-- Assignment and deletion (0) in the cache of part counts. -/
def setCount (p : Str → Nat) (k : Str) (n : Nat) : Str → Nat := fun k' => if k' = k then n else p k'

/-- encoding/binary `PutUvarint`, at most `fuel` bytes. -/
def putUvarint : Nat → Nat → Bytes
  | 0, _ => []
  | fuel + 1, x => if x < 128 then [UInt8.ofNat x] else UInt8.ofNat (x % 128 + 128) :: putUvarint fuel (x / 128)

/-- encoding/binary `Uvarint`: value and number of bytes, `none` for a size below 1. Overflow is detected at the
tenth byte. -/
def uvarintAux : Nat → Nat → Bytes → Option (Nat × Nat)
  | _, _, [] => none
  | i, x, b :: r =>
    if i = 10 then none
    else if b.toNat < 128 then
      if i = 9 ∧ 1 < b.toNat then none else some (x + b.toNat * 2 ^ (7 * i), i + 1)
    else uvarintAux (i + 1) (x + b.toNat % 128 * 2 ^ (7 * i)) r

def uvarint (b : Bytes) : Option (Nat × Nat) := uvarintAux 0 0 b

/-- maxsize.go:85-95, the loop of `Get`; `i` is the next external part, operation `i + 1` of the call. -/
def getParts (f : Nat → Bool) (s : Store) (set key : Str) : Nat → Nat → Bytes → Except Err Bytes
  | 0, _, acc => .ok acc
  | c + 1, i, acc =>
    if f (i + 1) then
      match s set (extKey key i) with
      | none => .error .notFound
      | some b => getParts f s set key c (i + 1) (acc ++ b)
    else .error .store

/-- maxsize.go:69-97 `Get`. -/
def get (f : Nat → Bool) (st : State) (set key : Str) : State × Except Err Bytes :=
  if f 0 then
    match st.store set key with
    | none => (st, .error .notFound)
    | some b =>
      match uvarint b with
      | none => (st, .error .corrupt)
      | some (n, size) =>
        if n = 0 then ({ st with parts := setCount st.parts (mapKey set key) 0 }, .ok (b.drop size))
        else
          ({ st with parts := setCount st.parts (mapKey set key) (n + 1) },
            getParts f st.store set key n 0 (b.drop size))
  else (st, .error .store)

/-- maxsize.go:115-126: delete `c` parts from part `i` on, errors are ignored. -/
def deleteExtra (g : Nat → Bool) (set key : Str) : Nat → Nat → Store → Store
  | 0, _, s => s
  | c + 1, i, s => deleteExtra g set key c (i + 1) (if g i then s.put set (extKey key (i - 1)) none else s)

/-- maxsize.go:133-147: write `c` parts from part `i` on; false when one failed. -/
def setParts (max : Nat) (f : Nat → Bool) (late : Bool) (set key : Str) : Nat → Nat → Bytes → Store → Store × Bool
  | 0, _, _, s => (s, true)
  | c + 1, i, b2, s =>
    if f i then setParts max f late set key c (i + 1) (b2.drop max) (s.put set (partKey key i) (some (b2.take max)))
    else (if late then s.put set (partKey key i) (some (b2.take max)) else s, false)

/-- maxsize.go:102, the number of parts. -/
def total (max : Nat) (b : Bytes) : Nat := (b.length + 3 + max - 1) / max

/-- maxsize.go:100-155 `Set`; `g` for the deletions of superfluous parts, `f` for the writes. -/
def set (max : Nat) (g f : Nat → Bool) (late : Bool) (st : State) (set key : Str) (b : Bytes) : State × Except Err Unit :=
  if 65535 ≤ total max b then (st, .error .tooBig)
  else
    let s1 := deleteExtra g set key (st.parts (mapKey set key) - total max b) (total max b) st.store
    let (s2, ok) := setParts max f late set key (total max b) 0 (putUvarint 3 (total max b - 1) ++ b) s1
    if ok then
      ({ store := s2
         parts := setCount st.parts (mapKey set key) (if total max b = 1 then 0 else total max b) }, .ok ())
    else ({ st with store := s2 }, .error .store)

/-- maxsize.go:176-185: delete `c` parts from part `i` on; false when one failed. -/
def deleteParts (f : Nat → Bool) (late : Bool) (set key : Str) : Nat → Nat → Store → Store × Bool
  | 0, _, s => (s, true)
  | c + 1, i, s =>
    if f (i + 1) then deleteParts f late set key c (i + 1) (s.put set (partKey key i) none)
    else (if late then s.put set (partKey key i) none else s, false)

/-- maxsize.go:158-190 `Delete`; operation 0 is the reading of the header, whose failure is taken for absence. -/
def delete (f : Nat → Bool) (late : Bool) (st : State) (set key : Str) : State × Except Err Unit :=
  let fin (n : Nat) : State × Except Err Unit :=
    let (s, ok) := deleteParts f late set key n 0 st.store
    if ok then ({ store := s, parts := setCount st.parts (mapKey set key) 0 }, .ok ())
    else ({ st with store := s }, .error .store)
  if st.parts (mapKey set key) = 0 then
    if f 0 then
      match st.store set key with
      | none => (st, .ok ())
      | some b =>
        match uvarint b with
        | none => fin 1
        | some (n, _) => fin (n + 1)
    else (st, .ok ())
  else fin (st.parts (mapKey set key))

/-- Calls, with the outcomes of the operations on the store below. `restart` opens a new `MaxSizeStore` on the
same store below. -/
inductive Op
  | get (f : Nat → Bool) (set key : Str)
  | set (g f : Nat → Bool) (late : Bool) (set key : Str) (b : Bytes)
  | delete (f : Nat → Bool) (late : Bool) (set key : Str)
  | restart

inductive Res
  | blob (r : Except Err Bytes)
  | unit (r : Except Err Unit)

def step (max : Nat) (st : State) : Op → State × Res
  | .get f s k => ((get f st s k).1, .blob (get f st s k).2)
  | .set g f late s k b => ((set max g f late st s k b).1, .unit (set max g f late st s k b).2)
  | .delete f late s k => ((delete f late st s k).1, .unit (delete f late st s k).2)
  | .restart => ({ st with parts := fun _ => 0 }, .unit (.ok ()))

/-- The events of a history of calls: each call with its result. -/
def run (max : Nat) : State → List Op → List (Op × Res)
  | _, [] => []
  | st, o :: os => (o, (step max st o).2) :: run max (step max st o).1 os

/-- The state after a history of calls. -/
def final (max : Nat) (st : State) (os : List Op) : State := os.foldl (fun st o => (step max st o).1) st

/-- A new store: nothing stored. -/
def empty : State := { store := fun _ _ => none, parts := fun _ => 0 }

end RankDB.MaxSize

/-
Model of the MessagePack encoding used for everything that is stored: the functions of the library
github.com/tinylib/msgp that the generated files `*_gen.go` call. The library is not part of /repo; the
definitions follow the MessagePack format and the choices of that library (shortest form for unsigned numbers,
signed forms for `int`, any sufficient form accepted when reading).
-/
namespace RankDB.Wire

abbrev Bytes := List UInt8

/-- A reader: the value and the remaining bytes, or an error. The library's streaming `msgp.Reader` and its
functions on byte slices are modelled by the same functions. -/
def Dec (α : Type) := Bytes → Option (α × Bytes)

instance : Monad Dec where
  pure a := fun b => some (a, b)
  bind p f := fun b => match p b with
    | some (a, r) => f a r
    | none => none

/-- An error. -/
def fail {α : Type} : Dec α := fun _ => none

/-- Read `n` bytes; too few are an error (`io.EOF` or `msgp.ErrShortBytes`). -/
def takeN (n : Nat) : Dec Bytes := fun b =>
  if n ≤ b.length then some (b.take n, b.drop n) else none

/-- Read one byte. -/
def lead : Dec UInt8
  | [] => none
  | b :: r => some (b, r)

/-- `v` in `k` bytes, most significant first. -/
def be : Nat → Nat → Bytes
  | 0, _ => []
  | k + 1, v => UInt8.ofNat (v / 256 ^ k) :: be k v

/-- The number in big-endian bytes. -/
def unbe (b : Bytes) : Nat := b.foldl (fun acc x => acc * 256 + x.toNat) 0

/-- Read a number of `k` bytes. -/
def decBE (k : Nat) : Dec Nat := do
  let b ← takeN k
  return unbe b

/-- `msgp.Writer.WriteUint64` (and `WriteUint32`, `WriteUint8`, `WriteByte`): shortest form. -/
def encUint (v : Nat) : Bytes :=
  if v < 2 ^ 7 then [UInt8.ofNat v]
  else if v < 2 ^ 8 then 0xcc :: be 1 v
  else if v < 2 ^ 16 then 0xcd :: be 2 v
  else if v < 2 ^ 32 then 0xce :: be 4 v
  else 0xcf :: be 8 v

/-- Two's complement: the signed number of a `k`-byte number. -/
def signed (k : Nat) (v : Nat) : Int := if v < 2 ^ (8 * k - 1) then (v : Int) else (v : Int) - 2 ^ (8 * k)

/-- Two's complement of `i` in `k` bytes, as an unsigned number. -/
def unsigned (k : Nat) (i : Int) : Nat := (i % (2 ^ (8 * k) : Int)).toNat

/-- `msgp.Writer.WriteInt64` (and `WriteInt`). -/
def encInt (i : Int) : Bytes :=
  if 0 ≤ i then
    if i < 2 ^ 7 then [UInt8.ofNat i.toNat]
    else if i < 2 ^ 15 then 0xd1 :: be 2 (unsigned 2 i)
    else if i < 2 ^ 31 then 0xd2 :: be 4 (unsigned 4 i)
    else 0xd3 :: be 8 (unsigned 8 i)
  else if -32 ≤ i then [UInt8.ofNat (unsigned 1 i)]
  else if -2 ^ 7 ≤ i then 0xd0 :: be 1 (unsigned 1 i)
  else if -2 ^ 15 ≤ i then 0xd1 :: be 2 (unsigned 2 i)
  else if -2 ^ 31 ≤ i then 0xd2 :: be 4 (unsigned 4 i)
  else 0xd3 :: be 8 (unsigned 8 i)

/-- Any integer, unsigned or signed form. -/
def decNumber : Dec Int := do
  let b ← lead
  if b < 0x80 then return b.toNat
  else if 0xe0 ≤ b then return signed 1 b.toNat
  else if b = 0xcc then return ((← decBE 1) : Nat)
  else if b = 0xcd then return ((← decBE 2) : Nat)
  else if b = 0xce then return ((← decBE 4) : Nat)
  else if b = 0xcf then return ((← decBE 8) : Nat)
  else if b = 0xd0 then return signed 1 (← decBE 1)
  else if b = 0xd1 then return signed 2 (← decBE 2)
  else if b = 0xd2 then return signed 4 (← decBE 4)
  else if b = 0xd3 then return signed 8 (← decBE 8)
  else fail

/-- `ReadUint64`, `ReadUint32`, `ReadUint8`: negative numbers and numbers above `2^bits - 1` are errors. -/
def decUint (bits : Nat) : Dec Nat := do
  let i ← decNumber
  if 0 ≤ i ∧ i < 2 ^ bits then return i.toNat else fail

/-- `ReadInt64`, `ReadInt`. -/
def decInt : Dec Int := do
  let i ← decNumber
  if i < 2 ^ 63 then return i else fail

/-- `WriteArrayHeader`. -/
def encArray (n : Nat) : Bytes :=
  if n < 16 then [UInt8.ofNat (0x90 + n)]
  else if n < 2 ^ 16 then 0xdc :: be 2 n
  else 0xdd :: be 4 n

/-- `ReadArrayHeader`. -/
def decArray : Dec Nat := do
  let b ← lead
  if 0x90 ≤ b ∧ b < 0xa0 then return b.toNat - 0x90
  else if b = 0xdc then decBE 2
  else if b = 0xdd then decBE 4
  else fail

/-- `WriteMapHeader`. -/
def encMap (n : Nat) : Bytes :=
  if n < 16 then [UInt8.ofNat (0x80 + n)]
  else if n < 2 ^ 16 then 0xde :: be 2 n
  else 0xdf :: be 4 n

/-- `ReadMapHeader`. -/
def decMap : Dec Nat := do
  let b ← lead
  if 0x80 ≤ b ∧ b < 0x90 then return b.toNat - 0x80
  else if b = 0xde then decBE 2
  else if b = 0xdf then decBE 4
  else fail

/-- `WriteBytes`. -/
def encBin (d : Bytes) : Bytes :=
  (if d.length < 2 ^ 8 then 0xc4 :: be 1 d.length
   else if d.length < 2 ^ 16 then 0xc5 :: be 2 d.length
   else 0xc6 :: be 4 d.length) ++ d

/-- `ReadBytes`. An empty and a nil slice are not distinguished. -/
def decBin : Dec Bytes := do
  let b ← lead
  if b = 0xc4 then takeN (← decBE 1)
  else if b = 0xc5 then takeN (← decBE 2)
  else if b = 0xc6 then takeN (← decBE 4)
  else fail

/-- `WriteString`. -/
def encStr (d : Bytes) : Bytes :=
  (if d.length < 32 then [UInt8.ofNat (0xa0 + d.length)]
   else if d.length < 2 ^ 8 then 0xd9 :: be 1 d.length
   else if d.length < 2 ^ 16 then 0xda :: be 2 d.length
   else 0xdb :: be 4 d.length) ++ d

/-- `ReadString`. -/
def decStr : Dec Bytes := do
  let b ← lead
  if 0xa0 ≤ b ∧ b < 0xc0 then takeN (b.toNat - 0xa0)
  else if b = 0xd9 then takeN (← decBE 1)
  else if b = 0xda then takeN (← decBE 2)
  else if b = 0xdb then takeN (← decBE 4)
  else fail

/-- `ReadMapKeyPtr`: a string or bytes. -/
def decKey : Dec Bytes := do
  let b ← lead
  if 0xa0 ≤ b ∧ b < 0xc0 then takeN (b.toNat - 0xa0)
  else if b = 0xd9 ∨ b = 0xc4 then takeN (← decBE 1)
  else if b = 0xda ∨ b = 0xc5 then takeN (← decBE 2)
  else if b = 0xdb ∨ b = 0xc6 then takeN (← decBE 4)
  else fail

/-- `WriteBool`. -/
def encBool (b : Bool) : Bytes := [if b then 0xc3 else 0xc2]

/-- `ReadBool`. -/
def decBool : Dec Bool := do
  let b ← lead
  if b = 0xc3 then return true else if b = 0xc2 then return false else fail

/-- `for i := range z { z[i].DecodeMsg(dc) }` with `n` places. -/
def decN {α : Type} (p : Dec α) : Nat → Dec (List α)
  | 0 => pure []
  | n + 1 => do
    let x ← p
    let xs ← decN p n
    return x :: xs

/-- The size of one object without its parts, as number of bytes still to read, and the number of parts
(library function `getSize`). -/
def objSize : Dec (Nat × Nat) := do
  let b ← lead
  if b < 0x80 then return (0, 0)
  else if b < 0x90 then return (0, 2 * (b.toNat - 0x80))
  else if b < 0xa0 then return (0, b.toNat - 0x90)
  else if b < 0xc0 then return (b.toNat - 0xa0, 0)
  else if b = 0xc0 ∨ b = 0xc2 ∨ b = 0xc3 then return (0, 0)
  else if b = 0xc4 ∨ b = 0xd9 then return (← decBE 1, 0)
  else if b = 0xc5 ∨ b = 0xda then return (← decBE 2, 0)
  else if b = 0xc6 ∨ b = 0xdb then return (← decBE 4, 0)
  else if b = 0xc7 then return ((← decBE 1) + 1, 0)
  else if b = 0xc8 then return ((← decBE 2) + 1, 0)
  else if b = 0xc9 then return ((← decBE 4) + 1, 0)
  else if b = 0xca then return (4, 0)
  else if b = 0xcb then return (8, 0)
  else if b = 0xcc ∨ b = 0xd0 then return (1, 0)
  else if b = 0xcd ∨ b = 0xd1 then return (2, 0)
  else if b = 0xce ∨ b = 0xd2 then return (4, 0)
  else if b = 0xcf ∨ b = 0xd3 then return (8, 0)
  else if b = 0xd4 then return (2, 0)
  else if b = 0xd5 then return (3, 0)
  else if b = 0xd6 then return (5, 0)
  else if b = 0xd7 then return (9, 0)
  else if b = 0xd8 then return (17, 0)
  else if b = 0xdc then return (0, ← decBE 2)
  else if b = 0xdd then return (0, ← decBE 4)
  else if b = 0xde then return (0, 2 * (← decBE 2))
  else if b = 0xdf then return (0, 2 * (← decBE 4))
  else if 0xe0 ≤ b then return (0, 0)
  else fail

/-- `Skip`, for `k` objects in a row: the recursion of the library over the parts of an object is replaced by a
count of objects still to skip. `fuel` is the number of bytes, every object has at least one. -/
def skipN : Nat → Nat → Dec Unit
  | _, 0 => pure ()
  | 0, _ + 1 => fail
  | fuel + 1, k + 1 => do
    let (n, parts) ← objSize
    let _ ← takeN n
    skipN fuel (parts + k)

/-- `Skip` of one object. -/
def skip : Dec Unit := fun b => skipN b.length 1 b

end RankDB.Wire

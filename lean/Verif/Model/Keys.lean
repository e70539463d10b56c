import Verif.Model.Catalogue
/-
Model of storage keys, cache keys and generated IDs: segment.go:97-104, tools.go:29-66.
-/
namespace RankDB.Keys

/-- Decimal digits of `n`, `strconv.Itoa` and `%d`; `fuel` is more than `n`. -/
def digits : Nat → Nat → Str
  | 0, _ => []
  | fuel + 1, n => if n < 10 then [UInt8.ofNat (48 + n)] else digits fuel (n / 10) ++ [UInt8.ofNat (48 + n % 10)]

/-- `strconv.Itoa` of a number that is not negative. -/
def itoa (n : Nat) : Str := digits (n + 1) n

/-- `%06d`: with leading zeros up to six digits. -/
def pad6 (n : Nat) : Str := List.replicate (6 - (itoa n).length) 48 ++ itoa n

/-- segment.go:97-99 `Segment.StorageKey`. -/
def storageKey (parent : Str) (id : Nat) : Str := parent ++ 45 :: pad6 id

/-- segment.go:102-104 `Segment.cacheID`. -/
def cacheID (parent : Str) (id : Nat) : Str := itoa id ++ 91 :: (parent ++ [93])

/-- manager.go:41 `listStorageKey`: "lists". -/
def listStorageKey : Str := [108, 105, 115, 116, 115]

/-- manager.go:42 `backupListStorageKey`: "lists-backup". -/
def backupListStorageKey : Str := [108, 105, 115, 116, 115, 45, 98, 97, 99, 107, 117, 112]

/-- tools.go:54-63, one character. -/
def randChar (r : Nat) : UInt8 :=
  let m := r % 62
  if m < 10 then UInt8.ofNat (48 + m)
  else if m < 36 then UInt8.ofNat (65 + m - 10)
  else UInt8.ofNat (97 + m - 36)

/-- tools.go:48-51, `k` digits of the time, lowest first. -/
def timeDigits : Nat → Nat → List Nat
  | 0, _ => []
  | k + 1, t => t % 62 :: timeDigits k (t / 62)

/-- tools.go:29-66 `RandString`, with the random bytes and the time in units of `timeResolution` as arguments. -/
def randString (rnd : List UInt8) (t : Nat) : Str := (rnd.map (·.toNat) ++ timeDigits 8 t).map randChar

end RankDB.Keys

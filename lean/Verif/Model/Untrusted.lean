import Verif.Model.Backup
/-
Model of what reading asks the memory allocator for: the arguments of `make` in the functions that read elements and
backups. `Model/Stored` and `Model/Backup` have what is read; there, a number for which `make` panics is an error of
decoding or is ignored.

Simplifications: the slice of segments in `Segments.DecodeMsg` (segments_gen.go:44-48) is left out, it is as the slice of
elements. Strings, payloads and maps are left out, the library reads them. Go's `int` has 64 bits.
-/
namespace RankDB.Untrusted
open Wire Stored Backup

/-- elements_gen.go:98-107: the elements that are asked for when a slice of capacity `cap` is read into, from the
array header alone. -/
def askElements (cap : Int) (b : Bytes) : List Int :=
  match decArray b with
  | none => []
  | some (n, _) => if n ≤ cap then [] else [(n : Int)]

/-- segment.go:204-222 `loadElements`: the elements asked for, into a nil slice. -/
def askBlob (b : Bytes) : List Int :=
  let (v, b) := getVersion b
  if v ≠ elementsVersion then [] else askElements 0 b

/-- How reading ends. -/
inductive Ending (α : Type)
  | value (a : α)
  | error (e : Err)
  | panic
deriving DecidableEq, Repr

/-- Go's `make` of `n` places, when at most `limit` places can be asked for: false is the panic. -/
def fits (limit : Nat) (n : Int) : Bool := 0 ≤ n && n ≤ limit

/-- list.go:1964-1989: the segments; `make(Elements, 0, seg.N)` at list.go:1975 comes before the elements. -/
def readParts (limit : Nat) : Nat → Bytes → Ending (List (SegMeta × List Element))
  | 0, _ => .value []
  | n + 1, b =>
    match decSegment b with
    | none => .error .decode
    | some (m, b) =>
      if fits limit m.n then
        match decElements b with
        | none => .error .decode
        | some (es, b) =>
          match readParts limit n b with
          | .value ps => .value ((m, es) :: ps)
          | .error e => .error e
          | .panic => .panic
      else .panic

/-- list.go:1920-1989, the reading part of `RestoreList` as `Backup.parse`, with the panics of `make` at list.go:1963
and 1975. -/
def readFile (limit : Nat) (b : Bytes) : Ending Parsed :=
  let (v, b) := getVersion b
  if v ≠ backupVersion then .error .version else
  match decList b with
  | none => .error .decode
  | some (l, b) =>
    let (v, b) := getVersion b
    if v ≠ segmentsVersion then .error .version else
    match decTable b with
    | none => .error .decode
    | some (t, b) =>
      let (v, b) := getVersion b
      if v ≠ segmentVersion then .error .version else
      match decInt b with
      | none => .error .decode
      | some (n, b) =>
        if fits limit n then
          match readParts limit n.toNat b with
          | .value parts => .value { list := l, table := t, parts := parts }
          | .error e => .error e
          | .panic => .panic
        else .panic

/-- list.go:1964-1989: the numbers that are passed to `make` for the elements of the segments. -/
def askParts (limit : Nat) : Nat → Bytes → List Int
  | 0, _ => []
  | n + 1, b =>
    match decSegment b with
    | none => []
    | some (m, b) =>
      m.n :: (if fits limit m.n then askElements m.n b ++
        (match decElements b with
         | none => []
         | some (_, b) => askParts limit n b)
       else [])

/-- list.go:1920-1989: the numbers that are passed to `make`, in order. -/
def asked (limit : Nat) (b : Bytes) : List Int :=
  let (v, b) := getVersion b
  if v ≠ backupVersion then [] else
  match decList b with
  | none => []
  | some (_, b) =>
    let (v, b) := getVersion b
    if v ≠ segmentsVersion then [] else
    match decTable b with
    | none => []
    | some (_, b) =>
      let (v, b) := getVersion b
      if v ≠ segmentVersion then [] else
      match decInt b with
      | none => []
      | some (n, b) => n :: (if fits limit n then askParts limit n.toNat b else [])

end RankDB.Untrusted

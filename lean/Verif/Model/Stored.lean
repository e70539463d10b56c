import Verif.Model.Wire
import Verif.Model.Element
import Verif.Model.Catalogue
/-
Model of the stored forms: element_gen.go, elements_gen.go, segment_gen.go, segments_gen.go, list_gen.go,
and of the functions that read and write them.
-/
namespace RankDB
open Wire

namespace Stored

/-- element_gen.go:53-83 `Element.EncodeMsg`. -/
def encElement (e : Element) : Bytes :=
  0x95 :: (encUint e.score ++ encUint e.id ++ encBin e.payload ++ encUint e.tie ++ encUint e.updated)

/-- element_gen.go:10-50 `Element.DecodeMsg`, 99-143 `UnmarshalMsg`. -/
def decElement : Dec Element := do
  let n ← decArray
  if n ≠ 5 then fail else
  let score ← decUint 64
  let id ← decUint 64
  let payload ← decBin
  let tie ← decUint 32
  let updated ← decUint 32
  return { score, id, payload, tie, updated }

/-- elements_gen.go:118-133 `Elements.EncodeMsg`. -/
def encElements (l : List Element) : Bytes := encArray l.length ++ l.flatMap encElement

/-- elements_gen.go:96-116 `Elements.DecodeMsg`, 148-169 `UnmarshalMsg`. -/
def decElements : Dec (List Element) := do
  let n ← decArray
  decN decElement n

/-- Errors of reading stored data. -/
inductive Err
  | version
  | decode
  | notFound
deriving DecidableEq, Repr

/-- element.go:28 `elementsVersion`. -/
def elementsVersion : Nat := 1
/-- segments.go:28 `segmentsVersion`. -/
def segmentsVersion : Nat := 2
/-- segment.go:43 `segmentVersion`. -/
def segmentVersion : Nat := 2
/-- list.go:238 `listVersion`. -/
def listVersion : Nat := 1
/-- list.go:1847 `backupVersion`. -/
def backupVersion : Nat := 1
/-- msgppool.go:39 `versionError`. -/
def versionError : Nat := 255

/-- msgppool.go:110-127 `GetVersion`, `MsgpGetVersion`: errors give `versionError`. -/
def getVersion (b : Bytes) : Nat × Bytes :=
  match decUint 8 b with
  | some (v, r) => (v, r)
  | none => (versionError, b)

/-- segment.go:233-249 `saveElements`: the blob that is stored. -/
def elementsBlob (l : List Element) : Bytes := encUint elementsVersion ++ encElements l

/-- segment.go:204-222, the decoding part of `loadElements`. Bytes after the elements are ignored. -/
def loadElements (b : Bytes) : Except Err (List Element) :=
  let (v, b) := getVersion b
  if v ≠ elementsVersion then .error .version else
  match decElements b with
  | some (l, _) => .ok l
  | none => .error .decode

/-- segment.go:31-40 `type Segment`, the stored fields, with the Go types `int` and `int64` for `N` and
`Updated`. -/
structure SegMeta where
  id : Nat
  min : Nat
  max : Nat
  minTie : Nat
  maxTie : Nat
  n : Int
  updated : Int
  parent : Str
deriving DecidableEq, Repr, Inhabited

/-- segments.go:31-48 `type Segments`, the stored fields. -/
structure Table where
  id : Str := []
  segments : List SegMeta := []
  nextID : Nat := 0
  isIndex : Bool := false
deriving DecidableEq, Repr, Inhabited

/-- segment_gen.go:70-117 `Segment.EncodeMsg`. -/
def encSegment (s : SegMeta) : Bytes :=
  0x98 :: (encUint s.id ++ encUint s.min ++ encUint s.max ++ encUint s.minTie ++ encUint s.maxTie ++
    encInt s.n ++ encInt s.updated ++ encStr s.parent)

/-- segment_gen.go:10-68 `Segment.DecodeMsg`. -/
def decSegment : Dec SegMeta := do
  let n ← decArray
  if n ≠ 8 then fail else
  let id ← decUint 32
  let min ← decUint 64
  let max ← decUint 64
  let minTie ← decUint 32
  let maxTie ← decUint 32
  let n ← decInt
  let updated ← decInt
  let parent ← decStr
  return { id, min, max, minTie, maxTie, n, updated, parent }

/-- "ID" -/
def keyID : Bytes := [0x49, 0x44]
/-- "Segments" -/
def keySegments : Bytes := [0x53, 0x65, 0x67, 0x6d, 0x65, 0x6e, 0x74, 0x73]
/-- "NextID" -/
def keyNextID : Bytes := [0x4e, 0x65, 0x78, 0x74, 0x49, 0x44]
/-- "IsIndex" -/
def keyIsIndex : Bytes := [0x49, 0x73, 0x49, 0x6e, 0x64, 0x65, 0x78]

/-- segments_gen.go:81-129 `Segments.EncodeMsg`; the bytes of the keys are as in the source. -/
def encTable (t : Table) : Bytes :=
  [0x84, 0xa2, 0x49, 0x44] ++ encStr t.id ++
  [0xa8, 0x53, 0x65, 0x67, 0x6d, 0x65, 0x6e, 0x74, 0x73] ++ encArray t.segments.length ++
    t.segments.flatMap encSegment ++
  [0xa6, 0x4e, 0x65, 0x78, 0x74, 0x49, 0x44] ++ encUint t.nextID ++
  [0xa7, 0x49, 0x73, 0x49, 0x6e, 0x64, 0x65, 0x78] ++ encBool t.isIndex

/-- segments_gen.go:21-76, one field. -/
def decField (t : Table) : Dec Table := do
  let key ← decKey
  if key = keyID then
    let id ← decStr
    return { t with id }
  else if key = keySegments then
    let n ← decArray
    let segments ← decN decSegment n
    return { t with segments }
  else if key = keyNextID then
    let nextID ← decUint 32
    return { t with nextID }
  else if key = keyIsIndex then
    let isIndex ← decBool
    return { t with isIndex }
  else
    let _ ← skip
    return t

/-- segments_gen.go:20-77, the loop over the fields. -/
def decFields : Nat → Table → Dec Table
  | 0, t => pure t
  | n + 1, t => do
    let t ← decField t
    decFields n t

/-- segments_gen.go:10-79 `Segments.DecodeMsg`, into the zero value. -/
def decTable : Dec Table := do
  let n ← decMap
  decFields n {}

/-- segments.go:837-852 `Segments.Save`: the blob that is stored under the ID of the table. -/
def tableBlob (t : Table) : Bytes := encUint segmentsVersion ++ encTable t

/-- segments.go:855-880 `SegmentsID.Load`, the decoding part. -/
def loadTable (b : Bytes) : Except Err Table :=
  let (v, b) := getVersion b
  if v ≠ segmentsVersion then .error .version else
  match decTable b with
  | some (t, _) => .ok t
  | none => .error .decode

/-- list.go:28-61 `type List`, the stored fields. The metadata map is a list of its entries in the order of
iteration; `none` is the nil map. -/
structure ListRec where
  id : Str
  set : Str
  metadata : Option (List (Str × Str))
  splitSize : Int
  mergeSize : Int
  loadIndex : Bool
  scores : Str
  index : Str
deriving DecidableEq, Repr, Inhabited

/-- The entries of a possibly nil map. -/
def ListRec.entries (l : ListRec) : List (Str × Str) := l.metadata.getD []

/-- list_gen.go:87-146 `List.EncodeMsg`. -/
def encList (l : ListRec) : Bytes :=
  0x98 :: (encStr l.id ++ encStr l.set ++
    (encMap l.entries.length ++ l.entries.flatMap fun kv => encStr kv.1 ++ encStr kv.2) ++
    encInt l.splitSize ++ encInt l.mergeSize ++ encBool l.loadIndex ++ encStr l.scores ++ encStr l.index)

/-- Assignment to a Go map. -/
def put (m : List (Str × Str)) (k v : Str) : List (Str × Str) :=
  m.filter (fun e => e.1 != k) ++ [(k, v)]

/-- list_gen.go:43-58, the loop over the metadata. -/
def decMeta : Nat → List (Str × Str) → Dec (List (Str × Str))
  | 0, m => pure m
  | n + 1, m => do
    let k ← decStr
    let v ← decStr
    decMeta n (put m k v)

/-- list_gen.go:10-85 `List.DecodeMsg`, into a new list. -/
def decList : Dec ListRec := do
  let n ← decArray
  if n ≠ 8 then fail else
  let id ← decStr
  let set ← decStr
  let m ← decMap
  let metadata ← decMeta m []
  let splitSize ← decInt
  let mergeSize ← decInt
  let loadIndex ← decBool
  let scores ← decStr
  let index ← decStr
  return { id, set, metadata := some metadata, splitSize, mergeSize, loadIndex, scores, index }

end Stored
end RankDB

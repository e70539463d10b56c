import Verif.Model.Stored
/-
Model of the list file: lists.go:88-226 `Lists.Save`, `Lists.Load`, and manager.go:161-200
`Manager.LoadLists`, `Manager.SaveLists`.
-/
namespace RankDB
open Wire
namespace Stored

/-- The compression libraries. A reader delivers some bytes and then an error or the end of the file. The
library zstd is not part of /repo: what it is assumed to do are the two laws. `flate` is only used to read
old files and nothing is assumed about it. -/
structure Compression where
  zstd : Bytes → Bytes
  unzstd : Bytes → Bytes
  unflate : Bytes → Bytes
  /-- Reading a complete stream delivers what was written. -/
  complete : ∀ b, unzstd (zstd b) = b
  /-- Reading the beginning of a stream delivers a beginning of what was written. -/
  truncated : ∀ b n, unzstd ((zstd b).take n) <+: b

/-- lists.go:112-139, the stream of lists (in the order of iteration) that is written. -/
def listStream (lists : List ListRec) : Bytes :=
  encUint listVersion ++ (lists.flatMap encList ++ encBool true)

/-- lists.go:88-143 `Lists.Save` (`compressLists` is lists.go:79). -/
def saveLists (c : Compression) (compress : Bool) (lists : List ListRec) : Bytes :=
  if compress then 0x17 :: c.zstd (listStream lists) else 0x07 :: listStream lists

/-- lists.go:268-274 `Lists.Add`. -/
def addList (lists : List ListRec) (l : ListRec) : List ListRec := lists.filter (fun x => x.id != l.id) ++ [l]

/-- lists.go:186-196, 218, the loop: until the next object is a bool. Returns the lists added so far in
any case. `fuel` is the number of bytes. -/
def loadLoop : Nat → List ListRec → Bytes → List ListRec × Option Err
  | 0, acc, _ => (acc, some .decode)
  | _ + 1, acc, [] => (acc, some .decode)
  | fuel + 1, acc, b :: r =>
    if b = 0xc2 ∨ b = 0xc3 then (acc, none)
    else match decList (b :: r) with
      | none => (acc, some .decode)
      | some (l, r) => loadLoop fuel (addList acc l) r

/-- lists.go:180-226, after the choice of the reader. `old` are the lists before. -/
def loadStream (old : List ListRec) (b : Bytes) : List ListRec × Option Err :=
  let (v, b) := getVersion b
  if v ≠ listVersion then (old, some .version) else loadLoop (b.length + 1) [] b

/-- lists.go:146-226 `Lists.Load`. -/
def loadLists (c : Compression) (old : List ListRec) (blob : Bytes) : List ListRec × Option Err :=
  match blob with
  | [] => (old, some .notFound)
  | b :: r =>
    if b &&& 7 = 7 then
      if b = 0x07 then loadStream old r
      else if b = 0x17 then loadStream old (c.unzstd r)
      else (old, some .decode)
    else loadStream old (c.unflate (b :: r))

/-- manager.go:161-183 `Manager.LoadLists`. `primary` is the result of reading the list file, `backup` is
`none` without a backup store, otherwise the result of reading the backup. -/
def managerLoad (c : Compression) (old : List ListRec) (primary : Except Err Bytes)
    (backup : Option (Except Err Bytes)) : List ListRec × Option Err :=
  let first := match primary with
    | .ok blob => loadLists c old blob
    | .error e => (old, some e)
  match first.2, backup with
  | none, _ => first
  | some _, none => first
  | some _, some (.error e) => (first.1, some e)
  | some _, some (.ok blob) => loadLists c first.1 blob

end Stored
end RankDB

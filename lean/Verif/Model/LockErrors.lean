import Verif.Model.Locks
/-
Model of the locking of a list when a call fails: the same programs as in `Model/Locks`, with every place at
which an operation in list.go and segments.go returns an error (or panics) after it has taken a lock.

As in `Model/Locks` only the locks are modelled, and everything they depend on is a parameter. In particular
the parameters say which segments cannot be read and after which piece of its work the call gives up.

A read that fails takes and releases the lock of the segment as a read that succeeds does (segments.go:193-257),
and so does a change of a segment that cannot be saved (segments.go:270-299), which is why many failures need no
program of their own: `getRank`, `getRankScoreDesc`, `getPercentile`, `cloneFrom`, `stats` and `verify` in
`Model/Locks` with fewer segments are also the calls that fail.

Not modelled: the errors in segments.go:281-283 (a position that is out of range cannot occur while
`segments` is held), the errors for wrong flags and missing locks at the start of functions, the sanity checks
(`sanityChecks` is false), and the cancelling of contexts (`waitErr`, tools.go:73-108, waits for all goroutines in
that case too, so it is one more way to fail at the same places).
-/
namespace RankDB.Locks

/-- A body that gives up after `k` of its pieces. The locks of the segments are then released by the deferred
function. -/
def stop (k : Nat) (ps : List (List Instr)) : List Instr := (ps.take k).flatten

/-- The goroutines that change one segment each, see `writeSeg`, with whether the segment can be read:
segments.go:344-384, 415-450, 500-545, 1147-1174. -/
def writeSegE (index : Bool) (x : Nat × Bool) : List Act :=
  if x.2 then writeSeg index x.1 else [.acq (.seg index x.1) true, .rel (.seg index x.1) true]

/-- See `writeSegs`. -/
def writeSegsE (index : Bool) (xs : List (Nat × Bool)) : List Instr :=
  [.act (.acq (.table index) false), .par (xs.map (writeSegE index)), .act (.rel (.table index) false), .join]

/-- segments.go:318-389 and 1128-1182, `DeleteElementsIdx` and `updateIndexElements`. -/
def writeParE (index : Bool) (xs : List (Nat × Bool)) : List Instr := [.par (xs.map (writeSegE index)), .join]

/-- list.go:458-487 `saveSegments` in pieces. -/
def savePieces : List (List Instr) := [touch .list false, peek false 1, peek true 1]

/-- list.go:733-767, `reindex` up to `saveSegments`, in pieces. -/
def rebuildPieces (segs : List Nat) : List (List Instr) := [touch .list false, peek false 1, readSegs false segs]

/-- The goroutine of `UpdateElements` for one segment of the index, list.go:1343-1390, with whether it can be
read, and for every element that exists the segment it is in and whether that can be read. -/
def updateKidE (i : Nat) (ok : Bool) (olds : List (Nat × Bool)) : List Act :=
  .load (.seg true i) ok ::
    if ok then olds.flatMap fun j => [.acq (.table false) false, .rel (.table false) false, .load (.seg false j.1) j.2]
    else []

/-- A segment of the index with whether it can be read, and the segments of the elements in it. -/
abbrev KidE := Nat × Bool × List (Nat × Bool)

/-- list.go:1260-1392, up to the end of the goroutines. -/
def updateStart (missing : Bool) (looks : Nat) (kids : List KidE) : List Instr :=
  touch .list false ++ ensureIdx false missing ++ peek true looks ++
  [.par (kids.map fun k => updateKidE k.1 k.2.1 k.2.2), .join]

/-- The segments that could be read. -/
def readable (xs : List (Nat × Bool)) : List Nat := (xs.filter (·.2)).map (·.1)

/-- The segments of the index and of the scores that the goroutines have locked: the keys of `segmentsIdx` and
of `segmentScores`. -/
def kidsIdx (kids : List KidE) : List Nat := readable (kids.map fun k => (k.1, k.2.1))
def kidsScores (kids : List KidE) : List Nat := readable ((kids.filter (·.2.1)).flatMap (·.2.2))

/-- The early return, list.go:1324-1331 and 1392-1396. -/
def updateFailE (missing : Bool) (looks : Nat) (kids : List KidE) : List Instr :=
  updateStart missing looks kids ++ ((kidsIdx kids).map fun i => .unload (.seg true i)) ++
  (kidsScores kids).map fun j => .unload (.seg false j)

/-- list.go:1398-1476: the segments of the scores that are loaded by the caller, each after a look at the table or
not and with whether it can be read, and the saving of all segments. Errors of saving are only logged. -/
def updateMid (missing : Bool) (looks : Nat) (kids : List KidE) (dsts : List (Bool × Nat × Bool)) : List Instr :=
  updateStart missing looks kids ++
  (dsts.flatMap fun d => (if d.1 then touch (.table false) false else []) ++ [.act (.load (.seg false d.2.1) d.2.2)]) ++
  (kidsIdx kids).flatMap (replace true) ++
  (kidsScores kids ++ readable (dsts.map (·.2))).flatMap (replace false)

/-- The pieces of `getElements` with `getIndexElements`, up to an error of the latter: list.go:1226-1238. -/
def lookupPieces (looks : Nat) (index : List Nat) : List (List Instr) :=
  [touch .list false, touch .list false, peek true looks, readSegs true index]

/-- What `split` does with a segment; the second segment of a merge may be unreadable, list.go:2126-2129. A segment
that is to be split and cannot be read is only locked. -/
inductive SplitActE
  | plain (a : SplitAct)
  | mergeFails (i : Nat)

/-- The locks for it, see `splitAct`. -/
def splitActE (index : Bool) : SplitActE → List Instr
  | .plain a => splitAct index a
  | .mergeFails i =>
    [.act (.acq (.seg index (i + 1)) true)] ++ touch (.seg index i) true ++ [.act (.rel (.seg index (i + 1)) true)]

/-- list.go:2086-2296, `split` in pieces. -/
def splitPieces (scores : List SplitActE) (upd : List (Nat × Bool)) (n m : Nat) (index : List SplitActE) :
    List (List Instr) :=
  [touch .list false] ++ scores.map (splitActE false) ++ [peek true 1, writeParE true upd, peek false n, peek true m] ++
  index.map (splitActE true) ++ savePieces

/-- The `unlock` function of `newSegments`, list.go:431-435. -/
def newUnlock : List Instr := [.act (.rel .update true), .act (.rel .segments true)]

/-- list.go:886-973 `populate` in pieces. `writes` are the inserts of the deferred elements: for every table that is
changed whether it is the index, and the segments. -/
def populatePieces (empty : Bool) (writes : List (Bool × List (Nat × Bool))) (n m : Nat) : List (List Instr) :=
  [touch .list false, touch .list true] ++ (if empty then [] else [touch .list true]) ++
  writes.map (fun w => writeSegsE w.1 w.2) ++ savePieces ++ [verifyTables n m]

/-- list.go:1810-1838, the reading of all segments in `Repair`. -/
def repairRead (segs : List Nat) : List Instr :=
  [.act (.acq .list true), .act (.acq (.table false) true)] ++ readEach false segs ++
  [.act (.rel .list true), .act (.rel (.table false) true)]

/-- A call that fails. In the constructors `k` is the number of pieces after which it gives up. -/
inductive Failure
  /-- `loadSegments` with the update lock: the index cannot be read, and building it fails before the segments are
  saved, list.go:373-389, 749-763. -/
  | load (wr : Bool) (segs : List Nat) (k : Nat)
  /-- The same, but it fails on saving the segments, list.go:773-777. -/
  | loadUnsaved (wr : Bool) (segs : List Nat) (k : Nat)
  | getElements (how : Loading) (looks : Nat) (index : List Nat) (k : Nat)          -- list.go:1212-1238
  | verifyElements (how : Loading) (scores index : List Nat) (k : Nat)              -- list.go:673-718
  | backup (how : Loading) (segs : List Nat) (k : Nat)                              -- list.go:1850-1914
  /-- The table of segments cannot be written to the destination, list.go:1876-1880. -/
  | backupUnwritten (how : Loading)
  | insert (how : Loading) (writes : List (Bool × List (Nat × Bool))) (k : Nat)     -- list.go:1548-1618
  /-- A segment of the index cannot be read, list.go:1346-1349 and 1392-1396. -/
  | updateElements (how : Loading) (missing : Bool) (looks : Nat) (kids : List KidE)
  /-- The segments of the index can be read, but something else fails, list.go:1398-1489. -/
  | updateLate (how : Loading) (missing : Bool) (looks : Nat) (kids : List (Nat × List (Nat × Bool)))
      (dsts : List (Bool × Nat × Bool)) (results : Option (Nat × List Nat)) (k : Nat)
  | deleteElements (how : Loading) (looks : Nat) (found : List Nat) (missing : Bool) (scores index : List (Nat × Bool))
      (k : Nat)                                                                     -- list.go:1501-1543
  | split (how : Loading) (scores : List SplitActE) (upd : List (Nat × Bool)) (n m : Nat) (index : List SplitActE)
      (k : Nat)                                                                     -- list.go:2069-2296
  /-- Segment `i` of the scores is split and cannot be saved, list.go:2165-2169. -/
  | splitUnsaved (how : Loading) (before : List SplitActE) (i : Nat)
  /-- Segment `i` of the index is split and the new segment cannot be saved, list.go:2260-2264. -/
  | splitIndexUnsaved (how : Loading) (scores : List SplitActE) (upd : List (Nat × Bool)) (n m : Nat)
      (before : List SplitActE) (i : Nat)
  | reindex (how : Loading) (segs : List Nat) (k : Nat)                             -- list.go:722-767
  /-- The segments cannot be saved, list.go:773-777. -/
  | reindexUnsaved (how : Loading) (segs : List Nat) (k : Nat)
  | populate (how : Loading) (empty : Bool) (writes : List (Bool × List (Nat × Bool))) (n m : Nat) (k : Nat)
                                                                                    -- list.go:869-973
  /-- The new index cannot be stored, list.go:949-953. -/
  | populateNoIndex (how : Loading)
  | repair (stat how : Loading) (segs : List Nat) (empty : Bool) (writes : List (Bool × List (Nat × Bool))) (n m : Nat)
      (k : Nat)                                                                     -- list.go:1789-1845
  /-- The statistics could not be read, but the segments can; `stats` is nil, list.go:1791 and 1822. -/
  | repairPanics (how : Loading)
  /-- The new index cannot be stored, list.go:949-953. -/
  | repairNoIndex (stat how : Loading) (segs : List Nat)

/-- Locking of `loadSegments` with the update lock up to the rebuilding of the index, list.go:320-378. -/
def loadStart (wr : Bool) : List Instr :=
  [.act (.acq .update true), .act (.acq .loading true), .act (.acq .segments wr)] ++
  if wr then [] else [.act (.rel .segments false), .act (.acq .segments true)]

/-- The locking of a call that fails. `defer segs.unlock()` evaluates `segs.unlock` when it is reached, so that it calls
the same function again when `reindex` has called it (`reindexUnsaved`); the functions of list.go:327-344 are called
through the field, which is replaced on the first call, but the one of list.go:359-364 does not replace it
(`loadUnsaved`). In `populateNoIndex` the second call is through the field. -/
def Failure.program : Failure → List Instr
  | .load wr segs k => loadStart wr ++ stop k (rebuildPieces segs) ++ unlock true true ++ [.act (.rel .loading true)]
  | .loadUnsaved wr segs k =>
    loadStart wr ++ (rebuildPieces segs).flatten ++ stop k savePieces ++ unlock true true ++
    (if wr then [] else unlock true true) ++ [.act (.rel .loading true)]
  | .getElements how looks index k => reader how (touch .list false ++ stop k (lookupPieces looks index))
  | .verifyElements how scores index k =>
    touch .list false ++ updater how (stop k [touch .list false, peek false 1, readSegs false scores, peek true 1,
      readSegs true index])
  | .backup how segs k =>
    updater how (stop k ([touch .list false, peek false 1] ++ segs.map fun i => touch (.seg false i) false))
  | .backupUnwritten how => updater how (touch .list false ++ [.act (.acq (.table false) false)])
  | .insert how writes k =>
    updater how (stop k (writes.map (fun w => writeSegsE w.1 w.2) ++ [checkSplit] ++ savePieces))
  | .updateElements how missing looks kids => updater how (updateFailE missing looks kids)
  | .updateLate how missing looks kids dsts results k =>
    updater how (updateMid missing looks (kids.map fun x => (x.1, true, x.2)) dsts ++
      stop k ((match results with
        | none => []
        | some (n, index) => lookupPieces n index) ++ [checkSplit] ++ savePieces))
  | .deleteElements how looks found missing scores index k =>
    updater how (touch .list false ++ stop k ([touch .list false, peek true looks, readSegs true found, ensureIdx false missing,
      peek false 1, writeParE false scores, writeSegsE true index, checkSplit] ++ savePieces))
  | .split how scores upd n m index k =>
    withSegments true true how (stop k (splitPieces scores upd n m index) ++ unlock true true)
  | .splitUnsaved how before i =>
    withSegments true true how (touch .list false ++ before.flatMap (splitActE false) ++
      [.act (.acq (.seg false i) true)] ++ touch (.table false) true ++ [.act (.acq (.seg false (i + 1)) true)] ++
      touch (.table false) true ++ [.act (.rel (.seg false i) true)] ++ unlock true true)
  | .splitIndexUnsaved how scores upd n m before i =>
    withSegments true true how (touch .list false ++ scores.flatMap (splitActE false) ++ peek true 1 ++
      writeParE true upd ++ peek false n ++ peek true m ++ before.flatMap (splitActE true) ++
      [.act (.acq (.seg true i) true)] ++ touch (.table true) true ++ [.act (.acq (.seg true (i + 1)) true)] ++
      touch (.table true) true ++ [.act (.rel (.seg true (i + 1)) true)] ++ unlock true true)
  | .reindex how segs k => withSegments true true how (stop k (rebuildPieces segs) ++ unlock true true)
  | .reindexUnsaved how segs k =>
    withSegments true true how ((rebuildPieces segs).flatten ++ stop k savePieces ++ unlock true true ++ unlock true true)
  | .populate how empty writes n m k =>
    withSegments true true how (stop k (populatePieces empty writes n m) ++ newUnlock)
  | .populateNoIndex how =>
    withSegments true true how (touch .list false ++ touch .list true ++ [.act (.acq .list true)] ++ newUnlock)
  | .repair stat how segs empty writes n m k =>
    reader stat (peek false 1) ++ touch .list false ++
    withSegments true true how (repairRead segs ++ stop k (populatePieces empty writes n m) ++ newUnlock)
  | .repairPanics how =>
    reader .failed [] ++ touch .list false ++
    withSegments true true how ([.act (.acq .list true), .act (.acq (.table false) true)] ++ unlock true true)
  | .repairNoIndex stat how segs =>
    reader stat (peek false 1) ++ touch .list false ++
    withSegments true true how (repairRead segs ++ touch .list false ++ touch .list true ++ [.act (.acq .list true)] ++
      newUnlock)

/-- A call on a list: one that goes through, one that fails, or the saving of the catalogue, which reads the list,
lists.go:121-130. -/
inductive Request
  | done (op : Op)
  | fails (f : Failure)
  | saveLists

def Request.program : Request → List Instr
  | .done op => op.program
  | .fails f => f.program
  | .saveLists => touch .list false

/-- All requests at their start. -/
def startAll (rs : List Request) : State := init (rs.map Request.program)

end RankDB.Locks

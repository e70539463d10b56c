import Verif.Model.Locks
/-
Model of what the operations on a list do with memory that several calls share: the programs of `Model/Locks` with
the places added at which they read and write it.

The memory of a list is divided into cells. An access is a step of its own, so that two calls are at the same time
about to make an access exactly when nothing orders the two accesses, which is a data race if one of them writes.

Not modelled: races between goroutines of the same call, which share the maps and mutexes of that call
(`mu` in list.go:1282, `elemsMu` in segments.go:737), what is inside `elementLoader` apart from its lock, the cache,
counters that are changed atomically, memory that no other call can see yet (segments that are being built), and the
settings of a list (list.go:32-37), which are not changed after the list has been made.
-/
namespace RankDB.Races
open Locks

/-- The shared memory of a list. In `bounds`, `count` and `elems` a number is one segment and `none` all of them. -/
inductive Cell
  | head                                     -- list.go:42, 44: the pointers `scores` and `index`
  | names                                    -- list.go:38, 43: the strings `Scores` and `Index`
  | rows (index : Bool)                      -- segments.go:39, 41: the slice `Segments` (pointer and length) and `NextID`
  | bounds (index : Bool) (i : Option Nat)   -- segment.go:32-40: ID, Parent, Min, Max, MinTie, MaxTie, loader
  | count (index : Bool) (i : Option Nat)    -- segment.go:35, 36: N and Updated
  | elems (index : Bool) (i : Option Nat)    -- the elements of a segment
  | idx (index : Bool)                       -- segments.go:43: the map `idx`
deriving DecidableEq, Repr

/-- An access reads, writes, or writes the value that is there already: `s.Segments[ls.index] = *ls.seg` in
segments.go:284, where `ls.seg` is the address of the segment that is assigned to (segments.go:199, 236). -/
inductive Kind
  | read
  | write
  | rewrite
deriving DecidableEq, Repr

structure Access where
  kind : Kind
  cell : Cell
deriving DecidableEq, Repr

/-- A number or all of them. -/
def meets : Option Nat → Option Nat → Bool
  | some i, some j => i == j
  | _, _ => true

/-- Two cells have memory in common. -/
def Cell.overlaps : Cell → Cell → Bool
  | .head, .head => true
  | .names, .names => true
  | .rows b, .rows b' => b == b'
  | .bounds b i, .bounds b' j => b == b' && meets i j
  | .count b i, .count b' j => b == b' && meets i j
  | .elems b i, .elems b' j => b == b' && meets i j
  | .idx b, .idx b' => b == b'
  | _, _ => false

/-- What a started goroutine does: take or release a lock, or make an access. -/
inductive RAct
  | act (a : Act)
  | use (x : Access)
deriving DecidableEq, Repr

/-- What the goroutine of the caller does. -/
inductive RInstr
  | act (a : Act)
  | unload (l : Lock)
  | par (ps : List (List RAct))
  | join
  | use (x : Access)
deriving DecidableEq, Repr

/-- A call as in `Model/Locks`, with accesses in the programs. -/
structure RCall where
  main : Gor RInstr
  kids : List (Gor RAct)
  shared : List Lock
deriving DecidableEq, Repr

abbrev RState := List RCall

/-! ### Without the accesses -/

def stripAct : RAct → Option Act
  | .act a => some a
  | .use _ => none

def stripInstr : RInstr → Option Instr
  | .act a => some (.act a)
  | .unload l => some (.unload l)
  | .par ps => some (.par (ps.map (·.filterMap stripAct)))
  | .join => some .join
  | .use _ => none

/-- A program without its accesses. -/
def strip (p : List RInstr) : List Instr := p.filterMap stripInstr

def RCall.plain (c : RCall) : Call :=
  { main := ⟨c.main.own, c.main.pend, strip c.main.prog⟩
    kids := c.kids.map fun k => ⟨k.own, k.pend, k.prog.filterMap stripAct⟩
    shared := c.shared }

/-- The state of the locks. -/
def plain (st : RState) : State := st.map RCall.plain

/-! ### Steps -/

/-- One step of the goroutine of the caller, as `Locks.stepMain`; an access is always possible. -/
def stepMain (hs : List (Lock × Bool)) (ps : List Lock) (c : RCall) : Option RCall :=
  match c.main.prog with
  | [] => none
  | .use _ :: p => some { c with main := { c.main with prog := p } }
  | .act a :: p =>
    (act hs ps c.shared c.main.own c.main.pend a).map fun r =>
      { c with main := ⟨r.1, r.2.1, if r.2.2.1 then p else c.main.prog⟩, shared := r.2.2.2 }
  | .unload l :: p => some { c with main := { c.main with prog := p }, shared := c.shared.filter (· != l) }
  | .par qs :: p => some { c with main := { c.main with prog := p }, kids := c.kids ++ qs.map Gor.start }
  | .join :: p =>
    if c.kids.all (·.prog.isEmpty) then some { c with main := { c.main with prog := p }, kids := [] } else none

/-- One step of a started goroutine, as `Locks.stepKid`. -/
def stepKid (hs : List (Lock × Bool)) (ps : List Lock) (c : RCall) (j : Nat) : Option RCall :=
  match c.kids[j]? with
  | none => none
  | some k =>
    match k.prog with
    | [] => none
    | .use _ :: p => some { c with kids := c.kids.set j { k with prog := p } }
    | .act a :: p =>
      (act hs ps c.shared k.own k.pend a).map fun r =>
        { c with kids := c.kids.set j ⟨r.1, r.2.1, if r.2.2.1 then p else k.prog⟩, shared := r.2.2.2 }

/-- One step of goroutine `j` of call `i`; goroutine 0 is the caller. -/
def exec (st : RState) (i j : Nat) : Option RState :=
  match st[i]? with
  | none => none
  | some c =>
    (match j with
     | 0 => stepMain ((plain st).flatMap held) ((plain st).flatMap pending) c
     | j + 1 => stepKid ((plain st).flatMap held) ((plain st).flatMap pending) c j).map (st.set i)

/-- Any number of steps in any order. -/
inductive Run : RState → RState → Prop
  | refl (st : RState) : Run st st
  | step {st st' st'' : RState} (h : Run st st') (i j : Nat) (hs : exec st' i j = some st'') : Run st st''

/-- The call is about to make the access, in one of its goroutines. -/
def About (c : RCall) (x : Access) : Prop :=
  c.main.prog.head? = some (.use x) ∨ ∃ k ∈ c.kids, k.prog.head? = some (.use x)

/-! ### The operations -/

def rd (c : Cell) : Access := ⟨.read, c⟩
def wr (c : Cell) : Access := ⟨.write, c⟩
def rewr (c : Cell) : Access := ⟨.rewrite, c⟩

/-- Take a lock, make accesses, release it. -/
def touch (l : Lock) (w : Bool) (xs : List Access) : List RInstr :=
  .act (.acq l w) :: xs.map .use ++ [.act (.rel l w)]

/-- Looking at the table of segments: segments.go:601-662 and others. -/
def look (index : Bool) : List RInstr :=
  touch (.table index) false [rd (.rows index), rd (.bounds index none), rd (.count index none)]

def looks (index : Bool) (n : Nat) : List RInstr := (List.replicate n (look index)).flatten

/-- segments.go:666-727 `Verify`: only the address of the segment is computed with the table locked, its fields
are read afterwards. -/
def verifyLook (index : Bool) : List RInstr :=
  touch (.table index) false [rd (.rows index)] ++ [.use (rd (.bounds index none)), .use (rd (.count index none))]

def verifyLooks (index : Bool) (n : Nat) : List RInstr := (List.replicate n (verifyLook index)).flatten

/-- A goroutine that reads a segment. The address of the lock is read from the segment before it is locked:
segments.go:199-200. -/
def readSeg (index : Bool) (i : Nat) : List RAct :=
  [.use (rd (.rows index)), .use (rd (.bounds index (some i))), .act (.acq (.seg index i) false),
   .use (rd (.bounds index (some i))), .use (rd (.elems index (some i))), .use (rd (.count index (some i))),
   .act (.rel (.seg index i) false)]

def readSegs (index : Bool) (is : List Nat) : List RInstr := [.par (is.map (readSeg index)), .join]

/-- Reading segments one after the other. -/
def readEach (index : Bool) (is : List Nat) : List RInstr :=
  is.flatMap fun i => [.use (rd (.rows index)), .use (rd (.bounds index (some i)))] ++
    touch (.seg index i) false [rd (.bounds index (some i)), rd (.elems index (some i)), rd (.count index (some i))]

/-- list.go:458-487 `saveSegments`; `updateSegments` (list.go:241-259) is called when the segments are writable. -/
def save (writable : Bool) : List RInstr :=
  (if writable then [.use (wr .head), .use (wr .names)] else []) ++ touch .list false [] ++ look false ++ look true

/-- list.go:733-781 `reindex`. -/
def rebuildIndex (segs : List Nat) : List RInstr :=
  touch .list false [] ++ look false ++ readSegs false segs ++ save true

/-- list.go:307-406 `loadSegments`: the pointers are read as soon as `segmentsLock` is held, the names are read and
pointers and names written (list.go:394) while it is held for writing. -/
def withSegments (upd wrt : Bool) (how : Loading) (body : List RInstr) : List RInstr :=
  (if upd then [.act (.acq .update true)] else []) ++
  [.act (.acq .loading true), .act (.acq .segments wrt), .use (rd .head)] ++
  (match how with
   | .cached => .act (.rel .loading true) :: body
   | .failed =>
     (if wrt then [] else [.act (.rel .segments false), .act (.acq .segments true)]) ++ [.use (rd .names)] ++
     [.act (.rel .segments true)] ++ (if upd then [.act (.rel .update true)] else []) ++ [.act (.rel .loading true)]
   | .read =>
     (if wrt then [] else [.act (.rel .segments false), .act (.acq .segments true)]) ++
     [.use (rd .names), .use (wr .head), .use (wr .names)] ++
     (if wrt then [] else [.act (.rel .segments true), .act (.acq .segments false)]) ++
     .act (.rel .loading true) :: body
   | .rebuilt segs =>
     (if wrt then [] else [.act (.rel .segments false), .act (.acq .segments true)]) ++ [.use (rd .names)] ++
     (if upd then rebuildIndex segs else []) ++ [.use (wr .head), .use (wr .names)] ++
     (if wrt then [] else [.act (.rel .segments true), .act (.acq .segments false)]) ++
     .act (.rel .loading true) :: body)

/-- The `unlock` functions of `loadSegments`. -/
def unlock (upd wrt : Bool) : List RInstr :=
  .act (.rel .segments wrt) :: (if upd then [.act (.rel .update true)] else [])

def reader (how : Loading) (body : List RInstr) : List RInstr :=
  withSegments false false how (body ++ unlock false false)

def updater (how : Loading) (body : List RInstr) : List RInstr :=
  withSegments true false how (body ++ unlock true false)

/-- segments.go:583-596 `reindex`. -/
def ensureIdx (index missing : Bool) : List RInstr :=
  touch (.table index) false [rd (.idx index), rd (.rows index)] ++
  if missing then touch (.table index) true [rd (.rows index), rd (.bounds index none), wr (.idx index)] else []

/-- segments.go:1008-1031 and 1034-1056. -/
def neighbours (is : List Nat) : List RAct :=
  (is.flatMap fun i => [.use (rd (.rows false)), .use (rd (.bounds false (some i))), .act (.acq (.seg false i) false),
    .use (rd (.elems false (some i)))]) ++
  is.reverse.map fun i => .act (.rel (.seg false i) false)

/-- segments.go:932-953. -/
def findIn (i : Nat) (near : List (List Nat)) : List RAct :=
  [.use (rd (.rows false)), .use (rd (.bounds false (some i))), .act (.acq (.seg false i) false),
    .use (rd (.elems false (some i)))] ++ near.flatMap neighbours ++ [.act (.rel (.seg false i) false)]

/-- The same run by the caller: list.go:1730-1771. -/
def asMain : RAct → RInstr
  | .act a => .act a
  | .use x => .use x

/-- list.go:1226-1242 with 1170-1207; `splitScores`, segments.go:1234-1277, reads the bounds of the segments of the
index without their table being locked. -/
def lookup (n : Nat) (index : List Nat) (missing : Bool) (found : List (Nat × List (List Nat))) : List RInstr :=
  touch .list false [] ++ touch .list false [] ++ looks true n ++ [.use (rd (.bounds true none))] ++
  readSegs true index ++ ensureIdx false missing ++
  touch (.table false) false [rd (.idx false)] ++ look false ++ [.par (found.map fun p => findIn p.1 p.2), .join]

/-- A goroutine that changes a segment: segments.go:344-384, 415-450, 500-545, 1147-1174, with `replaceSegment`,
segments.go:270-299, which writes `N` and `Updated` (segment.go `elementsUpdated`) and then the whole segment. -/
def writeSeg (index : Bool) (i : Nat) : List RAct :=
  [.use (rd (.rows index)), .use (rd (.bounds index (some i))), .act (.acq (.seg index i) true),
   .use (wr (.elems index (some i))), .act (.acq (.table index) true), .use (wr (.count index (some i))),
   .use (rewr (.bounds index (some i))), .act (.rel (.table index) true), .act (.rel (.seg index i) true)]

/-- segments.go:403-456, 483-550. -/
def writeSegs (index : Bool) (is : List Nat) : List RInstr :=
  [.act (.acq (.table index) false), .use (rd (.rows index)), .use (rd (.bounds index none)),
   .par (is.map (writeSeg index)), .act (.rel (.table index) false), .join]

/-- list.go:2016-2051. -/
def checkSplit : List RInstr := touch .list false [] ++ look false ++ look true

/-- list.go:577-670 `verify`. -/
def verifyTables (n m : Nat) : List RInstr :=
  touch .list false [rd .names] ++ touch .list false [rd .names] ++ verifyLooks false n ++ verifyLooks true m

/-- list.go:1568-1618. -/
def inserts (rounds : List (List Nat × List Nat)) : List RInstr :=
  rounds.flatMap fun r => writeSegs false r.1 ++ writeSegs true r.2

/-- list.go:1343-1390: the goroutine of `UpdateElements` for one segment of the index. -/
def updateKid (i : Nat) (olds : List Nat) : List RAct :=
  [.use (rd (.bounds true (some i))), .act (.load (.seg true i) true), .use (wr (.elems true (some i)))] ++
    olds.flatMap fun j =>
      [.act (.acq (.table false) false), .use (rd (.idx false)), .act (.rel (.table false) false),
       .use (rd (.bounds false (some j))), .act (.load (.seg false j) true), .use (wr (.elems false (some j)))]

/-- list.go:1464-1476 with segments.go:270-299. -/
def replace (index : Bool) (i : Nat) : List RInstr :=
  touch (.table index) true [wr (.count index (some i)), rewr (.bounds index (some i))] ++
  [.use (rd (.elems index (some i))), .unload (.seg index i)]

/-- A segment that has been saved is not saved again (the maps in list.go:1289-1293 have each segment once); the
lock is taken as in `Locks.replace`. -/
def replaceAll (index : Bool) : List Nat → List Nat → List RInstr
  | _, [] => []
  | seen, i :: is =>
    (if i ∈ seen then touch (.table index) true [] ++ [.unload (.seg index i)] else replace index i) ++
      replaceAll index (i :: seen) is

/-- list.go:1260-1489. -/
def updateBody (missing : Bool) (n : Nat) (kids : List (Nat × List Nat)) (dsts : List (Bool × Nat))
    (results : List RInstr) : List RInstr :=
  touch .list false [] ++ ensureIdx false missing ++ looks true n ++ [.use (rd (.bounds true none))] ++
  [.par (kids.map fun k => updateKid k.1 k.2), .join] ++
  (dsts.flatMap fun d => (if d.1 then look false else []) ++
    [.use (rd (.bounds false (some d.2))), .act (.load (.seg false d.2) true), .use (wr (.elems false (some d.2)))]) ++
  replaceAll true [] (kids.map (·.1)) ++
  replaceAll false [] (kids.flatMap (·.2) ++ dsts.map (·.2)) ++
  results ++ checkSplit ++ save false

/-- list.go:1324-1331 and 1392-1396. -/
def updateFail (missing : Bool) (n : Nat) (kids : List (Nat × List Nat)) : List RInstr :=
  touch .list false [] ++ ensureIdx false missing ++ looks true n ++ [.use (rd (.bounds true none))] ++
  [.par (kids.map fun k => updateKid k.1 k.2), .join] ++
  (kids.map fun k => .unload (.seg true k.1)) ++ ((kids.flatMap (·.2)).map fun j => .unload (.seg false j))

/-- What `split` and `merge` write: segments.go:1354-1445 with list.go:2117-2184, 2213-2276. -/
def reshape (index : Bool) : List RInstr :=
  [.use (wr (.rows index)), .use (wr (.bounds index none)), .use (wr (.count index none)), .use (wr (.elems index none))]

/-- list.go:2104-2187, 2206-2286. -/
def splitAct (index : Bool) : SplitAct → List RInstr
  | .keep i => .use (rd (.count index none)) :: touch (.seg index i) true [rd (.elems index (some i))]
  | .split i =>
    [.use (rd (.count index none)), .act (.acq (.seg index i) true)] ++ reshape index ++ touch (.table index) true [] ++
    touch (.table index) true [wr (.count index (some i)), rewr (.bounds index (some i))] ++
    (if index then touch (.table index) true [] else []) ++ [.act (.rel (.seg index i) true)] ++
    (if index then [] else touch (.table index) true [])
  | .merge i =>
    [.use (rd (.count index none)), .act (.acq (.seg index (i + 1)) true), .act (.acq (.seg index i) true)] ++
    reshape index ++ touch (.table index) true [] ++
    touch (.table index) true [wr (.count index (some i)), rewr (.bounds index (some i))] ++
    [.act (.rel (.seg index i) true), .act (.rel (.seg index (i + 1)) true)]

/-- list.go:2086-2296. -/
def splitBody (scores : List SplitAct) (upd : List Nat) (n m : Nat) (index : List SplitAct) : List RInstr :=
  touch .list false [] ++ scores.flatMap (splitAct false) ++ [.use (wr (.idx false))] ++ look true ++
  [.use (rd (.bounds true none)), .par (upd.map (writeSeg true)), .join] ++
  verifyLooks false n ++ verifyLooks true m ++ index.flatMap (splitAct true) ++ [.use (wr (.idx true))] ++ save true

/-- list.go:886-973 with 1134-1166. -/
def populateBody (empty : Bool) (rounds : List (List Nat × List Nat)) (n m : Nat) : List RInstr :=
  touch .list false [rd .names] ++
  touch .list true [wr (.rows false), wr (.rows true), wr .head, wr .names] ++
  (if empty then [] else touch .list true []) ++ inserts rounds ++ save true ++ verifyTables n m ++
  [.act (.rel .update true), .act (.rel .segments true)]

/-- list.go:1648-1662 and 1681-1695. -/
def rankBody (segs : List Nat) : List RInstr := touch .list false [] ++ look false ++ readEach false segs

/-- What an operation does with the locks and the memory. -/
def program : Op → List RInstr
  | .getElements how n index missing found => reader how (touch .list false [] ++ lookup n index missing found)
  | .getRank how segs => reader how (rankBody segs)
  | .getRankScoreDesc how first segs =>
    reader how (touch .list false [] ++ look false ++
      [.use (rd (.bounds false (some first))), .act (.acq (.seg false first) false), .use (rd (.elems false (some first)))] ++
      readEach false segs ++ [.use (rd (.count false (some first))), .act (.rel (.seg false first) false)])
  | .getPercentile how s near =>
    reader how (touch .list false [] ++ look false ++ (findIn s near).map asMain)
  | .len how => reader how (look false)
  | .stats how none => reader how (look false ++ [.use (rd .head)])
  | .stats how (some (h1, s1, h2, s2)) =>
    reader how (look false ++ [.use (rd .head)] ++ reader h1 (rankBody s1) ++ reader h2 (rankBody s2))
  | .verify how n m => reader how (verifyTables n m)
  | .verifyElements how scores index =>
    touch .list false [] ++ updater how (touch .list false [] ++ look false ++ readSegs false scores ++ look true ++
      readSegs true index)
  | .backup how segs => updater how (touch .list false [] ++ look false ++ readEach false segs)
  | .cloneFrom how segs => reader how (touch .list false [] ++ look false ++ readEach false segs)
  | .insert how rounds => updater how (inserts rounds ++ checkSplit ++ save false)
  | .updateElements how missing n kids dsts results =>
    updater how (updateBody missing n kids dsts
      (match results with
       | none => []
       | some (n, index, missing', found) => lookup n index missing' found))
  | .updateFailed how missing n kids => updater how (updateFail missing n kids)
  | .deleteElements how n found missing scores index =>
    updater how (touch .list false [] ++ touch .list false [] ++ looks true n ++ [.use (rd (.bounds true none))] ++
      readSegs true found ++ ensureIdx false missing ++ touch (.table false) false [rd (.idx false)] ++
      [.par (scores.map (writeSeg false)), .join] ++ writeSegs true index ++ checkSplit ++ save false)
  | .split how scores upd n m index =>
    withSegments true true how (splitBody scores upd n m index ++ unlock true true)
  | .reindex how segs => withSegments true true how (rebuildIndex segs ++ unlock true true)
  | .populate how empty rounds n m => withSegments true true how (populateBody empty rounds n m)
  | .populateUnloaded rounds n m =>
    withSegments true true .failed [] ++
    touch .list false [rd .names] ++ [.act (.acq .list true), .act (.acq .update true), .act (.acq .segments true),
      .act (.rel .list true)] ++ inserts rounds ++ save true ++ verifyTables n m ++
    [.act (.rel .update true), .act (.rel .segments true)]
  | .repair stat how segs empty rounds n m =>
    reader stat (look false) ++ touch .list false [] ++
    withSegments true true how
      ([.act (.acq .list true), .act (.acq (.table false) true)] ++ readEach false segs ++
       [.act (.rel .list true), .act (.rel (.table false) true)] ++ populateBody empty rounds n m)
  | .repairCleared stat n m =>
    reader stat (look false) ++ touch .list false [] ++ withSegments true true .failed [] ++ [.use (rd .head)] ++
    [.act (.acq .update true), .act (.acq .segments true)] ++ save true ++ verifyTables n m ++
    [.act (.rel .update true), .act (.rel .segments true)]
  | .deleteAll how =>
    withSegments true true how
      (touch .list true [wr (.rows false), wr (.rows true), wr .head, wr .names] ++ unlock true true)
  | .releaseSegments =>
    touch .list false [] ++ [.act (.acq .loading true), .act (.acq .segments true), .use (wr .head),
      .act (.rel .segments true), .act (.rel .loading true)]

/-- The operations other than those that use what they have not locked: `Verify` (segments.go:672-677), and
`Populate` and `Repair` when the segments cannot be loaded (list.go:890-892, 1799). -/
def Guarded : Op → Prop
  | .verify _ _ _ => False
  | .populateUnloaded _ _ _ => False
  | .repairCleared _ _ _ => False
  | _ => True

/-- All operations at their start. -/
def start (ops : List Op) : RState := ops.map fun op => ⟨.start (program op), [], []⟩

end RankDB.Races

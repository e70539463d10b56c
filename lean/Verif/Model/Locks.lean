/-
Model of the locking of a list: which locks the operations in list.go and segments.go take and release, in
which order and in which goroutines, and how Go's `sync.Mutex` and `sync.RWMutex` block.

What the operations compute is not part of this model. Where the number of locks depends on the data (the
segments that are visited, how often the table of segments is looked at, whether the segments have to be
read from storage), the programs below have it as a parameter, so that a theorem about all programs covers
all data.

Not modelled: `NewBucket(8)` (tokens are taken before a lock and given back after it, see `Model/FanOut`),
the mutex `mu` of `UpdateElements` and `elemsMu` of `VerifyElements` and `LoadingMu` of a segment (no list
lock is taken while they are held), locks of segments that no other goroutine has seen yet
(`newLockedSegment`, `NewSegmentsElements`, the new list in `cloneElements`), the timeout in
`ReleaseSegments`. The calls that fail are in `Model/LockErrors`.
-/
namespace RankDB.Locks

/-- The locks of a list. `seg false i` is the lock of the `i`-th segment of the scores and `seg true i` of the
index, `table false` is `SegmentsLock` of the scores and `table true` of the index. A segment is named by its
position: positions change only while the holder of `segments` for writing is alone, when all locks of
segments are free or its own. -/
inductive Lock
  | update                            -- list.go:48 updateLock
  | loading                           -- list.go:51 loadingLock
  | segments                          -- list.go:41 segmentsLock
  | list                              -- list.go:31 the embedded sync.RWMutex
  | seg (index : Bool) (i : Nat)      -- segment.go:46 loader.Mu
  | table (index : Bool)              -- segments.go:39 SegmentsLock
deriving DecidableEq, Repr

/-- What a goroutine does: take a lock (for writing if `w`), release it, or take it for writing on behalf of
the whole call, unless the call has it already (`segmentScoresLoad` in list.go:1289-1321 and the map
`segmentsIdx`). With `ok = false` the segment cannot be read and the lock is released at once
(segments.go:245-249); taking and releasing is then one step, since nothing else is done while the lock is
held. -/
inductive Act
  | acq (l : Lock) (w : Bool)
  | rel (l : Lock) (w : Bool)
  | load (l : Lock) (ok : Bool)
deriving DecidableEq, Repr

/-- What the goroutine of the caller does: the same, release a lock of the whole call, start goroutines, or
wait until all of them have ended (`wg.Wait` in `waitErr`, tools.go:73-108). -/
inductive Instr
  | act (a : Act)
  | unload (l : Lock)
  | par (ps : List (List Act))
  | join
deriving DecidableEq, Repr

/-- A goroutine: the locks it holds, whether it has announced that it waits for a lock for writing, and what
is left to do. -/
structure Gor (α : Type) where
  own : List (Lock × Bool)
  pend : Bool
  prog : List α
deriving DecidableEq, Repr

/-- A call: the goroutine of the caller, the goroutines it has started, and the locks held for writing by the
call as a whole. -/
structure Call where
  main : Gor Instr
  kids : List (Gor Act)
  shared : List Lock
deriving DecidableEq, Repr

/-- All concurrent calls on a list. -/
abbrev State := List Call

/-- The locks held by a call. -/
def held (c : Call) : List (Lock × Bool) :=
  c.main.own ++ c.kids.flatMap (·.own) ++ c.shared.map fun l => (l, true)

/-- The lock a goroutine has announced to take for writing. -/
def waits : Bool → Option Act → List Lock
  | true, some (.acq l true) => [l]
  | true, some (.load l _) => [l]
  | _, _ => []

/-- The action an instruction stands for. -/
def actOf : Option Instr → Option Act
  | some (.act a) => some a
  | _ => none

/-- The locks for which a goroutine of the call has announced itself as the next writer. -/
def pending (c : Call) : List Lock :=
  waits c.main.pend (actOf c.main.prog.head?) ++ c.kids.flatMap fun k => waits k.pend k.prog.head?

/-- One action of a goroutine, with all held locks `hs`, all announced writers `ps` and the locks `sh` of the
call: the new locks of the goroutine, whether it now waits, whether the action is complete, and the new locks
of the call. `none`: the goroutine is blocked. `sync.RWMutex`: a reader is admitted unless a writer holds the
lock or is announced; a writer first announces itself, which it can do when no other writer holds the lock or
is announced, and then waits until nobody holds the lock. `sync.Mutex` is used for writing only. -/
def act (hs : List (Lock × Bool)) (ps sh : List Lock) (own : List (Lock × Bool)) (pend : Bool) :
    Act → Option (List (Lock × Bool) × Bool × Bool × List Lock)
  | .acq l false => if (l, true) ∈ hs ∨ l ∈ ps then none else some ((l, false) :: own, false, true, sh)
  | .acq l true =>
    if pend = true then
      if l ∈ hs.map (·.1) then none else some ((l, true) :: own, false, true, sh)
    else if (l, true) ∈ hs ∨ l ∈ ps then none
    else some (own, true, false, sh)
  | .rel l w => if (l, w) ∈ own then some (own.erase (l, w), false, true, sh) else none
  | .load l ok =>
    if l ∈ sh then some (own, false, true, sh)
    else if pend = true then
      if l ∈ hs.map (·.1) then none else some (own, false, true, if ok then l :: sh else sh)
    else if (l, true) ∈ hs ∨ l ∈ ps then none
    else some (own, true, false, sh)

/-- A goroutine at its start. -/
def Gor.start {α : Type} (p : List α) : Gor α := ⟨[], false, p⟩

/-- One step of the goroutine of the caller. -/
def stepMain (hs : List (Lock × Bool)) (ps : List Lock) (c : Call) : Option Call :=
  match c.main.prog with
  | [] => none
  | .act a :: p =>
    (act hs ps c.shared c.main.own c.main.pend a).map fun r =>
      { c with main := ⟨r.1, r.2.1, if r.2.2.1 then p else c.main.prog⟩, shared := r.2.2.2 }
  | .unload l :: p => some { c with main := { c.main with prog := p }, shared := c.shared.filter (· != l) }
  | .par qs :: p => some { c with main := { c.main with prog := p }, kids := c.kids ++ qs.map Gor.start }
  | .join :: p =>
    if c.kids.all (·.prog.isEmpty) then some { c with main := { c.main with prog := p }, kids := [] } else none

/-- One step of a started goroutine. -/
def stepKid (hs : List (Lock × Bool)) (ps : List Lock) (c : Call) (j : Nat) : Option Call :=
  match c.kids[j]? with
  | none => none
  | some k =>
    match k.prog with
    | [] => none
    | a :: p =>
      (act hs ps c.shared k.own k.pend a).map fun r =>
        { c with kids := c.kids.set j ⟨r.1, r.2.1, if r.2.2.1 then p else k.prog⟩, shared := r.2.2.2 }

/-- One step of goroutine `j` of call `i`; goroutine 0 is the caller. -/
def exec (st : State) (i j : Nat) : Option State :=
  match st[i]? with
  | none => none
  | some c =>
    (match j with
     | 0 => stepMain (st.flatMap held) (st.flatMap pending) c
     | j + 1 => stepKid (st.flatMap held) (st.flatMap pending) c j).map (st.set i)

/-- Any goroutine of any call takes a step. -/
def Step (st st' : State) : Prop := ∃ i j, exec st i j = some st'

/-- `n` steps in any order. -/
inductive Run : Nat → State → State → Prop
  | refl (st : State) : Run 0 st st
  | step {n : Nat} {st st' st'' : State} (h : Run n st st') (hs : Step st' st'') : Run (n + 1) st st''

/-- The calls at their start. -/
def init (ps : List (List Instr)) : State := ps.map fun p => ⟨.start p, [], []⟩

/-- The call has returned. -/
def Call.Finished (c : Call) : Prop := c.main.prog = [] ∧ ∀ k ∈ c.kids, k.prog = []

/-! ### The operations -/

/-- Take and release a lock. -/
def touch (l : Lock) (w : Bool) : List Instr := [.act (.acq l w), .act (.rel l w)]

/-- Looking at the table of segments `n` times. -/
def peek (index : Bool) (n : Nat) : List Instr := (List.replicate n (touch (.table index) false)).flatten

/-- How `loadSegments` comes to the segments: they are in memory, they are read, the index cannot be read and
is built from the given segments, or reading fails. -/
inductive Loading
  | cached
  | read
  | rebuilt (segs : List Nat)
  | failed

/-- A goroutine that reads a segment: segments.go:750-773, 808-823, 1199-1210. -/
def readSeg (index : Bool) (i : Nat) : List Act := [.acq (.seg index i) false, .rel (.seg index i) false]

/-- Several goroutines that read segments. -/
def readSegs (index : Bool) (is : List Nat) : List Instr := [.par (is.map (readSeg index)), .join]

/-- Reading segments one after the other: segments.go:1090-1123, list.go:1894-1911, 515-546. -/
def readEach (index : Bool) (is : List Nat) : List Instr := is.flatMap fun i => touch (.seg index i) false

/-- list.go:458-487 `saveSegments`. -/
def save : List Instr := touch .list false ++ peek false 1 ++ peek true 1

/-- list.go:733-781 `reindex` without the unlocking on errors. -/
def rebuildIndex (segs : List Nat) : List Instr := touch .list false ++ peek false 1 ++ readSegs false segs ++ save

/-- list.go:307-406 `loadSegments` and then `body`, which has to release the locks. `upd`: with the update
lock, `wr`: writable. Without the update lock the index cannot be rebuilt, that is `failed`. -/
def withSegments (upd wr : Bool) (how : Loading) (body : List Instr) : List Instr :=
  (if upd then [.act (.acq .update true)] else []) ++
  [.act (.acq .loading true), .act (.acq .segments wr)] ++
  (match how with
   | .cached => .act (.rel .loading true) :: body
   | .failed =>
     (if wr then [] else [.act (.rel .segments false), .act (.acq .segments true)]) ++
     [.act (.rel .segments true)] ++ (if upd then [.act (.rel .update true)] else []) ++ [.act (.rel .loading true)]
   | .read =>
     (if wr then [] else [.act (.rel .segments false), .act (.acq .segments true)]) ++
     (if wr then [] else [.act (.rel .segments true), .act (.acq .segments false)]) ++
     .act (.rel .loading true) :: body
   | .rebuilt segs =>
     (if wr then [] else [.act (.rel .segments false), .act (.acq .segments true)]) ++
     (if upd then rebuildIndex segs else []) ++
     (if wr then [] else [.act (.rel .segments true), .act (.acq .segments false)]) ++
     .act (.rel .loading true) :: body)

/-- The `unlock` functions of `loadSegments`. -/
def unlock (upd wr : Bool) : List Instr :=
  .act (.rel .segments wr) :: (if upd then [.act (.rel .update true)] else [])

/-- A call that reads the list: list.go:565-575 and others. -/
def reader (how : Loading) (body : List Instr) : List Instr :=
  withSegments false false how (body ++ unlock false false)

/-- A call that changes elements: list.go:1252-1256 and others. -/
def updater (how : Loading) (body : List Instr) : List Instr :=
  withSegments true false how (body ++ unlock true false)

/-- segments.go:583-596 `reindex`. -/
def ensureIdx (index missing : Bool) : List Instr :=
  touch (.table index) false ++ if missing then touch (.table index) true else []

/-- Taking the locks of neighbouring segments one after the other and releasing them in reverse order:
segments.go:1008-1031 and 1034-1056, once for the elements below and once for those above. -/
def neighbours (is : List Nat) : List Act :=
  (is.map fun i => .acq (.seg false i) false) ++ is.reverse.map fun i => .rel (.seg false i) false

/-- The goroutine of `FindElements` for one segment, segments.go:932-953, with the neighbouring segments that
are visited for every element in it. -/
def findIn (i : Nat) (near : List (List Nat)) : List Act :=
  .acq (.seg false i) false :: near.flatMap neighbours ++ [.rel (.seg false i) false]

/-- list.go:1226-1242 `getElements` with 1170-1207 `getIndexElements`: `looks` visits of the table, the
segments of the index and the segments of the scores with the neighbours that are visited. -/
def lookup (looks : Nat) (index : List Nat) (missing : Bool) (found : List (Nat × List (List Nat))) : List Instr :=
  touch .list false ++ touch .list false ++ peek true looks ++ readSegs true index ++
  ensureIdx false missing ++ peek false 2 ++ [.par (found.map fun p => findIn p.1 p.2), .join]

/-- The goroutines that change one segment each: segments.go:344-384, 415-450, 500-545, 1147-1174, with
`replaceSegment`, segments.go:270-299. -/
def writeSeg (index : Bool) (i : Nat) : List Act :=
  [.acq (.seg index i) true, .acq (.table index) true, .rel (.table index) true, .rel (.seg index i) true]

/-- The same with the table locked while the goroutines are started: segments.go:403-456, 483-550. -/
def writeSegs (index : Bool) (is : List Nat) : List Instr :=
  [.act (.acq (.table index) false), .par (is.map (writeSeg index)), .act (.rel (.table index) false), .join]

/-- list.go:2016-2051 `checkSplit`. -/
def checkSplit : List Instr := touch .list false ++ peek false 1 ++ peek true 1

/-- list.go:577-670 `verify`. -/
def verifyTables (n m : Nat) : List Instr := touch .list false ++ touch .list false ++ peek false n ++ peek true m

/-- The inserts of list.go:1568-1618, one after the other: score segments and index segments. -/
def inserts (rounds : List (List Nat × List Nat)) : List Instr :=
  rounds.flatMap fun r => writeSegs false r.1 ++ writeSegs true r.2

/-- The goroutine of `UpdateElements` for one segment of the index, list.go:1343-1390: the segment, then for
every element that exists the segment it is in. -/
def updateKid (i : Nat) (olds : List Nat) : List Act :=
  .load (.seg true i) true ::
    olds.flatMap fun j => [.acq (.table false) false, .rel (.table false) false, .load (.seg false j) true]

/-- Saving a segment of the call: list.go:1464-1476 with segments.go:270-299. -/
def replace (index : Bool) (i : Nat) : List Instr := touch (.table index) true ++ [.unload (.seg index i)]

/-- list.go:1260-1489, the part of `UpdateElements` with the segments loaded: `kids` the segments of the index
with those of the existing elements, `dsts` the segments of the scores loaded by the caller, each after a look
at the table or not. -/
def updateBody (missing : Bool) (looks : Nat) (kids : List (Nat × List Nat)) (dsts : List (Bool × Nat))
    (results : List Instr) : List Instr :=
  touch .list false ++ ensureIdx false missing ++ peek true looks ++
  [.par (kids.map fun k => updateKid k.1 k.2), .join] ++
  (dsts.flatMap fun d => (if d.1 then touch (.table false) false else []) ++ [.act (.load (.seg false d.2) true)]) ++
  (kids.flatMap fun k => replace true k.1) ++
  ((kids.flatMap (·.2) ++ dsts.map (·.2)).flatMap fun j => replace false j) ++
  results ++ checkSplit ++ save

/-- The early return of `UpdateElements` after an error of a goroutine, list.go:1324-1331 and 1392-1396. -/
def updateFail (missing : Bool) (looks : Nat) (kids : List (Nat × List Nat)) : List Instr :=
  touch .list false ++ ensureIdx false missing ++ peek true looks ++
  [.par (kids.map fun k => updateKid k.1 k.2), .join] ++
  (kids.map fun k => .unload (.seg true k.1)) ++ ((kids.flatMap (·.2)).map fun j => .unload (.seg false j))

/-- What `split` does with a segment: nothing, splitting it (list.go:2155-2184, 2247-2276) or merging it with
the one before (2117-2148, 2213-2240). -/
inductive SplitAct
  | keep (i : Nat)
  | split (i : Nat)
  | merge (i : Nat)

/-- The locks for it. A segment that is found not to be splittable is only locked. The new segment is saved
after the old one for the scores and before it for the index. -/
def splitAct (index : Bool) : SplitAct → List Instr
  | .keep i => touch (.seg index i) true
  | .split i =>
    [.act (.acq (.seg index i) true)] ++ touch (.table index) true ++ touch (.table index) true ++
    (if index then touch (.table index) true else []) ++ [.act (.rel (.seg index i) true)] ++
    (if index then [] else touch (.table index) true)
  | .merge i =>
    [.act (.acq (.seg index (i + 1)) true), .act (.acq (.seg index i) true)] ++ touch (.table index) true ++
    touch (.table index) true ++ [.act (.rel (.seg index i) true), .act (.rel (.seg index (i + 1)) true)]

/-- list.go:2086-2296, `split` with the segments loaded. -/
def splitBody (scores : List SplitAct) (upd : List Nat) (n m : Nat) (index : List SplitAct) : List Instr :=
  touch .list false ++ scores.flatMap (splitAct false) ++ peek true 1 ++ [.par (upd.map (writeSeg true)), .join] ++
  peek false n ++ peek true m ++ index.flatMap (splitAct true) ++ save

/-- list.go:886-973 `populate` with loaded segments, with list.go:1134-1166 `deleteAll`: the segments are
replaced by new ones while the list is locked, then the deferred elements are inserted. The locks are released
by the function of `newSegments`, list.go:431-435, the update lock first. Without elements
`initEmptyList`, list.go:209-236, does not lock the list. -/
def populateBody (empty : Bool) (rounds : List (List Nat × List Nat)) (n m : Nat) : List Instr :=
  touch .list false ++ touch .list true ++ (if empty then [] else touch .list true) ++ inserts rounds ++ save ++ verifyTables n m ++
  [.act (.rel .update true), .act (.rel .segments true)]

/-- An operation on a list with everything its locking depends on. -/
inductive Op
  | getElements (how : Loading) (looks : Nat) (index : List Nat) (missing : Bool)
      (found : List (Nat × List (List Nat)))                       -- list.go:1212-1221
  | getRank (how : Loading) (segs : List Nat)                      -- list.go:1633-1690, from top or bottom
  | getRankScoreDesc (how : Loading) (first : Nat) (segs : List Nat) -- list.go:1697-1721
  | getPercentile (how : Loading) (seg : Nat) (near : List (List Nat)) -- list.go:1730-1771
  | len (how : Loading)                                            -- list.go:977-996
  | stats (how : Loading) (elements : Option (Loading × List Nat × Loading × List Nat)) -- list.go:1011-1053
  | verify (how : Loading) (n m : Nat)                             -- list.go:565-575
  | verifyElements (how : Loading) (scores index : List Nat)       -- list.go:673-718
  | backup (how : Loading) (segs : List Nat)                       -- list.go:1850-1914
  | cloneFrom (how : Loading) (segs : List Nat)                    -- list.go:490-556, the locks of the original
  | insert (how : Loading) (rounds : List (List Nat × List Nat))   -- list.go:1548-1562
  | updateElements (how : Loading) (missing : Bool) (looks : Nat) (kids : List (Nat × List Nat))
      (dsts : List (Bool × Nat))
      (results : Option (Nat × List Nat × Bool × List (Nat × List (List Nat)))) -- list.go:1246-1490
  | updateFailed (how : Loading) (missing : Bool) (looks : Nat) (kids : List (Nat × List Nat))
  | deleteElements (how : Loading) (looks : Nat) (found : List Nat) (missing : Bool) (scores index : List Nat)
                                                                   -- list.go:1501-1543
  | split (how : Loading) (scores : List SplitAct) (upd : List Nat) (n m : Nat) (index : List SplitAct)
                                                                   -- list.go:2069-2296
  | reindex (how : Loading) (segs : List Nat)                      -- list.go:722-731
  | populate (how : Loading) (empty : Bool) (rounds : List (List Nat × List Nat)) (n m : Nat) -- list.go:869-881
  | populateUnloaded (rounds : List (List Nat × List Nat)) (n m : Nat) -- the same when loading failed, list.go:872-876
  | repair (stat how : Loading) (segs : List Nat) (empty : Bool) (rounds : List (List Nat × List Nat)) (n m : Nat)
                                                                   -- list.go:1789-1845
  | repairCleared (stat : Loading) (n m : Nat)                     -- the same when loading failed, list.go:1799-1807
  | deleteAll (how : Loading)                                      -- list.go:1120-1131
  | releaseSegments                                                -- list.go:1057-1117

/-- list.go:1648-1662 `getRankTop` and 1681-1695 `getRankBottom`. -/
def rankBody (segs : List Nat) : List Instr := touch .list false ++ peek false 1 ++ readEach false segs

/-- The locking of an operation. -/
def Op.program : Op → List Instr
  | .getElements how looks index missing found => reader how (touch .list false ++ lookup looks index missing found)
  | .getRank how segs => reader how (rankBody segs)
  | .getRankScoreDesc how first segs =>
    reader how (touch .list false ++ peek false 1 ++ [.act (.acq (.seg false first) false)] ++ readEach false segs ++
      [.act (.rel (.seg false first) false)])
  | .getPercentile how s near =>
    reader how (touch .list false ++ peek false 1 ++ (findIn s near).map .act)
  | .len how => reader how (peek false 1)
  | .stats how none => reader how (peek false 1)
  | .stats how (some (h1, s1, h2, s2)) =>
    reader how (peek false 1 ++ reader h1 (rankBody s1) ++ reader h2 (rankBody s2))
  | .verify how n m => reader how (verifyTables n m)
  | .verifyElements how scores index =>
    touch .list false ++ updater how (touch .list false ++ peek false 1 ++ readSegs false scores ++ peek true 1 ++
      readSegs true index)
  | .backup how segs => updater how (touch .list false ++ peek false 1 ++ readEach false segs)
  | .cloneFrom how segs => reader how (touch .list false ++ peek false 1 ++ readEach false segs)
  | .insert how rounds => updater how (inserts rounds ++ checkSplit ++ save)
  | .updateElements how missing looks kids dsts results =>
    updater how (updateBody missing looks kids dsts
      (match results with
       | none => []
       | some (n, index, missing', found) => lookup n index missing' found))
  | .updateFailed how missing looks kids => updater how (updateFail missing looks kids)
  | .deleteElements how looks found missing scores index =>
    updater how (touch .list false ++ touch .list false ++ peek true looks ++ readSegs true found ++
      ensureIdx false missing ++ peek false 1 ++ [.par (scores.map (writeSeg false)), .join] ++ writeSegs true index ++
      checkSplit ++ save)
  | .split how scores upd n m index =>
    withSegments true true how (splitBody scores upd n m index ++ unlock true true)
  | .reindex how segs => withSegments true true how (rebuildIndex segs ++ unlock true true)
  | .populate how empty rounds n m => withSegments true true how (populateBody empty rounds n m)
  | .populateUnloaded rounds n m =>
    withSegments true true .failed [] ++
    touch .list false ++ [.act (.acq .list true), .act (.acq .update true), .act (.acq .segments true),
      .act (.rel .list true)] ++ inserts rounds ++ save ++ verifyTables n m ++
    [.act (.rel .update true), .act (.rel .segments true)]
  | .repair stat how segs empty rounds n m =>
    reader stat (peek false 1) ++ touch .list false ++
    withSegments true true how
      ([.act (.acq .list true), .act (.acq (.table false) true)] ++ readEach false segs ++
       [.act (.rel .list true), .act (.rel (.table false) true)] ++ populateBody empty rounds n m)
  | .repairCleared stat n m =>
    reader stat (peek false 1) ++ touch .list false ++ withSegments true true .failed [] ++
    [.act (.acq .update true), .act (.acq .segments true)] ++ save ++ verifyTables n m ++
    [.act (.rel .update true), .act (.rel .segments true)]
  | .deleteAll how => withSegments true true how (touch .list true ++ unlock true true)
  | .releaseSegments =>
    touch .list false ++ [.act (.acq .loading true), .act (.acq .segments true), .act (.rel .segments true),
      .act (.rel .loading true)]

/-- All operations at their start. -/
def start (ops : List Op) : State := init (ops.map Op.program)

end RankDB.Locks

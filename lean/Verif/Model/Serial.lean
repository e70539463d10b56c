import Verif.Model.Locks
import Verif.Model.List
/-
Model of calls that change one list at the same time: the locks of `Model/Locks`, and what the calls do to the list
while they hold them.

What a call does to the list is any sequence of small changes. A change needs the locks that the code holds when it
makes it: a segment is changed by the call that has it locked for writing (segments.go:344-384, 415-450, 500-545,
1147-1174, list.go:1398-1476), and segments are added, removed or replaced by a call that has `segmentsLock` and
`updateLock` for writing, which `reindex`, `split`, `deleteAll` and `insert` check (list.go:736-741, 1137-1145, 1571-1573,
2071-2076). Nothing is assumed about when a call makes its changes apart from that.

The storage does not fail here.
-/
namespace RankDB.Serial

/-- What a call does to the list: it has variables, and goes on in steps, in which it may read and change the list,
until it is done. Steps need not be determined: goroutines of a call run in any order. -/
structure Job where
  Vars : Type
  vars : Vars
  step : Vars → ListState → Vars → ListState → Prop
  done : Vars → Prop

/-- All calls, with what they still have to do, the list, and the order in which calls have begun to change the list;
the last is only there to state properties. -/
structure World where
  locks : Locks.State
  jobs : List Job
  list : ListState
  order : List Nat

/-- The call has the locks that are needed to change the list. -/
def MayChange (c : Locks.Call) : Prop :=
  (∃ index i, (Locks.Lock.seg index i, true) ∈ Locks.held c) ∨
  (Locks.Lock.segments, true) ∈ Locks.held c ∧ (Locks.Lock.update, true) ∈ Locks.held c

/-- A goroutine takes or releases a lock, or call `i` changes the list. -/
inductive Step : World → World → Prop
  | lock {w : World} {st : Locks.State} (h : Locks.Step w.locks st) : Step w { w with locks := st }
  | change {w : World} (i : Nat) {c : Locks.Call} {j : Job} {v : j.Vars} {l : ListState} (hc : w.locks[i]? = some c)
      (hj : w.jobs[i]? = some j) (hm : MayChange c) (hs : j.step j.vars w.list v l) :
      Step w { locks := w.locks, jobs := w.jobs.set i { j with vars := v }, list := l,
               order := if i ∈ w.order then w.order else w.order ++ [i] }

/-- Any number of steps. -/
inductive Run : World → World → Prop
  | refl (w : World) : Run w w
  | step {w w' w'' : World} (h : Run w w') (hs : Step w' w'') : Run w w''

/-- The calls at their start. -/
def start (calls : List (Locks.Op × Job)) (l : ListState) : World :=
  { locks := Locks.start (calls.map (·.1)), jobs := calls.map (·.2), list := l, order := [] }

/-- A call that reads does nothing to the list. -/
def Job.none : Job := { Vars := Unit, vars := (), step := fun _ _ _ _ => False, done := fun _ => True }

/-- A call that changes the list in one step, while it has `segmentsLock` for writing: list.go:2069-2296 `split`,
733-781 `reindex`, 886-973 `populate`, 1789-1845 `Repair`. -/
def Job.whole (f : ListState → Option ListState) : Job :=
  { Vars := Bool, vars := false, done := fun v => v = true,
    step := fun v l v' l' => v = false ∧ v' = true ∧ f l = some l' }

/-- Where a call is that stores segments one by one: the list it leads to, and the segments of the scores and of the
index that are still to be stored. -/
inductive Storing
  | before
  | storing (next : ListState) (scores index : List Nat)

/-- Take one segment from another list. -/
def takeSeg (next : Segs) (i : Nat) (s : Segs) : Segs :=
  { s with segs := s.segs.modify i fun g => (next.segs[i]?).getD g }

/-- A call that changes elements of segments, and stores them one by one in any order: list.go:1246-1490
`UpdateElements`, 1501-1543 `deleteElements`, 1548-1618 `Insert`. What is stored depends on the list as it is at the
beginning; `none` if the call does not return. Simplification: an insertion in several pieces (1580-1595) stores its
segments once, at the end. -/
def Job.bySegment (f : ListState → Option ListState) : Job :=
  { Vars := Storing, vars := .before,
    done := fun v => match v with
      | .before => False
      | .storing _ scores index => scores = [] ∧ index = [],
    step := fun v l v' l' => match v with
      | .before => l' = l ∧ ∃ next, f l = some next ∧
          v' = .storing next (List.range l.scores.segs.length) (List.range l.index.segs.length)
      | .storing next scores index =>
        (∃ i ∈ scores, v' = .storing next (scores.erase i) index ∧ l' = { l with scores := takeSeg next.scores i l.scores }) ∨
        (∃ i ∈ index, v' = .storing next scores (index.erase i) ∧ l' = { l with index := takeSeg next.index i l.index }) }

end RankDB.Serial

/-
Model of list.go:1057-1117 `ReleaseSegments`, which takes the tables of the segments of a list out of memory.
manager.go:101-130 calls it through lists.go:241-265 at regular intervals, at the same time as any other calls.

It starts a goroutine that takes `loadingLock` and `segmentsLock`, and waits for it for one minute. If the minute
is over, whoever notices first gives the locks back. Both share the variables `gotLoading`, `gotSegments` and
`cancelled` under the mutex `mu`.

Simplifications: the minute may be over at any moment. All other goroutines together are one party that takes and
gives back the two locks at any time when they are free; readers of `segmentsLock` are not counted. What the others
leave in the two fields of the list is either both tables or none (list.go:241-250 with 346-393).
-/
namespace RankDB.Release

/-- Who holds a lock. -/
inductive Holder
  | free
  | us
  | others
deriving DecidableEq, Repr

/-- Who holds `mu`. -/
inductive Mu
  | free
  | worker
  | caller
deriving DecidableEq, Repr

/-- Where the goroutine is. -/
inductive Worker
  /-- list.go:1080 -/
  | wantLoading
  /-- list.go:1081 with 1071 -/
  | gotLoading
  /-- list.go:1073-1076 -/
  | inFirst
  /-- list.go:1082 -/
  | giveLoading
  /-- list.go:1085 -/
  | wantSegments
  /-- list.go:1086 with 1071 -/
  | gotSegments
  /-- list.go:1073 -/
  | inSecond
  /-- list.go:1091 -/
  | clearScores
  /-- list.go:1092 -/
  | clearIndex
  /-- list.go:1093 -/
  | unlockSegments
  /-- list.go:1094 -/
  | unlockLoading
  /-- list.go:1095-1096 -/
  | reset
  /-- list.go:1097 -/
  | close
  /-- list.go:1072: the deferred unlock of `mu` after the work. -/
  | leave
  /-- list.go:1072: the deferred unlock of `mu` if it is cancelled. -/
  | leaveCancelled
  /-- list.go:1099 -/
  | giveSegments
  | ended
deriving DecidableEq, Repr

/-- Where the caller is. -/
inductive Caller
  /-- list.go:1103 -/
  | waiting
  /-- list.go:1105 with 1071: the minute is over. -/
  | timeout
  /-- list.go:1073 -/
  | inside
  /-- list.go:1108-1110 -/
  | unlockSegments
  /-- list.go:1111-1113 -/
  | unlockLoading
  /-- list.go:1072 -/
  | leave
  | returned
deriving DecidableEq, Repr

/-- The locks, the fields `scores` and `index` of the list (whether they are set), the variables of the call, and a
record whether a lock was given back that the call did not hold. -/
structure State where
  loading : Holder
  segments : Holder
  scores : Bool
  index : Bool
  mu : Mu
  gotLoading : Bool
  gotSegments : Bool
  cancelled : Bool
  done : Bool
  worker : Worker
  caller : Caller
  fault : Bool
deriving DecidableEq, Repr

/-- The next step of the goroutine, `none` if it has to wait or is done. -/
def stepWorker (s : State) : Option State :=
  match s.worker with
  | .wantLoading => if s.loading = .free then some { s with loading := .us, worker := .gotLoading } else none
  | .gotLoading => if s.mu = .free then some { s with mu := .worker, worker := .inFirst } else none
  | .inFirst =>
    if s.cancelled then some { s with mu := .free, worker := .giveLoading }
    else some { s with gotLoading := true, mu := .free, worker := .wantSegments }
  | .giveLoading => some { s with loading := .free, fault := s.fault || s.loading != .us, worker := .ended }
  | .wantSegments => if s.segments = .free then some { s with segments := .us, worker := .gotSegments } else none
  | .gotSegments => if s.mu = .free then some { s with mu := .worker, worker := .inSecond } else none
  | .inSecond =>
    if s.cancelled then some { s with worker := .leaveCancelled }
    else some { s with gotSegments := true, worker := .clearScores }
  | .clearScores => some { s with scores := false, worker := .clearIndex }
  | .clearIndex => some { s with index := false, worker := .unlockSegments }
  | .unlockSegments =>
    some { s with segments := .free, fault := s.fault || s.segments != .us, worker := .unlockLoading }
  | .unlockLoading => some { s with loading := .free, fault := s.fault || s.loading != .us, worker := .reset }
  | .reset => some { s with gotSegments := false, gotLoading := false, worker := .close }
  | .close => some { s with done := true, worker := .leave }
  | .leave => some { s with mu := .free, worker := .ended }
  | .leaveCancelled => some { s with mu := .free, worker := .giveSegments }
  | .giveSegments => some { s with segments := .free, fault := s.fault || s.segments != .us, worker := .ended }
  | .ended => none

/-- The next step of the caller; `late` is true if the minute is over. -/
def stepCaller (late : Bool) (s : State) : Option State :=
  match s.caller with
  | .waiting =>
    if late then some { s with caller := .timeout }
    else if s.done then some { s with caller := .returned } else none
  | .timeout => if s.mu = .free then some { s with mu := .caller, caller := .inside } else none
  | .inside =>
    if s.cancelled then some { s with caller := .leave } else some { s with cancelled := true, caller := .unlockSegments }
  | .unlockSegments =>
    if s.gotSegments then
      some { s with segments := .free, fault := s.fault || s.segments != .us, caller := .unlockLoading }
    else some { s with caller := .unlockLoading }
  | .unlockLoading =>
    if s.gotLoading then some { s with loading := .free, fault := s.fault || s.loading != .us, caller := .leave }
    else some { s with caller := .leave }
  | .leave => some { s with mu := .free, caller := .returned }
  | .returned => none

/-- What the other goroutines can do: take a lock that is free, give back a lock that they hold, and set or clear both
fields while they hold `segmentsLock`. -/
inductive Others : State → State → Prop
  | takeLoading {s : State} (h : s.loading = .free) : Others s { s with loading := .others }
  | giveLoading {s : State} (h : s.loading = .others) : Others s { s with loading := .free }
  | takeSegments {s : State} (h : s.segments = .free) : Others s { s with segments := .others }
  | giveSegments {s : State} (h : s.segments = .others) : Others s { s with segments := .free }
  | store {s : State} (b : Bool) (h : s.segments = .others) : Others s { s with scores := b, index := b }

/-- A step of the call. -/
inductive Own : State → State → Prop
  | worker {s t : State} (h : stepWorker s = some t) : Own s t
  | caller {s t : State} (late : Bool) (h : stepCaller late s = some t) : Own s t

/-- Any schedule; the number counts the steps of the call. -/
inductive Run : State → Nat → State → Prop
  | refl (s : State) : Run s 0 s
  | own {s t u : State} {n : Nat} (h : Run s n t) (hs : Own t u) : Run s (n + 1) u
  | others {s t u : State} {n : Nat} (h : Run s n t) (hs : Others t u) : Run s n u

/-- The call begins: the locks may be held by others, and the tables may be in memory or not. -/
def start (loading segments : Holder) (loaded : Bool) : State :=
  { loading := loading, segments := segments, scores := loaded, index := loaded, mu := .free, gotLoading := false
    gotSegments := false, cancelled := false, done := false, worker := .wantLoading, caller := .waiting, fault := false }

end RankDB.Release

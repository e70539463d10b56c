import Verif.Model.List
/-
Model of when lists are split and merged in the background.
-/
namespace RankDB.Balance

/-- list.go:2030-2046 `shouldSplitFn` in `checkSplit`, from the second segment on; `p` is the count of the segment
before. -/
def uneven (merge split : Nat) : Nat → List Seg → Bool
  | _, [] => false
  | p, s :: ss => decide (s.n > split) || decide (s.n + p < merge) || uneven merge split s.n ss

/-- list.go:2030-2046 `shouldSplitFn`: the first segment is not compared. -/
def shouldSplit (merge split : Nat) : List Seg → Bool
  | [] => false
  | s :: ss => decide (s.n > split) || uneven merge split s.n ss

/-- list.go:2016-2051 `checkSplit`: whether a split is requested. -/
def wantsSplit (st : ListState) : Bool :=
  shouldSplit st.mergeSize st.splitSize st.scores.segs || shouldSplit st.mergeSize st.splitSize st.index.segs

/-- Several runs of `List.split` with merging (list.go:2009-2011 `ForceSplit`, manager.go:148), at the given times. -/
def passes (times : List Nat) (st : ListState) : ListState := times.foldl (fun st now => Lists.split now true st) st

/-- The lists of a manager by number and the channel `wantSplit` (manager.go:23). -/
structure Job where
  lists : List ListState
  queue : List Nat

/-- What happens: a call changes a list and checks whether it must be split, or the splitter takes the next list. -/
inductive Event where
  | change (i : Nat) (st : ListState)
  | take (now : Nat)

/-- list.go:2053-2064 `requestSplit`, manager.go:132-161 `StartListSplitter`. The channel has room for 1000 lists
(manager.go:36), further requests are dropped. The splitter does not check the list again. -/
def step (j : Job) : Event → Job
  | .change i st =>
    { lists := j.lists.set i st
      queue := if wantsSplit st && decide (j.queue.length < 1000) then j.queue ++ [i] else j.queue }
  | .take now =>
    match j.queue with
    | [] => j
    | i :: q => { lists := j.lists.modify i (Lists.split now true), queue := q }

/-- A history of the manager. -/
def run (j : Job) (es : List Event) : Job := es.foldl step j

end RankDB.Balance

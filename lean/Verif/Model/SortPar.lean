import Verif.Model.Element
/-
Model of the goroutines of `Elements.Sort` (elements.go:131-168): pieces of a big slice are sorted one after the other,
and then merged in pairs, one goroutine for every pair, while the calling goroutine goes on to start the next one. All of
them read and write the slots of one slice of pieces, in any order.

The elements of the pieces are never written: `Merge` is called with `sliced`, so it copies them (elements.go:233-262,
C102). A goroutine that merges therefore has one visible step, writing its slot.
-/
namespace RankDB.SortPar
open Elements

/-- elements.go:132-163: the slots, the loop variable of the calling goroutine, and the goroutines that were started
and have not written their slot, with their arguments. -/
structure St where
  split : List (List Element)
  i : Nat
  running : List (Nat × List Element × List Element)
deriving DecidableEq

/-- elements.go:139, 141: the number of pairs of a round. -/
def St.next (st : St) : Nat := (st.split.length + 1) / 2

/-- Who makes the next step: the calling goroutine or one that merges. -/
inductive Who
  | caller
  | merger (k : Nat)
deriving DecidableEq

/-- elements.go:133-136: all pieces are sorted, no goroutine was started. -/
def start (split : List (List Element)) : St := ⟨split, 0, []⟩

/-- elements.go:139: the loop is left. -/
def St.ended (st : St) : Bool := decide (st.split.length ≤ 1)

/-- One step; `none` is a panic for an index out of range. Who has to wait stays where it is. -/
def step (st : St) : Who → Option St
  -- elements.go:139-150, 152, 158-159
  | .caller =>
    if st.ended then some st
    else if st.i < st.next then
      if 2 * st.i + 1 ≥ st.split.length then
        match st.split[2 * st.i]? with
        | some a => if st.i < st.split.length then some { st with split := st.split.set st.i a, i := st.i + 1 } else none
        | none => none
      else
        match st.split[2 * st.i]?, st.split[2 * st.i + 1]? with
        | some a, some b => some { st with running := st.running ++ [(st.i, a, b)], i := st.i + 1 }
        | _, _ => none
    else if st.running.isEmpty then some ⟨st.split.take st.next, 0, []⟩
    else some st
  -- elements.go:153-157
  | .merger k =>
    match st.running[k]? with
    | none => some st
    | some (j, a, b) =>
      if j < st.split.length then
        some { st with split := st.split.set j (merge 0 true a b), running := st.running.eraseIdx k }
      else none

/-- Steps in the given order. -/
def run (st : St) : List Who → Option St
  | [] => some st
  | w :: ws => match step st w with
    | none => none
    | some st' => run st' ws

mutual
/-- elements.go:122-169 `Elements.Sort` returns `r` for `l`, at some schedule of its goroutines. -/
inductive Sorts : List Element → List Element × Bool → Prop
  | sorted {l} : isSorted l = true → Sorts l (l, false)
  | small {l} : isSorted l = false → l.length < 25000 → Sorts l (sortSlice l, true)
  | big {l split pieces sched st} : isSorted l = false → 25000 ≤ l.length → splitSize l 2500 = some split →
      SortsAll split pieces → run (start pieces) sched = some st → st.ended = true → Sorts l (st.split.headD [], true)
/-- elements.go:133-136: every piece is sorted. -/
inductive SortsAll : List (List Element) → List (List Element) → Prop
  | nil : SortsAll [] []
  | cons {s r ss rs} : Sorts s r → SortsAll ss rs → SortsAll (s :: ss) (r.1 :: rs)
end

end RankDB.SortPar

import Verif.Model.Basic
/-
Model of element.go and of the pure functions on element slices in elements.go.
-/
namespace RankDB

/-- `math.MaxUint64`. -/
def maxU64 : Nat := 2 ^ 64 - 1
/-- `math.MaxUint32`. -/
def maxU32 : Nat := 2 ^ 32 - 1

/-- element.go:19-25 `type Element`.
`uint64`/`uint32` fields are natural numbers; bounds are stated where they matter (`Element.WF`). -/
structure Element where
  score : Nat
  id : Nat
  payload : List UInt8 := []
  tie : Nat := 0
  updated : Nat := 0
deriving DecidableEq, Repr, Inhabited

/-- The field bounds given by the Go types of element.go:19-25. -/
structure Element.WF (e : Element) : Prop where
  score : e.score ≤ maxU64
  id : e.id ≤ maxU64
  tie : e.tie ≤ maxU32
  updated : e.updated ≤ maxU32

/-- element.go:34-45 `Element.Above` and element.go:48-59 `Element.aboveP` (identical bodies). -/
def Element.above (e b : Element) : Bool :=
  if e.score != b.score then e.score > b.score
  else if e.tie != b.tie then e.tie > b.tie
  else if e.updated != b.updated then e.updated < b.updated
  else e.id < b.id

/-- element.go:76-78 `Element.AsIndex`. `uint32(s)` truncates the segment ID. -/
def Element.asIndex (e : Element) (s : Nat) : Element :=
  { id := e.id, score := e.id, updated := e.updated, tie := s % 2 ^ 32 }

/-- element.go:81-89 `Element.PrevMax`, as a function of (score, tie-breaker). -/
def prevMax (score tie : Nat) : Nat × Nat :=
  if score = 0 ∧ tie = 0 then (0, 0)
  else if tie = 0 then (score - 1, maxU32)
  else (score, tie - 1)

/-- element.go:92-100 `Element.AboveThis`, as a function of (score, tie-breaker). -/
def aboveThis (score tie : Nat) : Nat × Nat :=
  if score = maxU64 ∧ tie = maxU32 then (maxU64, maxU32)
  else if tie = maxU32 then (score + 1, 0)
  else (score, tie + 1)

namespace Elements

/-- elements.go:485-490 `Elements.Sorter`, as the "not out of order" relation used for sorting. -/
def le (a b : Element) : Bool := !(b.above a)

/-- `sort.Slice(lst, lst.Sorter())`. -/
def sortSlice (l : List Element) : List Element := goSort le l

/-- `sort.SliceIsSorted(lst, lst.Sorter())`: no element is above its predecessor. -/
def isSorted : List Element → Bool
  | [] => true
  | [_] => true
  | a :: b :: l => !(b.above a) && isSorted (b :: l)

/-- elements.go:173-181 `Elements.Find`: first element with the ID. `none` is `ErrNotFound`. -/
def find (l : List Element) (id : Nat) : Option Element := l.find? (·.id == id)

/-- elements.go:184-191 `Elements.FindIdx`. `none` is `ErrNotFound`. -/
def findIdx : List Element → Nat → Option Nat
  | [], _ => none
  | e :: l, id => if e.id == id then some 0 else (findIdx l id).map (· + 1)

/-- elements.go:194-201 `Elements.FindScoreIdx`. -/
def findScoreIdx : List Element → Nat → Option Nat
  | [], _ => none
  | e :: l, s => if e.score == s then some 0 else (findScoreIdx l s).map (· + 1)

/-- elements.go:205-223 `Elements.Insert`: new slice and index of the inserted element. -/
def insert : List Element → Element → List Element × Nat
  | [], e => ([e], 0)
  | le :: lst, e =>
    if le.above e then
      let r := insert lst e
      (le :: r.1, r.2 + 1)
    else (e :: le :: lst, 0)

/-- elements.go:237-260, the allocating path of `Elements.Merge`: the head of the first slice is
taken if it is above the head of the second, else the head of the second is taken. -/
def mergeAlloc : List Element → List Element → List Element
  | [], ins => ins
  | a :: lst, ins => go a (mergeAlloc lst) ins
where
  /-- Take from `ins` until its head is below `a`, then take `a` and continue with `k`. -/
  go (a : Element) (k : List Element → List Element) : List Element → List Element
    | [] => a :: k []
    | b :: ins => if a.above b then a :: k (b :: ins) else b :: go a k ins

/-- elements.go:264-284, the in-place path of `Elements.Merge`, with the arguments in the order
`ins`, `lst[i:]`. After an insertion `i` is not advanced, so the inserted element is
compared with the next one. -/
def mergeInPlace : List Element → List Element → List Element
  | [], lst => lst
  | next :: ins, lst => go next ins (mergeInPlace ins) lst
where
  /-- elements.go:266-283: advance `i` while `lst[i]` is above `next`, insert, continue with `k`; at
  the end of `lst` append the remaining elements. -/
  go (next : Element) (ins : List Element) (k : List Element → List Element) :
      List Element → List Element
    | [] => next :: ins
    | a :: lst => if a.above next then a :: go next ins k lst else k (next :: a :: lst)

/-- elements.go:229-285 `Elements.Merge`. `cap` is the capacity of the receiver's slice. -/
def merge (cap : Nat) (sliced : Bool) (lst ins : List Element) : List Element :=
  if ins.length == 0 then lst
  else if sliced || decide (ins.length + lst.length > 1000) || decide (ins.length > 10)
      || decide (cap < ins.length + lst.length) then
    mergeAlloc lst ins
  else mergeInPlace ins lst

/-- elements.go:85-96 in `Elements.Deduplicate`: whether, of two neighbours with the same ID, the
earlier one (`j = i-1`) is deleted instead of the later one. -/
def dropsPrev (prev e : Element) : Bool :=
  if prev.updated == e.updated then decide (prev.score > e.score)
  else decide (prev.updated < e.updated)

/-- elements.go:77-100, the loop of `Elements.Deduplicate`. `prev` is `lst[i-1]`, the list is the
part from index `i` on. Deleting `j = i` drops the current element; deleting `j = i-1` drops `prev`,
so the element at `i-1` becomes the current one. (After deleting `i-1` the loop compares
the new `lst[i-1]`, which is `e`, with the new `lst[i]`.) -/
def dedupLoop (prev : Element) : List Element → List Element × Bool
  | [] => ([prev], false)
  | e :: l =>
    if prev.id != e.id then
      let r := dedupLoop e l
      (prev :: r.1, r.2)
    else
      let r := if dropsPrev prev e then dedupLoop e l else dedupLoop prev l
      (r.1, true)

/-- elements.go:76-104 `Elements.Deduplicate` after the first sort: `byID` is any permutation of the
input that is sorted by ID (the Go sort is unstable, elements.go:76). -/
def deduplicateFrom : List Element → List Element × Bool
  | [] => (sortSlice [], false)
  | e :: l => let r := dedupLoop e l; (sortSlice r.1, r.2)

/-- elements.go:73-105 `Elements.Deduplicate` with a stable first sort. -/
def deduplicate (l : List Element) : List Element × Bool :=
  deduplicateFrom (goSort (fun a b => decide (a.id ≤ b.id)) l)

/-- elements.go:301-318 `Elements.MergeDeduplicate`. -/
def mergeDeduplicate (l ins : List Element) : List Element :=
  if ins.length == 0 then l
  else sortSlice (ins ++ l.filter fun e => !(ins.any (·.id == e.id)))

/-- elements.go:322-331 `Elements.MinMax`: (min, max, minTie, maxTie). -/
def minMax (l : List Element) : Nat × Nat × Nat × Nat :=
  match l.head?, l.getLast? with
  | some first, some last => (last.score, first.score, last.tie, first.tie)
  | _, _ => (0, maxU64, 0, maxU32)

/-- rankedelement.go:36-39 `Rank`. -/
structure Rank where
  fromTop : Nat
  fromBottom : Nat
deriving DecidableEq, Repr

/-- elements.go:349-357 `Elements.idxRank`; `none` is the panic. -/
def idxRank (l : List Element) (idx : Nat) : Option Rank :=
  if idx ≥ l.length then none else some ⟨idx, l.length - idx - 1⟩

/-- elements.go:336-338 and 363-365: a zero update time is replaced by the clock. -/
def touch (now : Nat) (e : Element) : Element :=
  if e.updated == 0 then { e with updated := now } else e

/-- elements.go:375-385 `Elements.Delete`: removes the first match, `none` is `ErrNotFound`. -/
def delete : List Element → Nat → Option (List Element)
  | [], _ => none
  | e :: l, id => if e.id == id then some l else (delete l id).map (e :: ·)

/-- elements.go:362-371 `Elements.Update`. Outer `none` is `ErrNotFound`. -/
def update (now : Nat) (l : List Element) (e : Element) : Option (List Element × Option Rank) :=
  let e := touch now e
  match delete l e.id with
  | none => none
  | some l' => let r := insert l' e; some (r.1, idxRank r.1 r.2)

/-- elements.go:335-345 `Elements.Add`. It never returns an error because `Update` is only
called for an ID that was found. -/
def add (now : Nat) (l : List Element) (e : Element) : List Element × Option Rank :=
  let e := touch now e
  match findIdx l e.id with
  | some _ =>
    match update now l e with
    | some r => r
    | none => (l, none)
  | none => let r := insert l e; (r.1, idxRank r.1 r.2)

/-- elements.go:406: neighbours that must not be separated. -/
def sameKey (a b : Element) : Bool := a.score == b.score && a.tie == b.tie

/-- elements.go:404-411: move the end of the piece past elements equal in score and tie-breaker.
`acc` is the piece so far in reverse order, the list is the rest of the slice. -/
def extendCut : List Element → List Element → List Element × List Element
  | acc, [] => (acc.reverse, [])
  | [], b :: rest => ([], b :: rest)
  | a :: acc, b :: rest =>
    if sameKey a b then extendCut (b :: a :: acc) rest else ((a :: acc).reverse, b :: rest)

/-- elements.go:399-417: the loop of `Elements.SplitSize` with `n` iterations left and `l` the part
of the slice from `start` on. -/
def splitLoop : Nat → Nat → List Element → List (List Element)
  | 0, _, _ => []
  | n + 1, elems, l =>
    let r := extendCut (l.take elems).reverse (l.drop elems)
    if r.1.isEmpty then [] else r.1 :: splitLoop n elems r.2

/-- elements.go:388-419 `Elements.SplitSize`; `none` is the division by zero for a piece size of
zero on a non-empty slice. Negative sizes are not modelled. -/
def splitSize (l : List Element) (inEach : Nat) : Option (List (List Element)) :=
  if l.length ≤ inEach then some [l]
  else if inEach = 0 then none
  else
    let n := (l.length + inEach - 1) / inEach
    let elems := (l.length + n - 1) / n
    some (splitLoop n elems l)

/-- elements.go:139-161: one merge round of `Elements.Sort` over the sorted pieces. -/
def mergePairs : List (List Element) → List (List Element)
  | a :: b :: rest => mergeAlloc' a b :: mergePairs rest
  | l => l
where
  /-- elements.go:155 `fst.Merge(sec, true)`. -/
  mergeAlloc' (a b : List Element) := merge 0 true a b

theorem mergePairs_length : ∀ l : List (List Element),
    (mergePairs l).length = (l.length + 1) / 2
  | [] => rfl
  | [_] => by simp [mergePairs]
  | a :: b :: rest => by
    have := mergePairs_length rest
    simp [mergePairs, this]; omega

/-- elements.go:139-167: merge rounds until one piece is left. The number of rounds is bounded by
the number of pieces, because each round halves it (`mergePairs_length`). -/
def mergeAll : Nat → List (List Element) → List (List Element)
  | 0, split => split
  | n + 1, split => if split.length ≤ 1 then split else mergeAll n (mergePairs split)

/-- Sort every piece with `f`, failing if one fails (elements.go:133-136). -/
def sortPieces (f : List Element → Option (List Element × Bool)) :
    List (List Element) → Option (List (List Element))
  | [] => some []
  | s :: ss => match f s, sortPieces f ss with
    | some r, some rs => some (r.1 :: rs)
    | _, _ => none

/-- elements.go:122-169 `Elements.Sort`: result and change flag. The recursion of the large path
is bounded by `fuel`; running out of fuel is `none`, so the Go function terminates on `l` exactly
if some `fuel` gives a result. -/
def sort : Nat → List Element → Option (List Element × Bool)
  | 0, _ => none
  | fuel + 1, l =>
    if isSorted l then some (l, false)
    else if l.length < 25000 then some (sortSlice l, true)
    else
      match splitSize l 2500 with
      | none => none
      | some split =>
        match sortPieces (sort fuel) split with
        | none => none
        | some split => some ((mergeAll split.length split).headD [], true)

/-- elements.go:422-429 `Elements.UpdateTime`. -/
def updateTime (now : Nat) (l : List Element) : List Element :=
  l.map fun e => { e with updated := now }

/-- elements.go:435-452 `FirstElementsWithScore`. The `break` after the last score is the
case of no remaining scores. -/
def firstWithScore : List Element → List Nat → List Element
  | [], _ => []
  | _ :: _, [] => []
  | e :: l, top :: scores =>
    if e.score ≤ top then e :: firstWithScore l scores
    else firstWithScore l (top :: scores)

/-- elements.go:472-479 `Elements.ElementIDs`. The sort of fewer than 25000 or already
split elements is represented by `sortSlice`. -/
def elementIDs (l : List Element) (seg : Nat) : List Element :=
  sortSlice (l.map (·.asIndex seg))

/-- elements.go:500-506 `Elements.IDs`. -/
def ids (l : List Element) : List Nat := l.map (·.id)

/-- elements.go:60-67 `Elements.HasDuplicates`: true if the number of unique IDs differs from
the number of elements. -/
def hasDuplicates (l : List Element) : Bool := (uniq (ids l)).length != l.length

end Elements

namespace ElementIDs

/-- elements.go:542-548 `ElementIDs.Sort`: descending. -/
def sort (l : List Nat) : List Nat := goSort (fun a b => decide (b ≤ a)) l

/-- elements.go:527-539 `ElementIDs.Deduplicate`. `shuffle` is the iteration order of the Go map. -/
def deduplicate (shuffle : List Nat → List Nat) (l : List Nat) : List Nat :=
  sort (shuffle (uniq l))

/-- elements.go:551-561 `ElementIDs.NotIn`. `shuffle` is the iteration order of the Go map. -/
def notIn (shuffle : List Nat → List Nat) (e b : List Nat) : List Nat :=
  shuffle ((uniq e).filter fun id => !(b.contains id))

/-- elements.go:564-573 `ElementIDs.Overlap`. -/
def overlap (e b : List Nat) : List Nat := b.filter fun id => e.contains id

end ElementIDs
end RankDB

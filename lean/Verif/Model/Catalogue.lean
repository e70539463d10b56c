import Verif.Model.Basic
/-
Model of the catalogue of lists: lists.go (paging and selection), list-id.go.
-/
namespace RankDB

/-- A Go string: bytes, compared lexicographically (`<` of `List`). -/
abbrev Str := List UInt8

namespace Catalogue

/-- The fields of a list that the catalogue looks at (list.go:62-75 `type List`). A nil metadata map is
`none`; a map is the list of its entries. -/
structure Entry where
  id : Str
  set : Str := []
  metadata : Option (List (Str × Str)) := none
deriving DecidableEq, Repr

/-- lists.go:320-322 `PageInfo`. -/
structure PageInfo where
  before : Nat := 0
  after : Nat := 0
deriving DecidableEq, Repr

/-- `sort.StringSlice.Sort`. -/
def sortIDs (l : List Str) : List Str := goSort (fun a b => decide (¬ b < a)) l

/-- lists.go:38-48 `Lists.ByID`. The entries of the `sync.Map` are in iteration order; an entry is
stored under its ID (lists.go:268-274 `Lists.Add`). -/
def byID (lists : List Entry) (id : Str) : Option Entry := lists.find? fun e => e.id == id

/-- lists.go:268-274 `Lists.Add`: replace or add. -/
def add (lists : List Entry) (e : Entry) : List Entry := e :: lists.filter fun x => x.id != e.id

/-- lists.go:313-315 `Lists.Delete`. -/
def delete (lists : List Entry) (id : Str) : List Entry := lists.filter fun x => x.id != id

/-- lists.go:229-237 `Lists.Exists`. -/
def existing (lists : List Entry) (ids : List Str) : List Str :=
  ids.filter fun id => (byID lists id).isSome

/-- Variables of the scan of lists.go:345-372 and 424-451: the slice `s`, `lastElement` or
`firstElement`, and the page counters. -/
structure Scan where
  s : List Str := []
  bound : Str := []
  page : PageInfo := {}
deriving DecidableEq, Repr

/-- lists.go:349-370, one entry of the scan of `SortedIDsAfter`. `s[n-2]`, `s[n-1]` with `n ≥ 2`. -/
def stepAfter (start : Str) (n : Nat) (st : Scan) (id : Str) : Scan :=
  if start < id then
    if st.s.length = n then
      let page := { st.page with after := st.page.after + 1 }
      if st.bound < id then { st with page := page }
      else
        let s := sortIDs st.s
        let last := (s[n - 2]?).getD []
        { s := s.set (n - 1) id, bound := if last < id then id else last, page := page }
    else
      { st with s := st.s ++ [id], bound := if st.bound < id then id else st.bound }
  else { st with page := { st.page with before := st.page.before + 1 } }

/-- lists.go:428-449, one entry of the scan of `SortedIDsBefore`. -/
def stepBefore (stop : Str) (n : Nat) (st : Scan) (id : Str) : Scan :=
  if id < stop then
    if st.s.length = n then
      let page := { st.page with before := st.page.before + 1 }
      if id < st.bound then { st with page := page }
      else
        let s := sortIDs st.s
        let first := (s[1]?).getD []
        { s := s.set 0 id, bound := if id < first then id else first, page := page }
    else
      { st with s := st.s ++ [id], bound := if id < st.bound then id else st.bound }
  else { st with page := { st.page with after := st.page.after + 1 } }

/-- lists.go:382-390 and 461-469: fetch the lists. -/
def fetch (lists : List Entry) (n : Nat) (s : List Str) : List Entry := (s.filterMap (byID lists)).take n

/-- lists.go:333-392 `Lists.SortedIDsAfter`. -/
def sortedIDsAfter (lists : List Entry) (start : Str) (n : Int) : List Entry × PageInfo :=
  if n ≤ 0 then ([], {})
  else
    let n' := if n = 1 then 2 else n.toNat
    let st := (lists.map (·.id)).foldl (stepAfter start n') {}
    let s := sortIDs st.s
    if n = 1 ∧ s.length > 1 then
      (fetch lists n' (s.take 1), { st.page with after := st.page.after + 1 })
    else (fetch lists n' s, st.page)

/-- lists.go:412-471 `Lists.SortedIDsBefore`. -/
def sortedIDsBefore (lists : List Entry) (stop : Str) (n : Int) : List Entry × PageInfo :=
  if n ≤ 0 then ([], {})
  else
    let n' := if n = 1 then 2 else n.toNat
    let st := (lists.map (·.id)).foldl (stepBefore stop n') {}
    let s := sortIDs st.s
    if n = 1 ∧ s.length > 1 then
      (fetch lists n' (s.take 1), { st.page with after := st.page.after + 1 })
    else (fetch lists n' s, st.page)

/-- Reading a Go map of strings: the zero value `""` for a missing key. -/
def lookup (m : List (Str × Str)) (k : Str) : Str := ((m.find? fun p => p.1 == k).map (·.2)).getD []

/-- lists.go:290-308, the decision for one list in `MatchAll`. `s` has the same members as `sets`. -/
def selects (q : List (Str × Str)) (sets : List Str) (e : Entry) : Bool :=
  if sets.length > 0 && sets.contains e.set then true
  else
    match e.metadata with
    | none => false
    | some m => if q.length = 0 then false else q.all fun p => lookup m p.1 == p.2

/-- lists.go:280-311 `Lists.MatchAll`. -/
def matchAll (lists : List Entry) (q : List (Str × Str)) (sets : List Str) : List Str :=
  if q.length = 0 && sets.length = 0 then []
  else (lists.filter (selects q sets)).map (·.id)

/-- list-id.go:26-37, the loop of `ListIDs.Deduplicate` from `lst[i-1] = prev` on. -/
def dedupLoop (prev : Str) : List Str → List Str × Bool
  | [] => ([prev], false)
  | e :: l =>
    if prev != e then
      let r := dedupLoop e l
      (prev :: r.1, r.2)
    else ((dedupLoop prev l).1, true)

/-- list-id.go:19-40 `ListIDs.Deduplicate`: the new slice and whether it changed. -/
def deduplicate (ids : List Str) : List Str × Bool :=
  match sortIDs ids with
  | [] => ([], false)
  | e :: l => dedupLoop e l

end Catalogue
end RankDB

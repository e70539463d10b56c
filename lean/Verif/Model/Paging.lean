import Verif.Model.Catalogue
/-
Model of paging through the catalogue and of selecting lists while lists are added and deleted.

The catalogue is a `sync.Map` (lists.go:26). Its `Range` is not a snapshot. What it promises is in
`Verif/Spec/Paging.lean`: each key at most once, and a key that is there throughout is visited. The lists are looked
up later one by one, by which time they can be gone.
-/
namespace RankDB.Catalogue

/-- lists.go:382-390: fetch the lists, each of them from the catalogue `found id` that is in effect when it is looked
up. -/
def fetchAt (found : Str → List Entry) (n : Nat) (s : List Str) : List Entry :=
  (s.filterMap fun id => byID (found id) id).take n

/-- lists.go:333-392 `Lists.SortedIDsAfter`, while the catalogue changes. `seen` are the lists that `Range` visits, in
this order. -/
def pageDuring (seen : List Entry) (found : Str → List Entry) (start : Str) (n : Int) : List Entry × PageInfo :=
  if n ≤ 0 then ([], {})
  else
    let n' := if n = 1 then 2 else n.toNat
    let st := (seen.map (·.id)).foldl (stepAfter start n') {}
    let s := sortIDs st.s
    if n = 1 ∧ s.length > 1 then
      (fetchAt found n' (s.take 1), { st.page with after := st.page.after + 1 })
    else (fetchAt found n' s, st.page)

/-- api/multilist.go:41-63 and similar: the lists that a request for many lists is applied to: they are selected by
`MatchAll` (lists.go:280-311), and looked up one by one afterwards (lists.go:38-48). -/
def selectDuring (seen : List Entry) (found : Str → List Entry) (q : List (Str × Str)) (sets : List Str) : List Entry :=
  (matchAll seen q sets).filterMap fun id => byID (found id) id

end RankDB.Catalogue

import Verif.Model.Paging
import Verif.Spec.Catalogue
/-
Specification of calls on the catalogue while it changes.
-/
namespace RankDB.Spec
open Catalogue

/-- A call on the catalogue: the catalogues in effect one after the other while it runs, the lists that `Range` visits,
and for every ID the catalogue in effect when it is looked up. -/
structure Call where
  cats : List (List Entry)
  seen : List Entry
  found : Str → List Entry

/-- There is a list with this ID. -/
def Has (cat : List Entry) (id : Str) : Prop := ∃ e ∈ cat, e.id = id

instance (cat : List Entry) (id : Str) : Decidable (Has cat id) := by unfold Has; infer_instance

/-- The documentation of `sync.Map.Range`: no key is visited twice, keys that are there all the time are visited, and
what is visited was there at some time during the call. -/
structure Call.Ok (c : Call) : Prop where
  distinct : ∀ cat ∈ c.cats, DistinctLists cat
  once : DistinctLists c.seen
  real : ∀ e ∈ c.seen, ∃ cat ∈ c.cats, e ∈ cat
  all : ∀ id, (∀ cat ∈ c.cats, Has cat id) → Has c.seen id
  during : ∀ id, c.found id ∈ c.cats

/-- A client that shows the whole catalogue: it asks for pages of `n` lists, each after the last list of the page
before, until there are no further lists. Without a result it did not come to the end. -/
def browse (n : Nat) : Str → List Call → Option (List Entry)
  | _, [] => none
  | start, c :: cs =>
    let p := pageDuring c.seen c.found start n
    if p.2.after = 0 then some p.1
    else match p.1.getLast? with
      | none => none
      | some e => (browse n e.id cs).map (p.1 ++ ·)

end RankDB.Spec

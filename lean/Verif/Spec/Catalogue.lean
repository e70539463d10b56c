import Verif.Model.Catalogue
/-
Specification of paging through the lists. A list of entries is a collection of lists in the order in
which the map happens to be iterated.
-/
namespace RankDB.Spec
open Catalogue

/-- No two lists have the same ID. -/
def DistinctLists (lists : List Entry) : Prop := (lists.map (·.id)).Nodup

instance (lists : List Entry) : Decidable (DistinctLists lists) := by unfold DistinctLists; infer_instance

/-- Ascending by ID. -/
def SortedByID (l : List Entry) : Prop := l.Pairwise fun a b => a.id < b.id

instance (l : List Entry) : Decidable (SortedByID l) := by unfold SortedByID; infer_instance

/-- `page` is the page of at most `n` lists following `start`: all lists sorted by ID are some lists up to
`start`, the page, and the rest, and the page is full if there is a rest. `before` and `after` count
the lists in front of and behind the page. -/
def IsPageAfter (lists : List Entry) (start : Str) (n : Nat) (page : List Entry) (before after : Nat) : Prop :=
  ∃ A B, (A ++ page ++ B).Perm lists ∧ SortedByID (A ++ page ++ B) ∧
    before = A.length ∧ after = B.length ∧
    (∀ a ∈ A, ¬ start < a.id) ∧ (∀ e ∈ page ++ B, start < e.id) ∧
    page.length ≤ n ∧ (B ≠ [] → page.length = n)

/-- `page` is the page of at most `n` lists preceding `stop`. -/
def IsPageBefore (lists : List Entry) (stop : Str) (n : Nat) (page : List Entry) (before after : Nat) : Prop :=
  ∃ A B, (A ++ page ++ B).Perm lists ∧ SortedByID (A ++ page ++ B) ∧
    before = A.length ∧ after = B.length ∧
    (∀ a ∈ A ++ page, a.id < stop) ∧ (∀ e ∈ B, ¬ e.id < stop) ∧
    page.length ≤ n ∧ (A ≠ [] → page.length = n)

end RankDB.Spec

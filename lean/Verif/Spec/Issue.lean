import Verif.Spec.Access
import Verif.Model.Issue
/-
What a token is good for, for C117.
-/
namespace RankDB.Spec
open Access Issue

/-- The token is accepted from the second `start` to the second `stop`, both included, after 1970. -/
def ValidFrom (c : Claims) (start stop : Int) : Prop :=
  ∀ s ns : Int, 0 ≤ ns → ns < 1000000000 → (c.valid (1000000000 * s + ns) = true ↔ 2 ≤ s ∧ start ≤ s ∧ s ≤ stop)

/-- The token opens the lists and the elements that are named, or all if there are no names. -/
def Opens (c : Claims) (onlyElements onlyLists : Option Text) : Prop :=
  (∀ ids, hasAccessToList c.token ids = .ok ↔ ∀ names, onlyLists = some names → ∀ id ∈ ids, NamesList names id) ∧
  (∀ ids, hasAccessToElement c.token ids = .ok ↔ ∀ names, onlyElements = some names → ∀ id ∈ ids, NamesElement names id)

end RankDB.Spec

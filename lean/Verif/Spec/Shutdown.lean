import Verif.Model.Shutdown
/-
Specification of an orderly stop.
-/
namespace RankDB.Spec
open Shutdown

variable {α : Type}

/-- The changes that request `i` made, among all changes. -/
def changesBy (i : Nat) (all : List (Nat × α)) : List α := (all.filter fun x => x.1 == i).map (·.2)

/-- No stage of the shutdown runs into its timeout. -/
def InTime (es : List (Event α)) : Prop := Event.timeout ∉ es

/-- No client cancels a request for many lists while it is handled. -/
def Patient (es : List (Event α)) : Prop := ∀ i, Event.move i .abandon ∉ es

/-- Events that do not come from outside: no new request, no saving at an interval. -/
def Inner (es : List (Event α)) : Prop := ∀ e ∈ es, (∀ u p, e ≠ .arrive u p) ∧ e ≠ .tick

end RankDB.Spec

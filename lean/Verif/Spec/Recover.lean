import Verif.Spec.Server
/-
Specification: what the crash of a request may do to the elements of a list.
-/
namespace RankDB.Spec
open Server

/-- The requests that create, change or delete elements of the list `id`. -/
def Edits (id : Str) : Request → Prop
  | .createElement i _ | .createElements i _ | .putElements i _ | .deleteElements i _ => i = id
  | _ => False

/-- The request may change or delete the element `i`, if the list has it. Creating leaves elements as they are. -/
def Touches (i : Nat) : Request → Prop
  | .putElements _ es => ∃ x ∈ es, x.id = i
  | .deleteElements _ ids => i ∈ ids
  | _ => False

/-- The element is one that the request gives, with the time of the request. -/
def Gives (now : Nat) (e : Element) : Request → Prop
  | .createElement _ x => e = { x with updated := now }
  | .createElements _ es | .putElements _ es => ∃ x ∈ es, e = { x with updated := now }
  | _ => False

/-- The number of elements that a request gives. -/
def given : Request → Nat
  | .createElement _ _ => 1
  | .createElements _ es | .putElements _ es => es.length
  | _ => 0

/-- The request leaves the catalogue as it is, or saves it. -/
def InPlace : Request → Prop
  | .create _ _ | .clone _ _ | .delete _ | .reindex _ | .repair _ => False
  | _ => True

end RankDB.Spec

import Verif.Model.Pool
/-
Specification of the sizes that the stored form of lists has room for: numbers of elements and segments, and the
lengths of payloads, are stored in 32 bits.
-/
namespace RankDB.Spec
open Server

/-- The elements that a request brings. -/
def elementsOf : Request → List Element
  | .create _ p => p.populate.getD []
  | .createElement _ e => [e]
  | .createElements _ es | .putElements _ es => es
  | _ => []

/-- A request for which there is room: payloads are shorter than 4 GB, and the lists of the request have fewer than
2^32 - 3 elements, also together with the elements of the request. -/
structure Room (db : Db) (r : Request) : Prop where
  payloads : ∀ e ∈ elementsOf r, e.payload.length < 2 ^ 32
  count : (elementsOf r).length + 3 ≤ 2 ^ 32
  lists : ∀ id ∈ uses r, ∀ s, look db id = some s → s.content.length + (elementsOf r).length + 3 ≤ 2 ^ 32

/-- There is room for every request of a history. -/
def Roomy (db : Db) : List (Env × Request) → Prop
  | [] => True
  | (env, r) :: rs => Room db r ∧ Roomy (serve env db r).2 rs

end RankDB.Spec

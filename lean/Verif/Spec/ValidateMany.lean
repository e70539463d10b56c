import Verif.Spec.Validate
import Verif.Model.ValidateMany
/-
The documented form of requests for many lists (api/design/multilist.go) and what they ask for.
-/
namespace RankDB.Spec
open Server Validate

/-- White space of ASCII. -/
def IsSpace (b : UInt8) : Prop :=
  b = ' '.toUInt8 ∨ b = '\t'.toUInt8 ∨ b = '\n'.toUInt8 ∨ b = '\r'.toUInt8 ∨ b = 11 ∨ b = 12

/-- The name is written, possibly with white space around it. -/
def Spelled (raw name : Str) : Prop :=
  ∃ a b : Str, raw = a ++ name ++ b ∧ (∀ c ∈ a, IsSpace c) ∧ (∀ c ∈ b, IsSpace c) ∧
    (∀ c, name.head? = some c → ¬ IsSpace c) ∧ ∀ c, name.getLast? = some c → ¬ IsSpace c

/-- The selection has the names that are written, once each, in ascending order, without empty ones; fields and sets as
they are. -/
structure Selects (raw : List Str) (fields : List (Str × Str)) (sets : List Str) (s : Select) : Prop where
  lists : ∀ x, x ∈ s.lists ↔ x ≠ [] ∧ ∃ r ∈ raw, Spelled r x
  once : s.lists.Pairwise (· < ·)
  fields : s.fields = fields
  sets : s.sets = sets

/-- The fields of a parameter: none, or a text in JSON. -/
def IsFields (raw : Option RawFields) (fields : List (Str × Str)) : Prop :=
  match raw with
  | none => fields = []
  | some f => (f.text = [] ∧ fields = []) ∨ (f.text ≠ [] ∧ f.parsed = some fields)

/-- What clients ask for: nothing, or a call. -/
inductive AskMany
  | nothing
  | call (c : Call)

/-- The request is well-formed and asks for this. Reindexing without lists and fields is for all lists; with names that
are all empty it is for none. -/
inductive AsksForMany : RawMany → AskMany → Prop
  | create {errorsOnly results e r s payload sel es} : IsFlag errorsOnly e → IsFlag results r →
      Selects s.lists s.fields s.sets sel → AreElements (payload.getD []) es →
      AsksForMany (.create errorsOnly results (some (s, payload))) (.call (.bulk sel (.create es)))
  | put {errorsOnly results e r s payload sel es} : IsFlag errorsOnly e → IsFlag results r →
      Selects s.lists s.fields s.sets sel → AreElements (payload.getD []) es →
      AsksForMany (.put errorsOnly results (some (s, payload))) (.call (.bulk sel (.put es)))
  | delete {eid errorsOnly e lists sets fields fs v sel} : IsFlag errorsOnly e → IsElementID eid v → IsFields fields fs →
      Selects lists fs sets sel → AsksForMany (.delete eid errorsOnly lists sets fields) (.call (.bulk sel (.delete [v])))
  | get {eid lists sets fields fs v sel} : IsElementID eid v → IsFields fields fs →
      Selects lists fs sets sel → AsksForMany (.get eid lists sets fields) (.call (.getBulk sel [v]))
  | reindex {errorsOnly e s sel} : IsFlag errorsOnly e → Selects s.lists s.fields s.sets sel →
      (s.lists = [] ∨ s.fields ≠ [] ∨ sel.lists ≠ []) →
      AsksForMany (.reindex errorsOnly (some s)) (.call (.bulk sel .reindex))
  | reindexNothing {errorsOnly e s sel} : IsFlag errorsOnly e → Selects s.lists s.fields s.sets sel →
      s.lists ≠ [] → s.fields = [] → sel.lists = [] →
      AsksForMany (.reindex errorsOnly (some s)) .nothing

/-- Requests with null for an element. -/
def HasNull : RawMany → Prop
  | .create _ _ (some (_, some bs)) | .put _ _ (some (_, some bs)) => none ∈ bs
  | _ => False

end RankDB.Spec

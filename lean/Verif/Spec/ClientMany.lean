import Verif.Spec.ClientArgs
import Verif.Spec.ValidateMany
import Verif.Model.ClientMany
/-
What calls of the client library for several lists ask for, by their arguments, for C115.
-/
namespace RankDB.Spec
open Server Validate Routes ClientArgs

/-- The fields of metadata that are asked for: none, or what the text says. -/
def Asked (json : Str → Option (List (Str × Str))) (metadata : Option Str) (fields : List (Str × Str)) : Prop :=
  match metadata with
  | none => fields = []
  | some t => (t = [] ∧ fields = []) ∨ (t ≠ [] ∧ json t = some fields)

/-- The call is proper and asks for this. Metadata is a text and read by `json`. -/
inductive SaysMany (json : Str → Option (List (Str × Str))) : UseMany → AskMany → Prop
  | create {body payload errorsOnly results sel es} : Selects body.lists body.fields body.sets sel →
      AreElements (payload.getD []) es → SaysMany json (.create body payload errorsOnly results) (.call (.bulk sel (.create es)))
  | put {body payload errorsOnly results sel es} : Selects body.lists body.fields body.sets sel →
      AreElements (payload.getD []) es → SaysMany json (.put body payload errorsOnly results) (.call (.bulk sel (.put es)))
  | delete {element sets errorsOnly lists metadata fields v sel} : IsElementID element v → Asked json metadata fields →
      Selects lists fields sets sel →
      SaysMany json (.delete element sets errorsOnly lists metadata) (.call (.bulk sel (.delete [v])))
  | get {element sets lists metadata fields v sel} : IsElementID element v → Asked json metadata fields →
      Selects lists fields sets sel → SaysMany json (.get element sets lists metadata) (.call (.getBulk sel [v]))
  | reindex {body errorsOnly sel} : Selects body.lists body.fields body.sets sel →
      (body.lists = [] ∨ body.fields ≠ [] ∨ sel.lists ≠ []) →
      SaysMany json (.reindex body errorsOnly) (.call (.bulk sel .reindex))
  | reindexNothing {body errorsOnly sel} : Selects body.lists body.fields body.sets sel →
      body.lists ≠ [] → body.fields = [] → sel.lists = [] → SaysMany json (.reindex body errorsOnly) .nothing

end RankDB.Spec

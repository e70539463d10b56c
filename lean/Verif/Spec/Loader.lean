import Verif.Model.Loader
/-
What calls that load a segment may rely on.
-/
namespace RankDB.Spec.Loader
open RankDB.Loader (Label Outcome)

/-- What was saved last. -/
def lastSaved (cell : Option (List Element)) : List Label → Option (List Element)
  | [] => cell
  | .save _ v true _ :: ls => lastSaved (some v) ls
  | _ :: ls => lastSaved cell ls

/-- No call panics. -/
def NoPanic (ls : List Label) : Prop := ∀ t, Label.fetch t .panic ∉ ls

/-- No save fails. -/
def NoFailedSave (ls : List Label) : Prop := ∀ t v shared, Label.save t v false shared ∉ ls

/-- No call fails to read the segment. -/
def NoFailedRead (ls : List Label) : Prop := ∀ t, Label.fetch t .error ∉ ls

/-- A step of a call, not a new call or the cache dropping the segment. -/
def Inner : Label → Bool
  | .call _ | .evict => false
  | _ => true

/-- The number of calls. -/
def callCount (ls : List Label) : Nat := ls.countP fun l => match l with | .call _ => true | _ => false

end RankDB.Spec.Loader

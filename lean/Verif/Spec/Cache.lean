import Verif.Model.Cache
/-
What users of segments rely on: a segment has the elements that were saved last.
-/
namespace RankDB.Spec
open Cache

/-- The elements last saved for each segment. -/
abbrev Saved := Key → Option (List Element)

def Saved.put (m : Saved) (k : Key) (l : Option (List Element)) : Saved := fun k' => if k' = k then l else m k'

/-- What a step makes of it. Saving that fails has no effect. -/
def Saved.step (m : Saved) : Op → Saved
  | .modify k _ c true => match m k with
    | some l => m.put k (some (c.result l))
    | none => m
  | .create k l true => m.put k (some l)
  | .remove k true => m.put k none
  | .drop k => m.put k none
  | _ => m

def Saved.run (m : Saved) (ops : List Op) : Saved := ops.foldl Saved.step m

/-- The key of a step, if it has one. -/
def keyOf : Op → Option Key
  | .read k _ | .modify k _ _ _ | .create k _ _ | .remove k _ | .drop k => some k
  | .evict _ _ => none

/-- The change makes a new array. -/
def isFresh : Change → Bool
  | .fresh _ _ => true
  | _ => false

/-- The step leaves the cache of the segment `k` in order: it is not the failed saving of a change made in place,
and not the removal of a merged segment. -/
def sound (k : Key) : Op → Prop
  | .modify k' _ c false => k' = k → isFresh c = true
  | .drop k' => k' ≠ k
  | _ => True

end RankDB.Spec

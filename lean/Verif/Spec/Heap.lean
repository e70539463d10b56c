import Verif.Model.Heap
/-
What goroutines do with slices, said of lists of elements: every slice is a list of its own, and nothing is shared.
-/
namespace RankDB.Spec.Slices
open Heap

/-- The elements of a part of a slice; `v` are the slices of the goroutine and `g` those that all were given. -/
def partOf (g v : Nat → List Element) : Src → List Element
  | .own s i j => ((v s).take j).drop i
  | .given r i j => ((g r).take j).drop i

/-- List number `s` is now `l`. -/
def setTo (v : Nat → List Element) (s : Nat) (l : List Element) : Nat → List Element := fun u => if u = s then l else v u

/-- The first element with the score gets the tie-breaker and the time. -/
def retarget (score tie now : Nat) : List Element → List Element
  | [] => []
  | e :: l => if e.score == score then { e with tie := tie, updated := now } :: l else e :: retarget score tie now l

/-- The answer of an operation, and the lists of the goroutine afterwards. `inPlace` says which way `Merge` goes; by
`Props.C03_merge_path_independent` both ways give the same for ranked lists. -/
def opValue (inPlace : Bool) (g v : Nat → List Element) : Op → Res × (Nat → List Element)
  | .look x => (.list (partOf g v x), v)
  | .sort s => if Elements.isSorted (v s) then (.bool false, v) else (.bool true, setTo v s (Elements.sortSlice (v s)))
  | .sortGiven _ _ _ => (.bool false, v)
  | .insert s e _ => (.nat (Elements.insert (v s) e).2, setTo v s (Elements.insert (v s) e).1)
  | .delete s id =>
    match Elements.delete (v s) id with
    | none => (.bool false, v)
    | some l => (.bool true, setTo v s l)
  | .update s e now _ =>
    match Elements.update now (v s) e with
    | none => (.bool false, v)
    | some r => (.bool true, setTo v s r.1)
  | .add s e now _ => (.unit, setTo v s (Elements.add now (v s) e).1)
  | .merge s x _ =>
    if x.isOf s then (.unit, v)
    else (.unit, setTo v s (if inPlace then Elements.mergeInPlace (partOf g v x) (v s)
      else Elements.mergeAlloc (v s) (partOf g v x)))
  | .remove s ids => (.unit, setTo v s ((v s).filter fun e => !ids.contains e.id))
  | .retarget s id seg now => (.bool ((v s).any (·.score == id)), setTo v s (retarget id seg now (v s)))
  | .fresh s l _ => (.unit, setTo v s l)
  | .clone s x => (.unit, setTo v s (partOf g v x))
  | .join s x => (.unit, setTo v s (v s ++ partOf g v x))

/-- `Means g c v b v'`: the code, alone and with lists `v`, ends with `b` and lists `v'`. -/
inductive Means (g : Nat → List Element) : Code β → (Nat → List Element) → β → (Nat → List Element) → Prop
  | done : Means g (.done b) v b v
  | op (inPlace : Bool) : Means g (k (opValue inPlace g v o).1) (opValue inPlace g v o).2 b v' →
      Means g (.op o k) v b v'

end RankDB.Spec.Slices

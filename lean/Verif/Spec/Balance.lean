import Verif.Spec.Lists
/-
Specification of what splitting and merging is for: the sizes of the segments of a list.
-/
namespace RankDB.Spec

/-- From the middle on all elements have the same score and tie-breaker, so that there is no place for a cut at or
after the middle. Slices with one element or none are of this kind. -/
def LowerTied (l : List Element) : Prop :=
  ∀ x ∈ l.drop ((l.length - 1) / 2), ∀ y ∈ l.drop ((l.length - 1) / 2), x.score = y.score ∧ x.tie = y.tie

instance (l : List Element) : Decidable (LowerTied l) := by unfold LowerTied; infer_instance

/-- Segments of the configured sizes: none has the split size, except for those with many ties, and no segment below
the split size has, together with the one before it, at most the merge size. -/
structure Balanced (merge split : Nat) (segs : List Seg) : Prop where
  small : ∀ s ∈ segs, s.elems.length < split ∨ LowerTied s.elems
  paired : ∀ pre p q post, segs = pre ++ p :: q :: post → q.elems.length < split →
    merge < p.elems.length + q.elems.length

end RankDB.Spec

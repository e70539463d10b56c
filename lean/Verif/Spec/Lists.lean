import Verif.Spec.Ranking
import Verif.Model.List
/-
Specification of a well-formed list: what the segments of a list must look like for the
operations to mean what they say. Written without the algorithms of the model.
-/
namespace RankDB.Spec

/-- Pairs of score and tie-breaker in one number, so that a range of pairs is an interval. -/
def pos (score tie : Nat) : Nat := score * 2 ^ 32 + tie

/-- The highest pair of a `uint64` score and a `uint32` tie-breaker. -/
def top : Nat := pos (2 ^ 64 - 1) (2 ^ 32 - 1)

/-- Lower end of the range of a segment. -/
def lo (s : Seg) : Nat := pos s.min s.minTie
/-- Upper end of the range of a segment. -/
def hi (s : Seg) : Nat := pos s.max s.maxTie

/-- The element belongs to the range of the segment. -/
def InRange (s : Seg) (e : Element) : Prop := lo s ≤ pos e.score e.tie ∧ pos e.score e.tie ≤ hi s

instance (s : Seg) (e : Element) : Decidable (InRange s e) := by unfold InRange; infer_instance

/-- The fields have the size of their Go types, and the update time is before the last second of the
32 bit clock (year 2106). -/
structure Storable (e : Element) : Prop where
  score : e.score < 2 ^ 64
  id : e.id < 2 ^ 64
  tie : e.tie < 2 ^ 32
  updated : e.updated < 2 ^ 32 - 1

instance (e : Element) : Decidable (Storable e) :=
  decidable_of_iff (e.score < 2 ^ 64 ∧ e.id < 2 ^ 64 ∧ e.tie < 2 ^ 32 ∧ e.updated < 2 ^ 32 - 1)
    ⟨fun ⟨a, b, c, d⟩ => ⟨a, b, c, d⟩, fun h => ⟨h.score, h.id, h.tie, h.updated⟩⟩

/-- The ranges of the segments follow each other without gap or overlap, from `h` down to 0. -/
def Tiles : Nat → List Seg → Prop
  | _, [] => False
  | h, [s] => hi s = h ∧ lo s = 0
  | h, s :: t :: ss => hi s = h ∧ 0 < lo s ∧ lo s ≤ hi s ∧ Tiles (lo s - 1) (t :: ss)

instance : (h : Nat) → (segs : List Seg) → Decidable (Tiles h segs)
  | _, [] => by unfold Tiles; infer_instance
  | _, [_] => by unfold Tiles; infer_instance
  | h, s :: t :: ss =>
    have : Decidable (Tiles (lo s - 1) (t :: ss)) := instDecidableTiles (lo s - 1) (t :: ss)
    by unfold Tiles; infer_instance

/-- A well-formed sequence of segments. -/
structure SegsOK (segs : List Seg) : Prop where
  /-- The ranges cover all scores and tie-breakers exactly once. -/
  tiles : Tiles top segs
  /-- Tie-breakers of the bounds are 32 bit. -/
  ties : ∀ s ∈ segs, s.minTie < 2 ^ 32 ∧ s.maxTie < 2 ^ 32
  /-- Every element is in the segment it belongs to. -/
  inRange : ∀ s ∈ segs, ∀ e ∈ s.elems, InRange s e
  /-- The elements of a segment are ranked. -/
  ranked : ∀ s ∈ segs, Ranked s.elems
  /-- No element ID occurs twice. -/
  distinct : DistinctIDs (allElems segs)
  storable : ∀ e ∈ allElems segs, Storable e
  /-- No segment ID occurs twice. -/
  segIDs : (segs.map (·.id)).Nodup

/-- The cached element counts are right. -/
def Counted (segs : List Seg) : Prop := ∀ s ∈ segs, s.n = s.elems.length

instance (segs : List Seg) : Decidable (Counted segs) := by unfold Counted; infer_instance

/-- Segment IDs are in use only below the next ID, and the next ID still fits a tie-breaker. -/
def IDsBelow (s : Segs) : Prop := (∀ g ∈ s.segs, 0 < g.id ∧ g.id < s.nextID) ∧ s.nextID ≤ 2 ^ 32

instance (s : Segs) : Decidable (IDsBelow s) := by unfold IDsBelow; infer_instance

/-- Which element ID is in which score segment. -/
def placement (scores : List Seg) : List (Nat × Nat) :=
  scores.flatMap fun s => s.elems.map fun e => (e.id, s.id)

/-- What the index says about which element ID is in which score segment. -/
def indexed (index : List Seg) : List (Nat × Nat) := (allElems index).map fun e => (e.id, e.tie)

/-- The index finds all elements: it has exactly one entry for every element, with the segment the
element is in, and index segments are cut between IDs. -/
structure IndexOK (scores index : List Seg) : Prop where
  complete : (indexed index).Perm (placement scores)
  byID : ∀ e ∈ allElems index, e.score = e.id
  aligned : ∀ s ∈ index, s.minTie = 0 ∧ s.maxTie = 2 ^ 32 - 1

/-- A well-formed list. -/
structure ListOK (st : ListState) : Prop where
  scores : SegsOK st.scores.segs
  index : SegsOK st.index.segs
  scoresCount : Counted st.scores.segs
  indexCount : Counted st.index.segs
  scoresIDs : IDsBelow st.scores
  indexIDs : IDsBelow st.index
  link : IndexOK st.scores.segs st.index.segs
  flags : st.scores.isIndex = false ∧ st.index.isIndex = true

/-- Decidable version of `SegsOK`, for examples. -/
def segsOK (segs : List Seg) : Bool :=
  decide (Tiles top segs) && decide (∀ s ∈ segs, s.minTie < 2 ^ 32 ∧ s.maxTie < 2 ^ 32) &&
  decide (∀ s ∈ segs, ∀ e ∈ s.elems, InRange s e) && decide (∀ s ∈ segs, Ranked s.elems) &&
  decide (DistinctIDs (allElems segs)) && decide (∀ e ∈ allElems segs, Storable e) &&
  decide (segs.map (·.id)).Nodup

theorem segsOK_iff (segs : List Seg) : segsOK segs = true ↔ SegsOK segs := by
  simp only [segsOK, Bool.and_eq_true, decide_eq_true_eq]
  constructor
  · rintro ⟨⟨⟨⟨⟨⟨a, b⟩, c⟩, d⟩, e⟩, f⟩, g⟩
    exact ⟨a, b, c, d, e, f, g⟩
  · rintro ⟨a, b, c, d, e, f, g⟩
    exact ⟨⟨⟨⟨⟨⟨a, b⟩, c⟩, d⟩, e⟩, f⟩, g⟩

/-- Decidable version of `ListOK`, for examples. -/
def listOK (st : ListState) : Bool :=
  segsOK st.scores.segs && segsOK st.index.segs && decide (Counted st.scores.segs) &&
  decide (Counted st.index.segs) && decide (IDsBelow st.scores) && decide (IDsBelow st.index) &&
  (indexed st.index.segs).isPerm (placement st.scores.segs) &&
  decide (∀ e ∈ allElems st.index.segs, e.score = e.id) &&
  decide (∀ s ∈ st.index.segs, s.minTie = 0 ∧ s.maxTie = 2 ^ 32 - 1) &&
  decide (st.scores.isIndex = false ∧ st.index.isIndex = true)

theorem listOK_iff (st : ListState) : listOK st = true ↔ ListOK st := by
  simp only [listOK, Bool.and_eq_true, decide_eq_true_eq, segsOK_iff, List.isPerm_iff]
  constructor
  · rintro ⟨⟨⟨⟨⟨⟨⟨⟨⟨a, b⟩, c⟩, d⟩, e⟩, f⟩, g⟩, h⟩, i⟩, j⟩
    exact ⟨a, b, c, d, e, f, ⟨g, h, i⟩, j⟩
  · rintro ⟨a, b, c, d, e, f, ⟨g, h, i⟩, j⟩
    exact ⟨⟨⟨⟨⟨⟨⟨⟨⟨a, b⟩, c⟩, d⟩, e⟩, f⟩, g⟩, h⟩, i⟩, j⟩

/-! Effects of the operations on the content, as operations on collections. -/

/-- A zero update time is replaced by the time of the update. -/
def stamp (now : Nat) (e : Element) : Element := if e.updated = 0 then { e with updated := now } else e

/-- Insertion or replacement of elements. -/
def upsert (content es : List Element) : List Element :=
  es ++ content.filter fun e => !((es.map (·.id)).contains e.id)

/-- Removal of the elements with the IDs. -/
def remove (content : List Element) (ids : List Nat) : List Element :=
  content.filter fun e => !(ids.contains e.id)

end RankDB.Spec

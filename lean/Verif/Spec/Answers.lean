import Verif.Spec.Server
import Verif.Spec.Catalogue
import Verif.Model.ServerQueries
/-
What queries have to answer, in terms of the map from list IDs to rankings alone.
-/
namespace RankDB.Spec
open Server

/-- An element is shown with the number of elements above and below it. -/
def Placed (content : List Element) (x : Element × Int × Int) : Prop :=
  x.2.1 = rankFromTop content x.1 ∧ x.2.2 = rankFromBottom content x.1

/-- The same for the results of lookups. -/
def PlacedR (content : List Element) (r : Segments.Ranked) : Prop :=
  r.fromTop = rankFromTop content r.elem ∧ r.fromBottom = rankFromBottom content r.elem

/-- The statistics of a list: the number of elements, the first and the last one. -/
structure Summary (content : List Element) (s : Lists.Stats) : Prop where
  elements : s.elements = content.length
  top : s.top.map (·.1) = content.head?
  topRank : ∀ x, s.top = some x → x.2.1 = rankFromTop content x.1 ∧ x.2.2 = rankFromBottom content x.1
  bottom : s.bottom.map (·.1) = content.getLast?
  bottomRank : ∀ x, s.bottom = some x → x.2.1 = rankFromTop content x.1 ∧ x.2.2 = rankFromBottom content x.1

/-- One element and its neighbours. The neighbours above are the nearest ones, nearest first; nothing is said about
the ranks that are reported for them unless there is one (see C57). -/
structure ShowsElement (content : List Element) (eid range : Nat) (f : Api.Full) : Prop where
  mem : f.elem ∈ content
  id : f.elem.id = eid
  ranks : Placed content (f.elem, f.fromTop, f.fromBottom)
  below : f.below.map (·.1) = (content.filter fun x => decide (RanksAbove f.elem x)).take range
  belowRanks : ∀ x ∈ f.below, Placed content x
  above : f.above.map (·.1) = (content.filter fun x => decide (RanksAbove x f.elem)).reverse.take range
  aboveRanks : f.above.length ≤ 1 → ∀ x ∈ f.above, Placed content x

/-- The found elements in ranking order with their ranks, and the missing IDs in ascending order. -/
structure ShowsElements (content : List Element) (eids : List Nat) (found : List Segments.Ranked) (missing : List Nat) : Prop where
  elems : found.map (·.elem) = content.filter fun e => decide (e.id ∈ eids)
  ranks : ∀ r ∈ found, PlacedR content r
  ascending : missing.Pairwise (· < ·)
  rest : ∀ v, v ∈ missing ↔ v ∈ eids ∧ v ∉ content.map (·.id)

/-- An element among other elements: the nearest of `pool` on both sides in ranking order, with their ranks in the
whole list, and the rank of the element in the pool. -/
structure ShowsAround (content pool : List Element) (eid range : Nat) (a : Api.Around) : Prop where
  mem : a.center.elem ∈ content
  id : a.center.elem.id = eid
  below : a.below.map (·.elem) = (pool.filter fun x => decide (RanksAbove a.center.elem x)).take range
  above : a.above.map (·.elem) = ((pool.filter fun x => decide (RanksAbove x a.center.elem)).reverse.take range).reverse
  ranks : ∀ r ∈ a.center :: (a.above ++ a.below), PlacedR content r
  fromTop : a.localFromTop = rankFromTop pool a.center.elem
  fromBottom : a.localFromBottom = rankFromBottom pool a.center.elem

/-- The element at the percentile `m / 2 ^ e` of `n` elements: at rank `n * m / 2 ^ e`, rounded down. The product is
computed with 64 bits; if it needs more, the next rank is possible (`C25_rounding_differs`). -/
structure ShowsPercentile (content : List Element) (m e range : Nat) (f : Api.Full) : Prop where
  shows : ShowsElement content f.elem.id range f
  rank : content[content.length * m / 2 ^ e]? = some f.elem ∨
    2 ^ 64 ≤ content.length * m ∧ content[content.length * m / 2 ^ e + 1]? = some f.elem

/-- What a query has to show for a list with the given ranking. -/
def ShowsList (l : Seen) : Query → Shown → Prop
  | .list _, .list set meta_ loadIndex merge split stats =>
    set = l.set ∧ meta_ = l.metadata ∧ loadIndex = l.loadIndex ∧ merge = l.mergeSize ∧ split = l.splitSize ∧
    Summary l.content stats
  | .element _ eid _, .noElement => eid ∉ l.content.map (·.id)
  | .element _ eid range, .element f => ShowsElement l.content eid range f
  | .elements _ eids, .elements found missing => ShowsElements l.content eids found missing
  | .around _ _ eid _, .noElement => eid ∉ l.content.map (·.id)
  | .around _ eids eid range, .around a =>
    ShowsAround l.content (l.content.filter fun e => decide (e.id = eid ∨ e.id ∈ eids)) eid range a
  | .fromTop _ first _, .noElement => l.content.length ≤ first
  | .fromTop _ first limit, .range r =>
    first < l.content.length ∧ r.map (·.1) = (l.content.drop first).take limit ∧ ∀ x ∈ r, Placed l.content x
  | .fromBottom _ first _, .noElement => l.content.length ≤ first
  | .fromBottom _ first limit, .range r =>
    first < l.content.length ∧ r.map (·.1) = (l.content.drop (l.content.length - 1 - first)).take limit ∧
    ∀ x ∈ r, Placed l.content x
  | .percentile .., .failed => l.content.length < 2 ^ 63 → l.content = []
  | .percentile _ m e range, .element f => l.content.length < 2 ^ 63 → ShowsPercentile l.content m e range f
  | _, _ => False

/-- The list of a query. -/
def Query.list? : Query → Option Str
  | .list id | .element id .. | .elements id .. | .around id .. | .fromTop id .. | .fromBottom id ..
  | .percentile id .. => some id
  | .page .. => none

/-- `es` are the lists of the map. -/
def Enumerates (L : Lists) (es : List Catalogue.Entry) : Prop :=
  DistinctLists es ∧ (∀ id, (L id).isSome ↔ id ∈ es.map (·.id)) ∧
  ∀ e ∈ es, ∀ l, L e.id = some l → e.set = l.set ∧ e.metadata = l.metadata

/-- What a query has to answer if `L` are the lists. -/
def Shows (L : Lists) (q : Query) (s : Shown) : Prop :=
  match q with
  | .page after limit => ∃ es page before behind, Enumerates L es ∧ s = .page page before behind ∧
      IsPageAfter es after limit page before behind
  | q => ∀ id, Query.list? q = some id →
    match L id with
    | none => s = .noList
    | some l => ShowsList l q s

/-- Numbers fit their types, and limits are positive (api/design/lists.go, api/design/elements.go). Percentiles are
floating point numbers below 100 % (for 100 % see `C25_percentile_panics`). -/
def AllowedQuery : Query → Prop
  | .list _ => True
  | .element _ eid _ => eid < 2 ^ 64
  | .elements _ eids => ∀ v ∈ eids, v < 2 ^ 64
  | .around _ eids eid _ => eid < 2 ^ 64 ∧ ∀ v ∈ eids, v < 2 ^ 64
  | .fromTop _ _ limit | .fromBottom _ _ limit | .page _ limit => 0 < limit
  | .percentile _ m e _ => m < 2 ^ e ∧ m < 2 ^ 53

/-- What clients may see of the lists `L`: every change means what it should and every query shows the lists as they
are at that time. -/
def MeansTrace (L : Lists) : List Event → List Response → Lists → Prop
  | [], as, L' => as = [] ∧ L' = L
  | .change env r :: es, as, L' => ∃ a as' M, as = .answer a :: as' ∧ Means env.now L r a M ∧ MeansTrace M es as' L'
  | .ask _ q :: es, as, L' => ∃ s as', as = .shown s :: as' ∧ Shows L q s ∧ MeansTrace L es as' L'

/-- Every change and query of a trace fits the server that it finds. -/
def ReadyTrace (db : Db) : List Event → Prop
  | [] => True
  | .change env r :: es => Fits env db ∧ Allowed db r ∧ ReadyTrace (serve env db r).2 es
  | .ask _ q :: es => AllowedQuery q ∧ ReadyTrace db es

end RankDB.Spec

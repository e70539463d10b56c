import Verif.Model.Concurrent
/-
Model of `GetElements` with neighbours (`FindElements` and `findRanked` of segments.go), while updates of the list are
in progress (`Model/Concurrent`).

Each goroutine keeps its own segment locked for reading from the beginning to the end, and each segment into which it
goes on until it has all neighbours on that side (segments.go:1022, 1048: the segments are unlocked when the function
for that side returns). An update cannot lock a segment that a goroutine has locked.

Simplifications: the elements of a segment are read in one step, when it is locked; they cannot change until it is
unlocked. A goroutine that cannot load its own segment makes the whole lookup fail; this is not modelled, the theorems
are about lookups that return a result.
-/
namespace RankDB.Concurrent
open Segments

/-- The segments of the scores that an update has locked for writing. -/
def lockedScores (w : World) : List Nat :=
  match w.phase with
  | .idle => []
  | .locking _ _ gotS => gotS
  | .storing u _ _ outS => u.scr.filter fun i => decide (i ∉ outS)

/-- Where the goroutine is: between two IDs, or collecting the neighbours below (segments.go:1007-1028) or above
(1031-1052) of the element at position `eidx`, with the elements of the segments it has gone on to. -/
inductive Way
  | idle
  | below (eidx : Nat) (seen : List (List Element))
  | above (eidx : Nat) (below : List Element) (seen : List (List Element))

/-- segments.go:933-952: one goroutine, once it has locked and read its segment: the position of the segment, the
offset of the segment and the total count, the elements of the segment, the IDs it was given and those still to be
found, where it is, whether a further segment could not be loaded, and the result. -/
structure Goro where
  seg : Nat
  radius : Nat
  off : Nat
  total : Nat
  elems : List Element
  given : List Nat
  ids : List Nat
  way : Way
  failed : Bool
  res : List Ranked

/-- The segments it has locked for reading, with their elements. -/
def Goro.held (g : Goro) : List (Nat × List Element) :=
  (g.seg, g.elems) :: match g.way with
    | .idle => []
    | .below _ seen => seen.zipIdx.map fun x => (g.seg + 1 + x.2, x.1)
    | .above _ _ seen => seen.zipIdx.map fun x => (g.seg - 1 - x.2, x.1)

/-- What is found below: segments.go:1007-1028. -/
def belowOf (l : List Element) (eidx radius : Nat) (seen : List (List Element)) : List Element :=
  collect radius (l.drop (eidx + 1)) seen

/-- What is found above: segments.go:1031-1052. -/
def aboveOf (l : List Element) (eidx radius : Nat) (seen : List (List Element)) : List Element :=
  collect radius (l.take eidx).reverse (seen.map List.reverse)

/-- segments.go:994-999 and 946: the result for the element at position `eidx`. -/
def Goro.result (g : Goro) (eidx : Nat) (above below : List Element) : Ranked :=
  calculateFromBottom g.total
    { elem := g.elems.getD eidx default, fromTop := g.off + eidx, fromBottom := 0, above := above, below := below }

/-- A step of a goroutine. With a radius of 0 it collects nothing on both sides (segments.go:1001-1003). -/
inductive GoroStep (w : World) : Goro → Goro → Prop
  /-- segments.go:988-993, 943-945: the element is not in the segment. -/
  | skip {g : Goro} {id : Nat} {ids : List Nat} (hw : g.way = .idle) (hi : g.ids = id :: ids)
      (hf : Elements.findIdx g.elems id = none) : GoroStep w g { g with ids := ids }
  /-- segments.go:988-1006: the element is found. -/
  | find {g : Goro} {id eidx : Nat} {ids : List Nat} (hw : g.way = .idle) (hi : g.ids = id :: ids)
      (hf : Elements.findIdx g.elems id = some eidx) : GoroStep w g { g with ids := ids, way := .below eidx [] }
  /-- segments.go:1011-1023: the next segment below is locked and read. -/
  | goBelow {g : Goro} {l : List Element} {eidx : Nat} {seen : List (List Element)} (hw : g.way = .below eidx seen)
      (hn : (belowOf g.elems eidx g.radius seen).length < g.radius) (hs : g.seg + 1 + seen.length < w.cur.scores.segs.length)
      (hl : seeScores w (g.seg + 1 + seen.length) = some l) : GoroStep w g { g with way := .below eidx (seen ++ [l]) }
  /-- segments.go:1018-1020: the next segment below cannot be loaded. -/
  | failBelow {g : Goro} {eidx : Nat} {seen : List (List Element)} (hw : g.way = .below eidx seen)
      (hn : (belowOf g.elems eidx g.radius seen).length < g.radius) (hs : g.seg + 1 + seen.length < w.cur.scores.segs.length) :
      GoroStep w g { g with way := .above eidx (belowOf g.elems eidx g.radius seen) [], failed := true }
  /-- segments.go:1009, 1014-1016: there are enough neighbours below, or no more segments. -/
  | endBelow {g : Goro} {eidx : Nat} {seen : List (List Element)} (hw : g.way = .below eidx seen)
      (hn : (belowOf g.elems eidx g.radius seen).length = g.radius ∨ g.seg + 1 + seen.length = w.cur.scores.segs.length) :
      GoroStep w g { g with way := .above eidx (belowOf g.elems eidx g.radius seen) [] }
  /-- segments.go:1035-1047: the next segment above is locked and read. -/
  | goAbove {g : Goro} {l b : List Element} {eidx : Nat} {seen : List (List Element)} (hw : g.way = .above eidx b seen)
      (hn : (aboveOf g.elems eidx g.radius seen).length < g.radius) (hs : seen.length < g.seg)
      (hl : seeScores w (g.seg - 1 - seen.length) = some l) : GoroStep w g { g with way := .above eidx b (seen ++ [l]) }
  /-- segments.go:1042-1044: the next segment above cannot be loaded. -/
  | failAbove {g : Goro} {b : List Element} {eidx : Nat} {seen : List (List Element)} (hw : g.way = .above eidx b seen)
      (hn : (aboveOf g.elems eidx g.radius seen).length < g.radius) (hs : seen.length < g.seg) :
      GoroStep w g { g with way := .idle, failed := true, res := g.res ++ [g.result eidx (aboveOf g.elems eidx g.radius seen) b] }
  /-- segments.go:1033, 1038-1040, 1054 and 946-947: there are enough neighbours above, or no more segments. -/
  | endAbove {g : Goro} {b : List Element} {eidx : Nat} {seen : List (List Element)} (hw : g.way = .above eidx b seen)
      (hn : (aboveOf g.elems eidx g.radius seen).length = g.radius ∨ seen.length = g.seg) :
      GoroStep w g { g with way := .idle, res := g.res ++ [g.result eidx (aboveOf g.elems eidx g.radius seen) b] }

/-- The list, a lookup and those of its goroutines that have locked their segments. In `look`, `rest` has the segments
that no goroutine has locked yet; `res` is not used. -/
structure Near where
  w : World
  look : Option Look
  gos : List Goro

/-- A step of an update or of the lookup. -/
inductive NearStep (radius : Nat) : Near → Near → Prop
  /-- A step of an update. It does not have a lock that a goroutine has. -/
  | world {w w' : World} {k : Option Look} {gos : List Goro} (hs : Step (w, none) (w', none))
      (hl : ∀ g ∈ gos, ∀ x ∈ g.held, x.1 ∉ lockedScores w') : NearStep radius ⟨w, k, gos⟩ ⟨w', k, gos⟩
  /-- list.go:1212-1236: the lookup begins, as in `Concurrent.Step`. -/
  | call {w : World} (ids : List Nat) :
      NearStep radius ⟨w, none, []⟩ ⟨{ w with hist := w.hist.take 1 }, some (Look.start w ids), []⟩
  /-- segments.go:1199-1212: a goroutine of the lookup reads a segment of the index. -/
  | readIndex {w : World} {k : Look} {gos : List Goro} {a b : List (Nat × List Nat)} {i : Nat} {ids : List Nat} {l : List Element}
      (ht : k.todo = a ++ (i, ids) :: b) (hl : seeIndex w i = some l) :
      NearStep radius ⟨w, some k, gos⟩ ⟨w, some { k with todo := a ++ b, got := k.got ++ Elements.firstWithScore l ids }, gos⟩
  /-- segments.go:918-931: the offsets are read and the found IDs are divided. -/
  | offsets {w : World} {k : Look} {gos : List Goro} (ht : k.todo = []) (ho : k.offs = none) :
      NearStep radius ⟨w, some k, gos⟩
        ⟨w, some { k with offs := some (topOffsets (table w) 0, count (table w)), rest := places (table w) k.found }, gos⟩
  /-- segments.go:933-940: a goroutine locks and reads its segment of the scores. -/
  | read {w : World} {k : Look} {gos : List Goro} {a b : List (Nat × List Nat)} {i : Nat} {ids : List Nat} {l : List Element}
      {offs : List Nat} {total : Nat} (ho : k.offs = some (offs, total)) (hr : k.rest = a ++ (i, ids) :: b)
      (hl : seeScores w i = some l) :
      NearStep radius ⟨w, some k, gos⟩ ⟨w, some { k with rest := a ++ b },
        gos ++ [⟨i, radius, offs.getD i 0, total, l, ids, ids, .idle, false, []⟩]⟩
  /-- segments.go:941-948: a goroutine goes on. -/
  | go {w : World} {k : Option Look} {a b : List Goro} {g g' : Goro} (hs : GoroStep w g g') :
      NearStep radius ⟨w, k, a ++ g :: b⟩ ⟨w, k, a ++ g' :: b⟩

/-- Any number of steps. -/
inductive NearRun (radius : Nat) : Near → Near → Prop
  | refl (x : Near) : NearRun radius x x
  | step {x y z : Near} (h : NearRun radius x y) (hs : NearStep radius y z) : NearRun radius x z

/-- segments.go:954-964: all goroutines are through. -/
structure Near.Returned (n : Near) (ids : List Nat) : Prop where
  look : ∃ k : Look, n.look = some k ∧ k.ids = ids ∧ k.todo = [] ∧ k.offs.isSome ∧ k.rest = []
  gos : ∀ g ∈ n.gos, g.ids = [] ∧ g.way = .idle

/-- segments.go:960-963: the result. -/
def Near.result (n : Near) : List Ranked := n.gos.flatMap (·.res)

/-- No segment failed to load while neighbours were collected. -/
def Near.Loaded (n : Near) : Prop := ∀ g ∈ n.gos, g.failed = false

end RankDB.Concurrent

import Verif.Model.Element
import Verif.Model.Catalogue
/-
Model of the cache of segments: segments.go:186-298 `elementFullIdx` and `replaceSegment`, segment.go:173-249, and
of the Go slices that the cache shares with the operations that change segments.

A segment is loaded, changed and saved under its lock, so these three parts are one step. The storage and the cache
are functions of the parts of their keys; `Props.C42_storage_key` and `Props.C42_cache_key` show that the keys do not
collide. The key of the cache has no set.
-/
namespace RankDB.Cache

/-- A Go slice that begins at the first cell of its array: the number of the array and the length. -/
structure Slice where
  arr : Nat
  len : Nat
deriving DecidableEq, Repr

/-- The arrays; the length of an array is the capacity of its slices. -/
abbrev Mem := List (List Element)

/-- The cells of an array. -/
def cells (m : Mem) (a : Nat) : List Element := (m[a]?).getD []

/-- The elements of a slice. -/
def read (m : Mem) (s : Slice) : List Element := (cells m s.arr).take s.len

/-- A new array with `spare` cells at the end (segment.go:213 makes room for `s.N` elements, and `append` for more
than it needs). -/
def alloc (m : Mem) (l : List Element) (spare : Nat) : Mem × Slice :=
  (m ++ [l ++ List.replicate spare default], ⟨m.length, l.length⟩)

/-- Assignment to one cell. -/
def setCell (m : Mem) (a i : Nat) (e : Element) : Mem := m.set a ((cells m a).set i e)

/-- segments.go:347-358 (and 437-448): `for _, elem := range ls.elements`, at index `i` with `fuel` elements to go,
`w` is `wrtTo`. The elements are read from the array that is being changed. -/
def compact (del : Nat → Bool) (a : Nat) : Nat → Nat → Nat → Mem → Mem × Nat
  | 0, _, w, m => (m, w)
  | fuel + 1, i, w, m =>
    let elem := ((cells m a)[i]?).getD default
    if del elem.id then compact del a fuel (i + 1) w m
    else compact del a fuel (i + 1) (w + 1) (setCell m a w elem)

/-- What is done with the elements of a segment before it is saved. -/
inductive Change
  /-- segments.go:347-363, 437-453: delete IDs by moving the elements that are kept to the front -/
  | delete (del : Nat → Bool)
  /-- New elements are written to the same array if it is large enough: `Merge` (elements.go:258-283) and
  `Insert` (elements.go:205-222), `Delete` (elements.go:375-385), new target segments of index elements
  (segments.go:1161-1168). The assignments to single cells are not modelled, only their result. -/
  | inPlace (f : List Element → List Element)
  /-- New elements in a new array: `Merge` (elements.go:236-256), segments.go:1370-1373, 1433-1435 -/
  | fresh (f : List Element → List Element) (spare : Nat)

/-- The elements after a change. -/
def Change.result : Change → List Element → List Element
  | .delete del, l => l.filter fun e => !del e.id
  | .inPlace f, l => f l
  | .fresh f _, l => f l

/-- The change of memory, and the new slice. If an array is too small a new one is used. -/
def change (m : Mem) (s : Slice) : Change → Mem × Slice
  | .delete del => let r := compact del s.arr s.len 0 0 m; (r.1, ⟨s.arr, r.2⟩)
  | .inPlace f =>
    let new := f (read m s)
    if new.length ≤ (cells m s.arr).length then
      (m.set s.arr (new ++ (cells m s.arr).drop new.length), ⟨s.arr, new.length⟩)
    else alloc m new 0
  | .fresh f spare => alloc m (f (read m s)) spare

/-- A segment: the set of its list (`blobstore.StoreWithSet`), the name of its segments, its ID. -/
structure Key where
  set : Str
  parent : Str
  id : Nat
deriving DecidableEq, Repr

/-- The storage, the cache (`none` for a key that is not there), memory, and the number of elements that the table
has for a segment (segment.go:165-168). -/
structure State where
  store : Key → Option (List Element)
  cache : Str → Nat → Option Slice
  mem : Mem
  n : Key → Nat

def State.cacheAdd (st : State) (k : Key) (s : Option Slice) : State :=
  { st with cache := fun p i => if p = k.parent ∧ i = k.id then s else st.cache p i }

def State.put (st : State) (k : Key) (l : Option (List Element)) : State :=
  { st with store := fun k' => if k' = k then l else st.store k' }

/-- segments.go:186-259 `elementFullIdx`: the slice, `none` for an error. `cached` says whether there is a cache,
`spare` how many cells more than needed are made. -/
def load (cached : Bool) (spare : Nat) (st : State) (k : Key) : State × Option Slice :=
  match (if cached then st.cache k.parent k.id else none) with
  | some s => (st, some s)
  | none =>
    match st.store k with
    | none => (st, none)
    | some l =>
      let r := alloc st.mem l spare
      let st := { st with mem := r.1 }
      (if cached then st.cacheAdd k (some r.2) else st, some r.2)

/-- The elements a caller that loads the segment sees. -/
def view (cached : Bool) (spare : Nat) (st : State) (k : Key) : Option (List Element) :=
  let r := load cached spare st k
  r.2.map (read r.1.mem)

/-- segments.go:270-298 `replaceSegment` with new elements. The table has the new number of elements before they are
saved (segments.go:280-286). -/
def replace (cached saved : Bool) (st : State) (k : Key) (s : Slice) : State :=
  let l := read st.mem s
  let st := { st with n := fun k' => if k' = k then l.length else st.n k' }
  if saved then
    let st := st.put k (some l)
    if cached then st.cacheAdd k (some s) else st
  else st

/-- Load a segment, change it and save it; nothing more if it cannot be loaded. -/
def modify (cached : Bool) (spare : Nat) (st : State) (k : Key) (c : Change) (saved : Bool) : State :=
  match load cached spare st k with
  | (st, none) => st
  | (st, some s) =>
    let r := change st.mem s c
    replace cached saved { st with mem := r.1 } k r.2

/-- What happens to segments. -/
inductive Op
  /-- a segment is loaded for reading -/
  | read (k : Key) (spare : Nat)
  /-- a segment is changed; whether saving succeeds -/
  | modify (k : Key) (spare : Nat) (c : Change) (saved : Bool)
  /-- a new segment is saved (segments.go:70-128, 300-318, list.go:2164-2171) -/
  | create (k : Key) (l : List Element) (saved : Bool)
  /-- segments.go:883-902 `Delete`; whether the storage deletes it -/
  | remove (k : Key) (deleted : Bool)
  /-- list.go:2136, 2232: a merged segment is deleted from the storage only -/
  | drop (k : Key)
  /-- the cache forgets a segment at any time -/
  | evict (parent : Str) (id : Nat)

def step (cached : Bool) (st : State) : Op → State
  | .read k spare => (load cached spare st k).1
  | .modify k spare c saved => modify cached spare st k c saved
  | .create k l saved =>
    let r := alloc st.mem l 0
    replace cached saved { st with mem := r.1 } k r.2
  | .remove k deleted =>
    let st := st.cacheAdd k none
    if deleted then st.put k none else st
  | .drop k => st.put k none
  | .evict p i => { st with cache := fun p' i' => if p' = p ∧ i' = i then none else st.cache p' i' }

def run (cached : Bool) (st : State) (ops : List Op) : State := ops.foldl (step cached) st

/-- A process that starts: an empty cache. -/
def start (store : Key → Option (List Element)) : State :=
  { store := store, cache := fun _ _ => none, mem := [], n := fun k => ((store k).getD []).length }

end RankDB.Cache

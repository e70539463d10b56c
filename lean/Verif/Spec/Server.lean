import Verif.Spec.Lists
import Verif.Model.Server
/-
Specification of the server: a map from list ID to what a user sees of the list, and what a request means for it.
Nothing of segments, blobs, index or names is visible.
-/
namespace RankDB.Spec
open Server

/-- What a user sees of a list: its options, and its elements in ranking order. -/
structure Seen where
  set : Str
  metadata : Option (List (Str × Str))
  loadIndex : Bool
  mergeSize : Nat
  splitSize : Nat
  content : List Element
deriving DecidableEq, Repr

/-- All lists. -/
abbrev Lists := Str → Option Seen

/-- The map with one list changed, added or removed. -/
def Lists.set (L : Lists) (id : Str) (v : Option Seen) : Lists := fun x => if x = id then v else L x

/-- A list as a request describes it. -/
def seen (p : Payload) (content : List Element) : Seen :=
  { set := p.set, metadata := p.metadata, loadIndex := p.loadIndex, mergeSize := p.mergeSize, splitSize := p.splitSize
    content := content }

/-- `es'` are the elements of a request, with the current time. If an ID was given more than once there is one of
its elements, with the lowest score. -/
structure Chosen (now : Nat) (es es' : List Element) : Prop where
  distinct : DistinctIDs es'
  given : ∀ e ∈ es', ∃ x ∈ es, e = { x with updated := now }
  all : ∀ x ∈ es, ∃ e ∈ es', e.id = x.id ∧ e.score ≤ x.score

/-- What a request with the current time `now` means: its answer and the lists afterwards. -/
def Means (now : Nat) (L : Lists) (r : Request) (a : Answer) (L' : Lists) : Prop :=
  match r with
  | .create replace p =>
    if (L p.id).isSome ∧ replace = false then a = .conflict ∧ L' = L
    else if p.splitSize ≤ p.mergeSize ∨ p.set = [] then a = .badRequest ∧ L' = L
    else a = .ok ∧ ∃ es, Chosen now (p.populate.getD []) es ∧ L' = L.set p.id (some (seen p (ranking es)))
  | .clone org p =>
    match L org with
    | none => a = .notFound ∧ L' = L
    | some o =>
      if (L p.id).isSome then a = .conflict ∧ L' = L
      else if p.populate.isSome then a = .badRequest ∧ L' = L
      else if p.splitSize ≤ p.mergeSize ∨ p.set = [] then a = .failed ∧ L' = L
      else a = .ok ∧ L' = L.set p.id (some (seen p o.content))
  | .delete id => a = .ok ∧ L' = L.set id none
  | .createElement id e =>
    match L id with
    | none => a = .notFound ∧ L' = L
    | some l =>
      if e.id ∈ l.content.map (·.id) then a = .conflict ∧ L' = L
      else a = .ok ∧ L' = L.set id (some { l with content := ranking (l.content ++ [{ e with updated := now }]) })
  | .createElements id es =>
    match L id with
    | none => a = .notFound ∧ L' = L
    | some l =>
      if ∃ e ∈ es, e.id ∈ l.content.map (·.id) then a = .conflict ∧ L' = L
      else a = .ok ∧ ∃ es', Chosen now es es' ∧ L' = L.set id (some { l with content := ranking (l.content ++ es') })
  | .putElements id es =>
    match L id with
    | none => a = .notFound ∧ L' = L
    | some l => a = .ok ∧ ∃ es', Chosen now es es' ∧ L' = L.set id (some { l with content := ranking (upsert l.content es') })
  | .deleteElements id ids =>
    match L id with
    | none => a = .notFound ∧ L' = L
    | some l => a = .ok ∧ L' = L.set id (some { l with content := remove l.content ids })
  | .reindex id | .repair id | .split id _ => (a = if (L id).isSome then .ok else .notFound) ∧ L' = L
  | .save => a = .ok ∧ L' = L

/-- What a user sees of the lists of a server. -/
def look (db : Db) : Lists := fun id =>
  (byID db.lists id).bind fun l => (Disk.reload db.store l.ent).map fun st =>
    { set := l.set, metadata := l.metadata, loadIndex := l.loadIndex, mergeSize := l.ent.mergeSize
      splitSize := l.ent.splitSize, content := st.content }

/-- The names under which the content of a list is stored. -/
def names (l : Listing) : List Str := [l.ent.scores, l.ent.index]

/-- A server in good order: every list has its own ID and its own names, and can be read. -/
structure Good (db : Db) : Prop where
  ids : (db.lists.map (·.id)).Nodup
  own : ∀ l ∈ db.lists, l.ent.scores ≠ l.ent.index
  names : ∀ l ∈ db.lists, ∀ l' ∈ db.lists, ∀ n ∈ names l, n ∈ names l' → l.id = l'.id
  readable : ∀ l ∈ db.lists, ∃ st, Disk.reload db.store l.ent = some st ∧ ListOK st
  sizes : ∀ l ∈ db.lists, 4 ≤ l.ent.splitSize

/-- The environment of a request: the clock is set and has not overflown, the names for new segments are not in
use, and the reduced segment size is positive. -/
structure Fits (env : Env) (db : Db) : Prop where
  now : 0 < env.now ∧ env.now < 2 ^ 32 - 1
  differ : env.scores ≠ env.index
  fresh : ∀ l ∈ db.lists ++ db.file, env.scores ∉ names l ∧ env.index ∉ names l
  reduce : ∀ n, 0 < n → 0 < env.reduce n

/-- Numbers fit their types, and there is room for the numbers of elements and segments. Elements of a request do not
have a time yet (api/morph/elements.go:193-211); only for `createElements` this matters. -/
def Allowed (db : Db) : Request → Prop
  | .create _ p => 4 ≤ p.splitSize ∧ (∀ e ∈ p.populate.getD [], Storable e) ∧ (p.populate.getD []).length + 2 ≤ 2 ^ 32
  | .clone org p => 4 ≤ p.splitSize ∧ ∀ l ∈ db.lists, l.id = org → ∀ st, Disk.reload db.store l.ent = some st →
      st.content.length + 2 ≤ 2 ^ 32 ∧ st.scores.segs.length + 1 ≤ 2 ^ 32
  | .createElement _ e => Storable e
  | .createElements _ es => ∀ e ∈ es, Storable e ∧ e.updated = 0
  | .putElements _ es => ∀ e ∈ es, Storable e
  | .deleteElements _ ids => ∀ v ∈ ids, v < 2 ^ 64
  | .reindex id | .repair id => ∀ l ∈ db.lists, l.id = id → ∀ st, Disk.reload db.store l.ent = some st →
      st.content.length + 2 ≤ 2 ^ 32
  | .split id _ => ∀ l ∈ db.lists, l.id = id → ∀ st, Disk.reload db.store l.ent = some st →
      st.scores.nextID ≤ 2 ^ 31 ∧ st.index.nextID ≤ 2 ^ 31
  | .delete _ | .save => True

/-- Requests one after the other, with the current time of each. -/
def MeansAll (L : Lists) : List (Nat × Request) → List Answer → Lists → Prop
  | [], as, L' => as = [] ∧ L' = L
  | (now, r) :: rs, as, L' => ∃ a as' M, as = a :: as' ∧ Means now L r a M ∧ MeansAll M rs as' L'

/-- Every request of a history fits the server that it finds. -/
def Ready (db : Db) : List (Env × Request) → Prop
  | [] => True
  | (env, r) :: rs => Fits env db ∧ Allowed db r ∧ Ready (serve env db r).2 rs

/-- A server without lists. -/
def noLists : Db := { store := { heads := fun _ => none, elems := fun _ _ => none }, lists := [], file := [] }

/-- The ID of the list that a request is about. -/
def target : Request → Option Str
  | .create _ p | .clone _ p => some p.id
  | .delete id | .createElement id _ | .createElements id _ | .putElements id _ | .deleteElements id _ | .reindex id | .repair id | .split id _ => some id
  | .save => none

end RankDB.Spec

import Verif.Spec.Lists
/-
Histories of operations on one list, and what they mean for a map from element ID to element.
-/
namespace RankDB.Spec

/-- An operation of the API with all arguments and everything that is not determined by them: the time,
the order in which the workers and map iterations run, the shuffle and the reduced segment size of
`populate`. -/
inductive Op
  | insert (now : Nat) (sch : Sched) (es : List Element)
  | update (now : Nat) (sch : Sched) (es : List Element)
  | delete (now : Nat) (sch : Sched) (ids : List Nat)
  | split (now : Nat) (merge : Bool)
  | reindex (now : Nat) (sch : Sched)
  | populate (now : Nat) (sch shuffle : Sched) (reduce : Nat → Nat) (es : List Element)
  | repair (now : Nat) (sch shuffle : Sched) (reduce : Nat → Nat)

/-- What the operation does to a list; `none` if it does not return. -/
def Op.run (st : ListState) : Op → Option ListState
  | .insert now sch es => Lists.insert now sch st es
  | .update now sch es => some (Lists.updateElements now sch st es)
  | .delete now sch ids => some (Lists.deleteElements now sch st ids)
  | .split now merge => some (Lists.split now merge st)
  | .reindex now sch => Lists.reindex now sch st
  | .populate now sch shuffle reduce es =>
    Lists.populate now sch shuffle reduce st.mergeSize st.splitSize es
  | .repair now sch shuffle reduce => Lists.repair now sch shuffle reduce (fun _ => false) st

/-- A map from element ID to element. -/
abbrev ElementMap := Nat → Option Element

/-- Put elements into a map. -/
def ElementMap.put (m : ElementMap) (es : List Element) : ElementMap := fun id =>
  match es.find? (fun e => e.id == id) with
  | some e => some e
  | none => m id

/-- What the operation does to a map. -/
def Op.meaning (m : ElementMap) : Op → ElementMap
  | .insert _ _ es => m.put es
  | .update now _ es => m.put (es.map (stamp now))
  | .delete _ _ ids => fun id => if id ∈ ids then none else m id
  | .split _ _ => m
  | .reindex _ _ => m
  | .populate _ _ _ _ es => ElementMap.put (fun _ => none) es
  | .repair _ _ _ _ => m

/-- The arguments are allowed: numbers fit their types, the elements of one call have distinct IDs
(as documented), inserted elements are new, and there is room for segment and element numbers. -/
def Op.Allowed (st : ListState) (m : ElementMap) : Op → Prop
  | .insert _ _ es => (∀ e ∈ es, Storable e) ∧ DistinctIDs es ∧ ∀ e ∈ es, m e.id = none
  | .update now _ es => (∀ e ∈ es, Storable e) ∧ DistinctIDs es ∧ now < 2 ^ 32 - 1
  | .delete _ _ ids => ∀ v ∈ ids, v < 2 ^ 64
  | .split now _ => now < 2 ^ 32 - 1 ∧ st.scores.nextID ≤ 2 ^ 31 ∧ st.index.nextID ≤ 2 ^ 31
  | .reindex _ _ => st.content.length + 2 ≤ 2 ^ 32
  | .populate _ _ _ _ es => (∀ e ∈ es, Storable e) ∧ DistinctIDs es ∧ es.length + 2 ≤ 2 ^ 32
  | .repair _ _ _ _ => st.content.length + 2 ≤ 2 ^ 32

/-- `History st m`: some history of operations on a new list has led to the list `st`, and the same
operations on an empty map have led to `m`. -/
inductive History : ListState → ElementMap → Prop
  | new (now merge split : Nat) : History (Lists.initEmpty now merge split) (fun _ => none)
  | step {st st' : ListState} {m : ElementMap} (op : Op) (h : History st m) (ha : op.Allowed st m)
      (hr : op.run st = some st') : History st' (op.meaning m)

end RankDB.Spec

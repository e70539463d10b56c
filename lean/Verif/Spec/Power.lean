import Verif.Model.Disk
import Verif.Spec.Lists
/-
Specification of histories of requests to one list (C113).
-/
namespace RankDB.Spec.History
open Disk

/-- A request that changes elements of a list. -/
inductive Request
  | insert (l : List Element)
  | update (es : List Element)
  | delete (ids : List Nat)

/-- A request, the time at which it is served and the order of its goroutines. -/
structure Served where
  req : Request
  now : Nat
  sch : Sched

/-- The IDs of the elements a request is about. -/
def Served.named (r : Served) : List Nat :=
  match r.req with
  | .insert l => l.map (·.id)
  | .update es => es.map (·.id)
  | .delete ids => ids

/-- The list after the request. An insertion that does not return has done nothing. -/
def Served.apply (r : Served) (st : ListState) : ListState :=
  match r.req with
  | .insert l => (Lists.insert r.now r.sch st l).getD st
  | .update es => Lists.updateElements r.now r.sch st es
  | .delete ids => Lists.deleteElements r.now r.sch st ids

/-- What the request writes. -/
def Served.writes (r : Served) (ent : Entry) (st : ListState) : List Write :=
  match r.req with
  | .insert l => Disk.insert r.now r.sch ent st l
  | .update es => Disk.updateElements r.now r.sch ent st es
  | .delete ids => Disk.deleteElements r.now r.sch ent st ids

/-- The request has storable elements, none twice, and an insertion none that the list has. -/
def Served.Sound (r : Served) (st : ListState) : Prop :=
  match r.req with
  | .insert l => (∀ e ∈ l, Storable e) ∧ DistinctIDs (st.content ++ l)
  | .update es => (∀ e ∈ es, Storable e) ∧ DistinctIDs es ∧ r.now < 2 ^ 32 - 1
  | .delete ids => ∀ v ∈ ids, v < 2 ^ 64

/-- The list after the requests. -/
def after : ListState → List Served → ListState
  | st, [] => st
  | st, r :: rs => after (r.apply st) rs

/-- What the requests write, one after the other. -/
def written (ent : Entry) : ListState → List Served → List Write
  | _, [] => []
  | st, r :: rs => r.writes ent st ++ written ent (r.apply st) rs

/-- Every request is sound for the list it meets. -/
def Sound : ListState → List Served → Prop
  | _, [] => True
  | st, r :: rs => r.Sound st ∧ Sound (r.apply st) rs

/-- `st1` is the list after the first of the requests, or after these and a part of the next: elements that this one does
not name are as before, named ones as before or as after it, and all are in order. -/
def UpTo (st : ListState) (rs : List Served) (st1 : ListState) : Prop :=
  st1 = after st rs ∨ ∃ a r b, rs = a ++ r :: b ∧ Ranked st1.content ∧
    st1.content.filter (fun e => decide (e.id ∉ r.named)) = (after st a).content.filter (fun e => decide (e.id ∉ r.named)) ∧
    ∀ e ∈ st1.content, e ∈ (after st a).content ∨ e ∈ (after st (a ++ [r])).content

end RankDB.Spec.History

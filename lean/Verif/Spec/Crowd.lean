import Verif.Model.Crowd
import Verif.Spec.Serial
import Verif.Spec.Server
/-
What it means that requests for any lists take effect one after the other.
-/
namespace RankDB.Spec
open Server

/-- A list as a user sees it. -/
def sight (l : Listing) (st : ListState) : Seen :=
  { set := l.set, metadata := l.metadata, loadIndex := l.loadIndex, mergeSize := l.ent.mergeSize
    splitSize := l.ent.splitSize, content := st.content }

/-- All lists as users see them, if their segments are `sts`. -/
def sights (s : List Served) (sts : List ListState) : Lists := fun id =>
  ((s.zip sts).find? fun p => p.1.listing.id == id).map fun p => sight p.1.listing p.2

/-- Numbers fit their types, and the clock is set. -/
def AllowedClient (id : Str) (c : Client) : Prop :=
  (0 < c.env.now ∧ c.env.now < 2 ^ 32 - 1) ∧ calls c.req c.op ∧ target c.req = some id ∧
  match c.req with
  | .putElements _ es => ∀ e ∈ es, Storable e
  | .deleteElements _ ids => ∀ v ∈ ids, v < 2 ^ 64
  | _ => True

/-- The lists at the beginning: every list has its own ID and is in good order, and the requests are for their list. -/
structure CrowdFits (s : List Served) : Prop where
  ids : (s.map (·.listing.id)).Nodup
  ok : ∀ x ∈ s, ListOK x.list
  clients : ∀ x ∈ s, ∀ c ∈ x.clients, AllowedClient x.listing.id c

/-- The request does maintenance. -/
def Maintains : Request → Prop
  | .reindex _ | .repair _ | .split .. => True
  | _ => False

/-- There is room for the numbers of elements and segments, in whatever order requests for the list are served before
one that does maintenance. -/
def CrowdRoom (x : Served) : Prop :=
  ∀ order : List Nat, order.Nodup → ∀ l, Serial.OneByOne (order.filterMap fun k => (x.clients[k]?).map fun c => c.call.2) x.list l →
    (∃ c ∈ x.clients, Maintains c.req) →
    l.content.length + 2 ≤ 2 ^ 32 ∧ l.scores.nextID ≤ 2 ^ 31 ∧ l.index.nextID ≤ 2 ^ 31

/-- The request with a number, with its time. -/
def clientAt (s : List Served) (p : Nat × Nat) : Option (Nat × Request) :=
  s[p.1]?.bind fun x => x.clients[p.2]?.map fun c => (c.env.now, c.req)

end RankDB.Spec

namespace RankDB.Server
open Spec

/-- The lists as users see them. -/
def Crowd.look (s : List Served) (c : Crowd) : Spec.Lists := sights s (c.worlds.map (·.list))

/-- All changes that have begun are complete. -/
def Crowd.Settled (c : Crowd) : Prop := ∀ w ∈ c.worlds, w.Settled

/-- The request has been answered. -/
def Crowd.Answered (c : Crowd) (p : Nat × Nat) : Prop := ∃ w, c.worlds[p.1]? = some w ∧ w.Returned p.2

end RankDB.Server

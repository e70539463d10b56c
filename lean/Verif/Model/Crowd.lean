import Verif.Model.Serial
import Verif.Model.Server
/-
Model of requests that change the elements of any lists at the same time, several of them for the same list: every list
is a world of `Model/Serial`, with the locks of the list and the calls that requests make on it. The lists share no
locks and no segments, so a step of the server is a step of one list.

Simplifications: the lists are those that are there at the beginning; none is created or deleted meanwhile (`Model/Pool`
is about that). What is kept here are the segments of the lists, not the blobs. Creating elements is left out, because
the handler looks for the IDs before it takes the lock (see C65). The storage does not fail.
-/
namespace RankDB.Server

/-- A request for a list with the locks that its call takes. -/
structure Client where
  env : Env
  req : Request
  op : Locks.Op

/-- What the call of a request does to the list, and `none` for the other requests: `putElements` is
api/elements.go:321-357 with list.go:1246-1490, `deleteElements` api/elements.go:79-140 with list.go:1501-1543, `reindex`
api/lists.go:228-248 with list.go:722-781, `repair` api/lists.go:251-270 with list.go:1789-1844, and `split`
manager.go:135-153 with list.go:2069-2288. -/
def jobOf (env : Env) : Request → Option Serial.Job
  | .putElements _ es => some (.bySegment fun l =>
      some (Lists.updateElements env.now env.sch l (Elements.deduplicate (Elements.updateTime env.now es)).1))
  | .deleteElements _ ids => some (.bySegment fun l => some (Lists.deleteElements env.now env.sch l ids))
  | .reindex _ => some (.whole fun l => Lists.reindex env.now env.sch l)
  | .repair _ => some (.whole fun l => Lists.repair env.now env.sch env.shuffle env.reduce (fun _ => false) l)
  | .split _ merge => some (.whole fun l => some (Lists.split env.now merge l))
  | _ => none

/-- The call of a request takes the locks of list.go:1246-1490, 1501-1543, 722-731, 1789-1845 or 2069-2296. -/
def calls : Request → Locks.Op → Prop
  | .putElements .., .updateElements .. => True
  | .deleteElements .., .deleteElements .. => True
  | .reindex _, .reindex .. => True
  | .repair _, .repair stat .. => stat ≠ .failed
  | .split .., .split .. => True
  | _, _ => False

/-- A list of the server at the beginning, and the requests for it, those that arrive later too: a request that has not
arrived makes no steps. -/
structure Served where
  listing : Listing
  list : ListState
  clients : List Client

/-- The call of a request. -/
def Client.call (c : Client) : Locks.Op × Serial.Job := (c.op, (jobOf c.env c.req).getD .none)

/-- All lists with the calls that run on them. `order` are the requests in the order in which they began to change their
lists, as numbers of the list and of the request; it is only there to state properties. -/
structure Crowd where
  worlds : List Serial.World
  order : List (Nat × Nat)

/-- The lists with all requests at their start. -/
def Crowd.start (s : List Served) : Crowd :=
  { worlds := s.map fun x => Serial.start (x.clients.map Client.call) x.list, order := [] }

/-- A step of one of the lists: a goroutine of a call takes or releases a lock, or a call changes the list. -/
inductive CrowdStep : Crowd → Crowd → Prop
  | at {c : Crowd} (i : Nat) {w w' : Serial.World} (hw : c.worlds[i]? = some w) (h : Serial.Step w w') :
      CrowdStep c { worlds := c.worlds.set i w', order := c.order ++ (w'.order.drop w.order.length).map fun k => (i, k) }

/-- Any number of steps. -/
inductive CrowdRun : Crowd → Crowd → Prop
  | refl (c : Crowd) : CrowdRun c c
  | step {c d e : Crowd} (h : CrowdRun c d) (hs : CrowdStep d e) : CrowdRun c e

end RankDB.Server

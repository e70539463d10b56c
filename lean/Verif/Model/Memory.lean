import Verif.Model.ServerQueries
/-
Model of the server with what it keeps of the lists in memory.

`Model/Server` reads the tables of the segments of a list (list.go:36-46, the fields `scores` and `index` without
elements) from the storage whenever they are needed. The server loads them when a list is used for the first time
(list.go:345-393), keeps them, changes them together with the list (list.go:241-250, 458-465), and may release them
between any two requests (lists.go:241-265, list.go:1057-1117, manager.go:101-130). Elements are read from the storage
each time; the cache for them is `Model/Cache`. How a release excludes requests in progress is `Model/Release`.

Simplification: requests, and the release of a list, happen one after the other. Errors of the storage are left out.
-/
namespace RankDB.Server
open Disk

/-- list.go:36-46: the fields `scores` and `index` of a list. -/
abbrev Tables := Segs × Segs

/-- The server, and the tables in memory of the lists with the given IDs. -/
structure Live where
  db : Db
  mem : Str → Option Tables

/-- What requests find: list.go:345-352 takes the tables in memory if they are there, and 368-393 those in the
storage otherwise. -/
def seenStore (L : Live) : Store :=
  { L.db.store with
    heads := fun p =>
      match L.db.lists.find? fun l => (L.mem l.id).isSome && (l.ent.scores == p || l.ent.index == p) with
      | none => L.db.store.heads p
      | some l => (L.mem l.id).map fun t => if l.ent.scores = p then t.1 else t.2 }

/-- The server as requests find it. -/
def Live.found (L : Live) : Db := { L.db with store := seenStore L }

/-- The tables of a list. -/
def tables (st : ListState) : Tables := (head st.scores, head st.index)

/-- list.go:393 and 464: the list is loaded and changed to what `f` gives, and the tables are kept. -/
def keep (db : Db) (id : Str) (f : ListState → Option ListState) : List (Str × Option Tables) :=
  match byID db.lists id with
  | none => []
  | some l =>
    match reload db.store l.ent with
    | none => []
    | some st => [(id, some (tables ((f st).getD st)))]

/-- What a request changes of the tables in memory. A list that is created or cloned keeps its new tables (list.go:967,
464), and a list that is deleted has none (list.go:1161-1162). -/
def learn (env : Env) (db : Db) : Request → List (Str × Option Tables)
  | .create replace p =>
    if (create env db replace p).1 = .ok then
      match Lists.populate env.now env.sch env.shuffle env.reduce p.mergeSize p.splitSize (initial env p) with
      | none => []
      | some st => [(p.id, some (tables st))]
    else []
  | .clone org p =>
    if (clone env db org p).1 = .ok then
      match (byID db.lists org).bind fun o => reload db.store o.ent with
      | none => []
      | some st =>
        match Lists.clone env.now p.mergeSize p.splitSize st with
        | none => []
        | some st' => [(org, some (tables st)), (p.id, some (tables st'))]
    else []
  | .delete id => [(id, none)]
  | .createElement id e => keep db id fun st =>
    if (Lists.getElements env.sch st [e.id] 0).length > 0 then some st
    else Lists.insert env.now env.sch st (Elements.updateTime env.now [e])
  | .createElements id es => keep db id fun st =>
    let es' := Elements.updateTime env.now (Elements.deduplicate es).1
    if (Lists.getElements env.sch st (es'.map (·.id)) 0).length > 0 then some st else Lists.insert env.now env.sch st es'
  | .putElements id es => keep db id fun st =>
    some (Lists.updateElements env.now env.sch st (Elements.deduplicate (Elements.updateTime env.now es)).1)
  | .deleteElements id ids => keep db id fun st => some (Lists.deleteElements env.now env.sch st ids)
  | .reindex id => keep db id fun st => Lists.reindex env.now env.sch st
  | .repair id => keep db id fun st => Lists.repair env.now env.sch env.shuffle env.reduce (fun _ => false) st
  | .split id merge => keep db id fun st => some (Lists.split env.now merge st)
  | .save => []

/-- Entries replace what was there. -/
def remember (mem : Str → Option Tables) (xs : List (Str × Option Tables)) : Str → Option Tables := fun id =>
  match xs.find? fun x => x.1 == id with
  | none => mem id
  | some x => x.2

/-- A request. -/
def Live.serve (env : Env) (L : Live) (r : Request) : Answer × Live :=
  ((handle env L.found r).1,
    { db := applyAll L.db (handle env L.found r).2, mem := remember L.mem (learn env L.found r) })

/-- A query; the list is loaded if it was not. -/
def Live.ask (sch : Sched) (L : Live) (q : Query) : Shown × Live :=
  (Server.ask sch L.found q,
    { L with mem := match q with
      | .list id | .element id .. | .elements id .. | .around id .. | .fromTop id .. | .fromBottom id ..
      | .percentile id .. => remember L.mem (keep L.found id some)
      | .page .. => L.mem })

/-- lists.go:241-265 `Prune`: lists that are not always loaded are released, except those for which this takes too
long (list.go:1103-1105), or which are not reached (lists.go:244-248). -/
def Live.prune (skip : Str → Bool) (L : Live) : Live :=
  { L with mem := fun id =>
      match byID L.db.lists id with
      | none => L.mem id
      | some l => if l.loadIndex || skip id then L.mem id else none }

/-- What happens: something that clients do, or lists are released. -/
inductive LiveEvent
  | client (e : Event)
  | prune (skip : Str → Bool)

/-- One after the other: what clients see, and the server afterwards. -/
def liveTrace (L : Live) : List LiveEvent → List Response × Live
  | [] => ([], L)
  | .client (.change env r) :: es =>
    let s := L.serve env r
    let t := liveTrace s.2 es
    (.answer s.1 :: t.1, t.2)
  | .client (.ask sch q) :: es =>
    let s := L.ask sch q
    let t := liveTrace s.2 es
    (.shown s.1 :: t.1, t.2)
  | .prune skip :: es => liveTrace (L.prune skip) es

/-- The server after a start: nothing is in memory yet. Lists that are always loaded may be (lists.go:196-212); then
the first queries are those of the start. -/
def started (db : Db) : Live := { db := db, mem := fun _ => none }

/-- What clients do. -/
def clients (es : List LiveEvent) : List Event := es.filterMap fun | .client e => some e | .prune _ => none

end RankDB.Server

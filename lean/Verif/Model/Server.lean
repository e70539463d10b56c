import Verif.Model.Disk
/-
Model of the server as a whole: the catalogue of lists in memory, the file with the catalogue, and the blobs of
all lists. Requests are those of api/lists.go and api/elements.go that change something; the background jobs of
manager.go are requests too. One request is served after the other here; `Model/Locks`, `Model/Concurrent` and
`Props/Api` are about requests at the same time.

Simplifications: the blobs of all sets are in one storage, because the names of segments are taken from
`RandString` whatever the set (see `Model/Keys`). The caches are left out (see `Model/Cache`). Operations read the
whole list; if anything of it is missing they fail. Errors of the storage are left out.
-/
namespace RankDB.Server
open Disk

/-- list.go:30-54 `type List`: an entry of the catalogue. -/
structure Listing where
  id : Str
  set : Str
  metadata : Option (List (Str × Str))
  loadIndex : Bool
  ent : Entry
deriving DecidableEq, Repr

/-- manager.go:17-32 `type Manager`: the catalogue in memory `lists`, the saved one `file` (manager.go:180-195), and
the blobs. -/
structure Db where
  store : Store
  lists : List Listing
  file : List Listing

/-- A change: a blob is written, the catalogue or an entry of it is changed, or the catalogue is saved. -/
inductive Effect
  | blob (w : Write)
  | put (l : Listing)
  | drop (id : Str)
  | save

/-- lists.go:38-48 `Lists.ByID`. -/
def byID (lists : List Listing) (id : Str) : Option Listing := lists.find? fun l => l.id == id

/-- The effect of one change: `put` is lists.go:268-274 `Lists.Add`, or an assignment to the fields of a list that is
there; `drop` is lists.go:313-315 `Lists.Delete`; `save` is manager.go:180-195 `SaveLists`. -/
def apply (db : Db) : Effect → Db
  | .blob w => { db with store := write db.store w }
  | .put l => { db with lists := l :: db.lists.filter fun x => x.id != l.id }
  | .drop id => { db with lists := db.lists.filter fun x => x.id != id }
  | .save => { db with file := db.lists }

/-- Changes one after the other. -/
def applyAll (db : Db) (es : List Effect) : Db := es.foldl apply db

/-- manager.go:156-178 `LoadLists` of a process that starts. -/
def restart (db : Db) : Db := { db with lists := db.file }

/-- api/design/types.go `RankList`: the body of a request to create or clone a list. -/
structure Payload where
  id : Str
  set : Str
  metadata : Option (List (Str × Str))
  mergeSize : Nat
  splitSize : Nat
  loadIndex : Bool
  populate : Option (List Element)

/-- What a request does not determine: the time, the order of goroutines, the shuffle and the segment size of
`populate`, and the names for new segments. -/
structure Env where
  now : Nat
  sch : Sched
  shuffle : Sched
  reduce : Nat → Nat
  scores : Str
  index : Str

/-- Requests and jobs. -/
inductive Request
  | create (replace : Bool) (p : Payload)
  | clone (org : Str) (p : Payload)
  | delete (id : Str)
  | createElement (id : Str) (e : Element)
  | createElements (id : Str) (es : List Element)
  | putElements (id : Str) (es : List Element)
  | deleteElements (id : Str) (ids : List Nat)
  | reindex (id : Str)
  | repair (id : Str)
  | split (id : Str) (merge : Bool)
  | save

/-- The kinds of answers. `failed` is an internal error; `stuck` stands for a panic or a request that does not
return. -/
inductive Answer
  | ok
  | conflict
  | notFound
  | badRequest
  | failed
  | stuck
deriving DecidableEq, Repr

/-- list.go:161-169: the entry of a new list. -/
def listing (env : Env) (p : Payload) : Listing :=
  { id := p.id, set := p.set, metadata := p.metadata, loadIndex := p.loadIndex
    ent := { scores := env.scores, index := env.index, mergeSize := p.mergeSize, splitSize := p.splitSize } }

/-- list.go:94-103 and 155-157: the options and the set are accepted. -/
def accepted (p : Payload) : Bool := (Lists.mergeSplitSize p.mergeSize p.splitSize).isSome && !p.set.isEmpty

/-- api/lists.go:50-57 and list.go:171-172: the elements of a new list. -/
def initial (env : Env) (p : Payload) : List Element :=
  match p.populate with
  | none => []
  | some l => Elements.updateTime env.now (Elements.deduplicate (Elements.updateTime env.now l)).1

/-- list.go:1120-1166 `DeleteAll`. If the index is missing it is rebuilt and deleted again; if the scores cannot be
loaded nothing is deleted. -/
def deleteAll (sch : Sched) (d : Store) (ent : Entry) : List Write :=
  match d.heads ent.scores, d.heads ent.index with
  | some s, some i => deleteSegs sch ent.scores s.segs ++ deleteSegs sch ent.index i.segs
  | some s, none => if complete d ent.scores s then deleteSegs sch ent.scores s.segs else []
  | none, _ => []

/-- list.go:490-555 `cloneElements`: the writes. -/
def cloneWrites (new : Entry) (st : ListState) : List Write :=
  newSegs new.scores st.scores.segs ++ (newSegs new.index st.index.segs ++ saveSegments new st)

/-- api/lists.go:27-78 `Create`, with list.go:146-197 `NewList`. -/
def create (env : Env) (db : Db) (replace : Bool) (p : Payload) : Answer × List Effect :=
  let old := byID db.lists p.id
  if old.isSome && !replace then (.conflict, [])
  else if !accepted p then (.badRequest, [])
  else
    match Lists.populate env.now env.sch env.shuffle env.reduce p.mergeSize p.splitSize (initial env p) with
    | none => (.stuck, [])
    | some _ =>
      let ws := populateNew env.now env.sch env.shuffle env.reduce (listing env p).ent (initial env p)
      let del := match old with
        | none => []
        | some o => deleteAll env.sch (writes db.store ws) o.ent
      (.ok, (ws ++ del).map .blob ++ [.put (listing env p)])

/-- api/lists.go:315-360 `Clone`, with list.go:146-197 `NewList`. -/
def clone (env : Env) (db : Db) (org : Str) (p : Payload) : Answer × List Effect :=
  match byID db.lists org with
  | none => (.notFound, [])
  | some o =>
    if (byID db.lists p.id).isSome then (.conflict, [])
    else if p.populate.isSome then (.badRequest, [])
    else if !accepted p then (.failed, [])
    else
      match reload db.store o.ent with
      | none => (.failed, [])
      | some st =>
        match Lists.clone env.now p.mergeSize p.splitSize st with
        | none => (.stuck, [])
        | some st' => (.ok, (cloneWrites (listing env p).ent st').map .blob ++ [.put (listing env p)])

/-- api/lists.go:81-95 `Delete` with manager.go:198-205 `DeleteList`. -/
def delete (env : Env) (db : Db) (id : Str) : Answer × List Effect :=
  match byID db.lists id with
  | none => (.ok, [])
  | some l => (.ok, .drop id :: (deleteAll env.sch db.store l.ent).map .blob)

/-- The beginning of the requests for one list, for example api/elements.go:42-45: the list is looked up and
loaded. -/
def withList (db : Db) (id : Str) (f : Listing → ListState → Answer × List Effect) : Answer × List Effect :=
  match byID db.lists id with
  | none => (.notFound, [])
  | some l =>
    match reload db.store l.ent with
    | none => (.failed, [])
    | some st => f l st

/-- Requests, with the changes they make in order. `createElement` is api/elements.go:30-76, `createElements`
api/multilist.go:59-77 for one list, where `GetElements` looks for all IDs, `putElements`
api/elements.go:321-357, `deleteElements` api/elements.go:79-140, `reindex` api/lists.go:228-248 with list.go:722-781,
`repair` api/lists.go:251-270 with list.go:1789-1844, `split` manager.go:135-153 with list.go:2069-2288, and `save`
manager.go:180-195. -/
def handle (env : Env) (db : Db) : Request → Answer × List Effect
  | .create replace p => create env db replace p
  | .clone org p => clone env db org p
  | .delete id => delete env db id
  | .createElement id e => withList db id fun l st =>
    if (Lists.getElements env.sch st [e.id] 0).length > 0 then (.conflict, [])
    else
      match Lists.insert env.now env.sch st (Elements.updateTime env.now [e]) with
      | none => (.stuck, [])
      | some _ => (.ok, (Disk.insert env.now env.sch l.ent st (Elements.updateTime env.now [e])).map .blob)
  | .createElements id es => withList db id fun l st =>
    let es' := Elements.updateTime env.now (Elements.deduplicate es).1
    if (Lists.getElements env.sch st (es'.map (·.id)) 0).length > 0 then (.conflict, [])
    else
      match Lists.insert env.now env.sch st es' with
      | none => (.stuck, [])
      | some _ => (.ok, (Disk.insert env.now env.sch l.ent st es').map .blob)
  | .putElements id es => withList db id fun l st =>
    (.ok, (Disk.updateElements env.now env.sch l.ent st
      (Elements.deduplicate (Elements.updateTime env.now es)).1).map .blob)
  | .deleteElements id ids => withList db id fun l st =>
    (.ok, (Disk.deleteElements env.now env.sch l.ent st ids).map .blob)
  | .reindex id => withList db id fun l st =>
    let new := { l.ent with index := env.index }
    match Lists.reindex env.now env.sch st with
    | none => (.stuck, [])
    | some _ => (.ok, (Disk.reindex env.now env.sch l.ent new st).map .blob ++ [.put { l with ent := new }])
  | .repair id => withList db id fun l st =>
    let new := { l.ent with scores := env.scores, index := env.index }
    match Lists.repair env.now env.sch env.shuffle env.reduce (fun _ => false) st with
    | none => (.stuck, [])
    | some _ => (.ok, (repairWrites env.now env.sch env.shuffle env.reduce l.ent new st).map .blob ++
        [.put { l with ent := new }])
  | .split id merge => withList db id fun l st =>
    (.ok, (Disk.split env.now merge env.sch l.ent st).map .blob)
  | .save => (.ok, [.save])

/-- The answer to a request and the server afterwards. -/
def serve (env : Env) (db : Db) (r : Request) : Answer × Db :=
  ((handle env db r).1, applyAll db (handle env db r).2)

/-- The server after it crashed before change number `k` of a request, and was started again. -/
def crashed (k : Nat) (env : Env) (db : Db) (r : Request) : Db := restart (applyAll db ((handle env db r).2.take k))

/-- Requests one after the other: the answers and the server afterwards. -/
def serveAll (db : Db) : List (Env × Request) → List Answer × Db
  | [] => ([], db)
  | (env, r) :: rs =>
    let s := serve env db r
    let t := serveAll s.2 rs
    (s.1 :: t.1, t.2)

end RankDB.Server

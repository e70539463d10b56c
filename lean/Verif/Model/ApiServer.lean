import Verif.Model.Server
import Verif.Model.Access
/-
Model of the API of the server with access tokens and with requests for many lists: api/elements.go, api/lists.go,
api/multilist.go, and the scopes of api/app/controllers.go.

Simplifications: list IDs of requests have no white space around them and are not empty (api/morph/lists.go:74-84
removes it). The lists of a request for many lists are served one after the other, in the order that `sch` gives
(see `Model/EveryList` for the goroutines of `onEveryList`).
-/
namespace RankDB.Server
open Access

/-! ### Requests for many lists -/

/-- api/design/multilist.go:222-267: the lists that are asked for, by ID, by metadata and by set. -/
structure Select where
  lists : List Str
  fields : List (Str × Str)
  sets : List Str

/-- What the catalogue looks at. -/
def entries (db : Db) : List Catalogue.Entry := db.lists.map fun l => { id := l.id, set := l.set, metadata := l.metadata }

/-- api/multilist.go:106-115 `Delete` and 149-158 `Get`. -/
def selectAlways (db : Db) (s : Select) : List Str :=
  (Catalogue.deduplicate (s.lists ++ Catalogue.matchAll (entries db) s.fields s.sets)).1

/-- api/multilist.go:51-55 `Create` and 198-202 `Put`. -/
def selectFields (db : Db) (s : Select) : List Str :=
  (Catalogue.deduplicate (s.lists ++
    if s.fields.length > 0 then Catalogue.matchAll (entries db) s.fields s.sets else [])).1

/-- api/multilist.go:245-252 `Verify`, 310-317 `Reindex` and 346-353 `Backup`. -/
def selectOrAll (db : Db) (s : Select) : List Str :=
  if s.lists.length + s.fields.length = 0 then db.lists.map (·.id) else selectFields db s

/-- Requests for many lists. -/
inductive Bulk
  | create (es : List Element)
  | put (es : List Element)
  | delete (ids : List Nat)
  | reindex

/-- The lists of the request. -/
def Bulk.lists (db : Db) (s : Select) : Bulk → List Str
  | .create _ | .put _ => selectFields db s
  | .delete _ => selectAlways db s
  | .reindex => selectOrAll db s

/-- What is done with one list: api/multilist.go:67-88, 208-215, 129-135 and 320-326. -/
def Bulk.one (id : Str) : Bulk → Request
  | .create es => .createElements id es
  | .put es => .putElements id es
  | .delete ids => .deleteElements id ids
  | .reindex => .reindex id

/-! ### Calls with a token -/

/-- The token of a call and the scopes that it grants. `Token.none`: tokens are not in use, api/jwt.go:42-48. -/
structure Auth where
  token : Token
  scopes : List Text

def scopeRead : Text := "api:read".toList
def scopeUpdate : Text := "api:update".toList
def scopeDelete : Text := "api:delete".toList
def scopeManage : Text := "api:manage".toList

/-- goajwt: a token must have the scope of the endpoint. -/
def Auth.allows (a : Auth) (scope : Text) : Bool := a.token == .none || a.scopes.contains scope

/-- Calls of the API. -/
inductive Call
  | one (r : Request)
  | bulk (s : Select) (op : Bulk)
  | get (id : Str) (ids : List Nat) (radius : Nat)
  | getBulk (s : Select) (ids : List Nat)
  | range (id : Str) (fromTop limit : Nat)

/-- Replies. -/
inductive Reply
  | unauthorized
  | answer (a : Answer)
  | report (l : List (Str × Answer))
  | found (l : List (Str × List Segments.Ranked))
  | elements (id : Str) (l : Option (List Element))

/-- The scope of the endpoint, api/app/controllers.go:116-252, 400-593 and 688-780. `none`: there is no endpoint. -/
def Call.scope : Call → Option Text
  | .one (.create ..) | .one (.clone ..) | .one (.delete _) | .one (.reindex _) | .one (.repair _) => some scopeManage
  | .one (.createElement ..) | .one (.putElements ..) => some scopeUpdate
  | .one (.deleteElements ..) => some scopeDelete
  | .one (.createElements ..) | .one (.split ..) | .one .save => none
  | .bulk _ (.create _) | .bulk _ (.put _) => some scopeUpdate
  | .bulk _ (.delete _) => some scopeDelete
  | .bulk _ .reindex => some scopeManage
  | .get .. | .getBulk .. | .range .. => some scopeRead

/-- The lists for which `HasAccessToList` is called, and the elements for which `HasAccessToElement` is called.
api/elements.go:37-48, 86-101, 150-166, 329-345; api/lists.go:104-107, 160-163; api/multilist.go:56-65, 116-128,
159-171, 203-211. -/
def Call.checks (db : Db) : Call → List Str × List Nat
  | .one (.createElement id e) => ([id], [e.id])
  | .one (.putElements id es) => ([id], ((Elements.deduplicate es).1).map (·.id))
  | .one (.deleteElements id ids) => ([id], ids)
  | .one _ => ([], [])
  | .bulk s (.create es) => (selectFields db s, ((Elements.deduplicate es).1).map (·.id))
  | .bulk s (.put es) => (selectFields db s, ((Elements.deduplicate es).1).map (·.id))
  | .bulk s (.delete ids) => (selectAlways db s, ids)
  | .bulk _ .reindex => ([], [])
  | .get id ids _ => ([id], ids)
  | .getBulk s ids => (selectAlways db s, ids)
  | .range id _ _ => ([id], [])

/-- The requests that a call leads to. -/
def Call.requests (sch : Sched) (env : Str → Env) (db : Db) : Call → List (Env × Request)
  | .one r => [(env [], r)]
  | .bulk s op => (sch.order (op.lists db s)).map fun id => (env id, op.one id)
  | _ => []

/-- The elements of one list for a lookup. -/
def lookup (sch : Sched) (db : Db) (ids : List Nat) (radius : Nat) (id : Str) : Option (Str × List Segments.Ranked) :=
  (byID db.lists id).bind fun l => (Disk.reload db.store l.ent).map fun st => (id, Lists.getElements sch st ids radius)

/-- The reply of a call that is permitted, and the server afterwards. -/
def Call.run (sch : Sched) (env : Str → Env) (db : Db) (c : Call) : Reply × Db :=
  match c with
  | .one r => (.answer (serve (env []) db r).1, (serve (env []) db r).2)
  | .bulk s op =>
    let x := serveAll db (c.requests sch env db)
    (.report ((sch.order (op.lists db s)).zip x.1), x.2)
  | .get id ids radius => (.found ((lookup sch db ids radius id).toList), db)
  | .getBulk s ids => (.found ((selectAlways db s).filterMap (lookup sch db ids 0)), db)
  | .range id fromTop limit =>
    (.elements id ((byID db.lists id).bind fun l => (Disk.reload db.store l.ent).bind fun st =>
      Lists.getRankTop st fromTop limit), db)

/-- A call with a token. `txt` gives the characters of a list ID. A list that is not there is answered with "not
found" before the elements are checked (api/elements.go:42-48); nothing is changed either way. -/
def call (txt : Str → Text) (auth : Auth) (sch : Sched) (env : Str → Env) (db : Db) (c : Call) : Reply × Db :=
  match c.scope with
  | none => (.answer .notFound, db)
  | some scope =>
    if !auth.allows scope then (.unauthorized, db)
    else if scope = scopeManage then c.run sch env db
    else if hasAccessToList auth.token ((c.checks db).1.map txt) ≠ .ok then (.unauthorized, db)
    else if hasAccessToElement auth.token (c.checks db).2 ≠ .ok then (.unauthorized, db)
    else c.run sch env db

end RankDB.Server

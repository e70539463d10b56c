import Verif.Model.Server
import Verif.Model.Api
/-
Model of the requests that read lists, over the whole server: api/elements.go and api/lists.go. What is computed for
one list is in `Model/Api` and `Model/List`; here the list is looked up and loaded.

Access checks are in `Model/Access` and `Model/ApiServer`; the requests here come with a token for everything.
Simplification: if a list is in the catalogue and cannot be read, the answer is `failed` (api/morph/lists.go:39-43
shows a list without its statistics in that case).
-/
namespace RankDB.Server

/-- Requests that read. -/
inductive Query
  /-- api/lists.go:101-117 `Get` with `top_bottom` -/
  | list (id : Str)
  /-- api/elements.go:143-175 `Get` -/
  | element (id : Str) (eid range : Nat)
  /-- api/elements.go:178-218 `GetMulti` -/
  | elements (id : Str) (eids : List Nat)
  /-- api/elements.go:221-276 `GetAround` -/
  | around (id : Str) (eids : List Nat) (eid range : Nat)
  /-- api/lists.go:158-205 `GetRange` with `from_top` -/
  | fromTop (id : Str) (first limit : Nat)
  /-- api/lists.go:158-205 `GetRange` with `from_bottom` -/
  | fromBottom (id : Str) (first limit : Nat)
  /-- api/lists.go:119-155 `GetPercentile`. After the division by 100 (line 145) the percentile is `m / 2 ^ e`; how
  the text becomes that number is not modelled. The request with "NaN", which passes the checks of lines 139-144,
  is not represented. -/
  | percentile (id : Str) (m e range : Nat)
  /-- api/lists.go:208-226 `GetAll` with `after_id` -/
  | page (after : Str) (limit : Nat)

/-- Answers. `noList` and `noElement` are "not found". -/
inductive Shown
  | noList
  | noElement
  | failed
  | list (set : Str) (metadata : Option (List (Str × Str))) (loadIndex : Bool) (mergeSize splitSize : Nat) (stats : Lists.Stats)
  | element (f : Api.Full)
  | elements (found : List Segments.Ranked) (missing : List Nat)
  | around (a : Api.Around)
  | range (l : List (Element × Int × Int))
  | page (lists : List Catalogue.Entry) (before after : Nat)

/-- What the catalogue looks at. -/
def catalogue (db : Db) : List Catalogue.Entry := db.lists.map fun l => { id := l.id, set := l.set, metadata := l.metadata }

/-- The list is looked up and loaded. -/
def withRead (db : Db) (id : Str) (f : Listing → ListState → Shown) : Shown :=
  match byID db.lists id with
  | none => .noList
  | some l =>
    match Disk.reload db.store l.ent with
    | none => .failed
    | some st => f l st

/-- The answer to a query, with the order of the goroutines `sch`. -/
def ask (sch : Sched) (db : Db) : Query → Shown
  | .list id => withRead db id fun l st => .list l.set l.metadata l.loadIndex l.ent.mergeSize l.ent.splitSize (Lists.stats st)
  | .element id eid range => withRead db id fun _ st =>
    match Api.get sch st eid range with
    | none => .noElement
    | some f => .element f
  | .elements id eids => withRead db id fun _ st => .elements (Api.getMulti sch st eids).1 (Api.getMulti sch st eids).2
  | .around id eids eid range => withRead db id fun _ st =>
    match Api.getAround sch st eids eid range with
    | none => .noElement
    | some a => .around a
  | .fromTop id first limit => withRead db id fun _ st =>
    match Api.getRangeTop st first limit with
    | none => .noElement
    | some l => .range l
  | .fromBottom id first limit => withRead db id fun _ st =>
    match Api.getRangeBottom st first limit with
    | none => .noElement
    | some l => .range l
  -- a panic becomes an answer with status 500 (api/rankdb.go: the middleware `Recover`)
  | .percentile id m e range => withRead db id fun _ st =>
    match Lists.getPercentile st m e range with
    | none => .failed
    | some none => .noElement
    | some (some r) => .element (Api.full r)
  | .page after limit =>
    let r := Catalogue.sortedIDsAfter (catalogue db) after limit
    .page r.1 r.2.before r.2.after

/-- What clients do: changes and queries. -/
inductive Event
  | change (env : Env) (r : Request)
  | ask (sch : Sched) (q : Query)

/-- What they get. -/
inductive Response
  | answer (a : Answer)
  | shown (s : Shown)

/-- Changes and queries one after the other: what clients see, and the server afterwards. -/
def trace (db : Db) : List Event → List Response × Db
  | [] => ([], db)
  | .change env r :: es =>
    let s := serve env db r
    let t := trace s.2 es
    (.answer s.1 :: t.1, t.2)
  | .ask sch q :: es =>
    let t := trace db es
    (.shown (ask sch db q) :: t.1, t.2)

end RankDB.Server

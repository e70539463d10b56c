import Verif.Model.Validate
import Verif.Model.ApiServer
/-
Model of how the server reads requests for many lists: api/app/contexts.go:1887-2205, the bodies in
api/app/user_types.go:182-286, and the handlers of api/multilist.go up to the selection of the lists.

As in `Model/Validate`, bodies are given as the decoder leaves them. `json.Unmarshal` of the parameter
`match_metadata` is left out: the parameter comes with what it returns. Of the white space that `strings.TrimSpace`
removes only ASCII is modelled. Verifying, backups and restoring are left out.
-/
namespace RankDB.Validate
open Server Access

/-- `strings.TrimSpace`: ASCII white space. -/
def spaceByte (b : UInt8) : Bool := decide (9 ≤ b ∧ b ≤ 13) || b == 32

/-- `strings.TrimSpace`. -/
def trimBytes (s : Str) : Str := ((s.dropWhile spaceByte).reverse.dropWhile spaceByte).reverse

/-- api/morph/lists.go:72-84 `APIListIDs.IDs`. -/
def listIDs (raw : List Str) : List Str :=
  (Catalogue.deduplicate ((raw.map trimBytes).filter fun s => s ≠ [])).1

/-- api/app/user_types.go:253-260 `type listQL`, and the first fields of `listPayloadQL` (182-193). An absent array or
map is treated like an empty one by everything that reads it. -/
structure RawSelect where
  lists : List Str
  fields : List (Str × Str)
  sets : List Str

/-- The parameter `match_metadata`, with what `json.Unmarshal` returns for it: `none` is an error. -/
structure RawFields where
  text : Str
  parsed : Option (List (Str × Str))

/-- Requests for many lists as they arrive. `payload` is nil or an array whose entries may be null. -/
inductive RawMany
  | create (errorsOnly results : Option Str) (body : Option (RawSelect × Option (List (Option RawElement))))
  | put (errorsOnly results : Option Str) (body : Option (RawSelect × Option (List (Option RawElement))))
  | delete (eid : Str) (errorsOnly : Option Str) (lists sets : List Str) (fields : Option RawFields)
  | get (eid : Str) (lists sets : List Str) (fields : Option RawFields)
  | reindex (errorsOnly : Option Str) (body : Option RawSelect)

/-- What becomes of a request: `refused` before the handler or by it; `broken` is a panic before the handler;
`late s` is refused by the handler after access to the lists was checked; `nothing`: no list is selected; otherwise
it is carried out. -/
inductive OutcomeMany
  | refused
  | broken
  | late (s : Select)
  | nothing
  | call (c : Call)

/-- The lists of a body. -/
def RawSelect.select (s : RawSelect) : Select := { lists := listIDs s.lists, fields := s.fields, sets := s.sets }

/-- api/app/user_types.go:195-225 `listPayloadQL.Validate` and `Publicize`, with api/morph/elements.go:193-211. -/
def readMany (body : Option (RawSelect × Option (List (Option RawElement)))) (f : Select → List Element → OutcomeMany) :
    OutcomeMany :=
  match body with
  | none => .refused
  | some (s, payload) =>
    if (payload.getD []).all okEntry then
      match publicizeAll (payload.getD []) with
      | none => .broken
      | some es => f s.select es
    else .refused

/-- api/multilist.go:103-117 and 150-164: the parameter `match_metadata`. An empty text is like an absent one. -/
def readFields : Option RawFields → Option (List (Str × Str))
  | none => some []
  | some f => if f.text.length > 0 then f.parsed else some []

/-- Requests are read. -/
def routeMany : RawMany → OutcomeMany
  -- api/app/contexts.go:1887-1917, api/app/controllers.go:822-835, api/multilist.go:50-66
  | .create errorsOnly results body =>
    match boolParam errorsOnly, boolParam results with
    | some _, some _ => readMany body fun s es => .call (.bulk s (.create es))
    | _, _ => .refused
  -- api/app/contexts.go:2119-2149, api/app/controllers.go:837-850, api/multilist.go:197-213
  | .put errorsOnly results body =>
    match boolParam errorsOnly, boolParam results with
    | some _, some _ => readMany body fun s es => .call (.bulk s (.put es))
    | _, _ => .refused
  -- api/app/contexts.go:1957-2005, api/multilist.go:103-131
  | .delete eid errorsOnly lists sets fields =>
    match boolParam errorsOnly with
    | none => .refused
    | some _ =>
      if okElementID eid then
        match readFields fields with
        | none => .refused
        | some fs =>
          let s : Select := { lists := listIDs lists, fields := fs, sets := sets }
          match parseUint eid with
          | none => .late s
          | some v => .call (.bulk s (.delete [v]))
      else .refused
  -- api/app/contexts.go:2044-2081, api/multilist.go:150-176
  | .get eid lists sets fields =>
    if okElementID eid then
      match readFields fields with
      | none => .refused
      | some fs =>
        let s : Select := { lists := listIDs lists, fields := fs, sets := sets }
        match parseUint eid with
        | none => .late s
        | some v => .call (.getBulk s [v])
    else .refused
  -- api/app/contexts.go:2186-2205, api/app/controllers.go:852-860, api/multilist.go:309-317: whether lists were
  -- given is decided before blank names are removed
  | .reindex errorsOnly body =>
    match boolParam errorsOnly, body with
    | some _, some s =>
      if s.lists.length > 0 ∧ s.fields.length = 0 ∧ (listIDs s.lists).length = 0 then .nothing
      else .call (.bulk s.select .reindex)
    | _, _ => .refused

/-- The scope of the endpoint, api/app/controllers.go:688-767. -/
def RawMany.scope : RawMany → Text
  | .create .. | .put .. => scopeUpdate
  | .delete .. => scopeDelete
  | .get .. => scopeRead
  | .reindex .. => scopeManage

/-- A request is answered. Bodies are read first, then the token is checked (api/app/controllers.go:673-691). -/
def respondMany (txt : Str → Text) (auth : Auth) (sch : Sched) (env : Str → Env) (db : Db) (raw : RawMany) : Reply × Db :=
  match routeMany raw with
  | .broken => (.answer .stuck, db)
  | .refused => (if auth.allows raw.scope then .answer .badRequest else .unauthorized, db)
  | .nothing => (if auth.allows raw.scope then .report [] else .unauthorized, db)
  | .late s =>
    (if auth.allows raw.scope then
      if hasAccessToList auth.token ((selectAlways db s).map txt) ≠ .ok then .unauthorized else .answer .badRequest
     else .unauthorized, db)
  | .call c => call txt auth sch env db c

end RankDB.Validate

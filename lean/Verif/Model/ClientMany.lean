import Verif.Model.ClientArgs
import Verif.Model.ValidateMany
/-
Model of the calls of the client library for several lists (api/client/multilist.go), as in `Model/ClientArgs`. The text of
`match_metadata` is read by a function that is given, as `json.Unmarshal` is left out. Verifying, backups and restoring
are left out.
-/
namespace RankDB.ClientArgs
open Validate Routes

/-- Calls of the client for several lists with all their arguments. -/
inductive UseMany
  | create (body : RawSelect) (payload : Option (List (Option RawElement))) (errorsOnly results : Option Bool)
  | put (body : RawSelect) (payload : Option (List (Option RawElement))) (errorsOnly results : Option Bool)
  | delete (element : Str) (sets : List Str) (errorsOnly : Option Bool) (lists : List Str) (metadata : Option Str)
  | get (element : Str) (sets lists : List Str) (metadata : Option Str)
  | reindex (body : RawSelect) (errorsOnly : Option Bool)

/-- The method and the path, with the functions `…Path` of api/client/multilist.go. -/
def UseMany.call : UseMany → Call
  | .create .. => .createInLists
  | .put .. => .putInLists
  | .delete e .. => .deleteFromLists e
  | .get e .. => .getFromLists e
  | .reindex .. => .reindexLists

/-- `for _, p := range arg { values.Add(key, p) }`, for example api/client/multilist.go:154-157. -/
def addAll (key : String) (arg : List Str) : List (Str × Str) := arg.map fun x => (w key, x)

/-- The values of the query. -/
def UseMany.args : UseMany → List (Str × Str)
  -- api/client/multilist.go:101-109
  | .create _ _ errorsOnly results => set "errors_only" (errorsOnly.map formatBool) ++ set "results" (results.map formatBool)
  -- api/client/multilist.go:260-268
  | .put _ _ errorsOnly results => set "errors_only" (errorsOnly.map formatBool) ++ set "results" (results.map formatBool)
  -- api/client/multilist.go:153-168
  | .delete _ sets errorsOnly lists metadata =>
    addAll "all_in_sets" sets ++ (set "errors_only" (errorsOnly.map formatBool) ++
      (addAll "lists" lists ++ set "match_metadata" metadata))
  -- api/client/multilist.go:205-216
  | .get _ sets lists metadata => addAll "all_in_sets" sets ++ (addAll "lists" lists ++ set "match_metadata" metadata)
  -- api/client/multilist.go:319-323
  | .reindex _ errorsOnly => set "errors_only" (errorsOnly.map formatBool)

/-- A body of a request for several lists, as it is decoded. -/
inductive BodyMany
  | none
  | select (s : RawSelect)
  | payload (s : RawSelect) (es : Option (List (Option RawElement)))

/-- The body, for example api/client/multilist.go:92. -/
def UseMany.body : UseMany → BodyMany
  | .create s es _ _ => .payload s es
  | .put s es _ _ => .payload s es
  | .reindex s _ => .select s
  | _ => .none

/-- The body with elements, api/app/controllers.go:822-850. -/
def BodyMany.asPayload : BodyMany → Option (RawSelect × Option (List (Option RawElement)))
  | .payload s es => some (s, es)
  | _ => Option.none

/-- The body without elements, api/app/controllers.go:852-860. -/
def BodyMany.asSelect : BodyMany → Option RawSelect
  | .select s => some s
  | _ => Option.none

/-- The server reads the parameters: api/app/contexts.go:1887-2205. -/
def receivedMany (json : Str → Option (List (Str × Str))) (m : Method) (path query : Str) (body : BodyMany) : Option RawMany :=
  let ps := parse query
  let fields := (first ps (w "match_metadata")).map fun t => { text := t, parsed := json t : RawFields }
  match route m path with
  | some (.createInLists, []) => some (.create (first ps (w "errors_only")) (first ps (w "results")) body.asPayload)
  | some (.putInLists, []) => some (.put (first ps (w "errors_only")) (first ps (w "results")) body.asPayload)
  | some (.deleteFromLists, [e]) =>
    some (.delete e (first ps (w "errors_only")) (values ps (w "lists")) (values ps (w "all_in_sets")) fields)
  | some (.getFromLists, [e]) => some (.get e (values ps (w "lists")) (values ps (w "all_in_sets")) fields)
  | some (.reindexLists, []) => some (.reindex (first ps (w "errors_only")) body.asSelect)
  | _ => none

/-- A call of the client as the server receives it. -/
def sendMany (json : Str → Option (List (Str × Str))) (u : UseMany) : Option RawMany :=
  receivedMany json u.call.method u.call.path (encode u.args) u.body

end RankDB.ClientArgs

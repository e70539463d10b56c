import Verif.Model.Catalogue
import Verif.Model.ClientJobs
/-
Model of the pages of lists with all three arguments, from the client to the catalogue: api/client/lists.go:318-346,
api/app/contexts.go:1522-1559, api/lists.go:208-227.
-/
namespace RankDB.ClientArgs
open Validate Routes Catalogue

/-- api/client/lists.go:324-335, in the order in which `Encode` sorts the values. -/
def pagesArgs (after before : Option Str) (limit : Option Int) : List (Str × Str) :=
  set "after_id" after ++ (set "before_id" before ++ set "limit" (limit.map formatInt))

/-- api/lists.go:208-227 `GetAll`: `before_id` comes first if both are given. -/
def getAll (lists : List Entry) (after before : Str) (limit : Nat) : List Entry × PageInfo :=
  if before ≠ [] then sortedIDsBefore lists before limit else sortedIDsAfter lists after limit

/-- api/app/contexts.go:1522-1559 `NewGetAllListsContext` and the answer; nothing if the request is refused. -/
def servePages (lists : List Entry) (m : Method) (path query : Str) : Option (List Entry × PageInfo) :=
  let ps := parse query
  match route m path with
  | some (.getLists, []) =>
    match intParam 25 1 1000 (first ps (w "limit")) with
    | some n => some (getAll lists ((first ps (w "after_id")).getD []) ((first ps (w "before_id")).getD []) n)
    | none => none
  | _ => none

/-- `NewGetAllListsRequest` of the client and the answer of the server with these lists. -/
def askPages (lists : List Entry) (after before : Option Str) (limit : Option Int) : Option (List Entry × PageInfo) :=
  servePages lists Call.getLists.method Call.getLists.path (encode (pagesArgs after before limit))

end RankDB.ClientArgs

import Verif.Model.Validate
/-
Model of how requests find their operation: the paths that the client library builds (api/client) and the table of routes
of the server (api/app/controllers.go).

Paths are compared as the client gives them: letters, digits and `-`, `_`, `.`, `/` are left as they are in a URL. Other
characters are escaped by `url.URL` and unescaped by the router; this is left out. The router is the library httptreemux.
Of two routes it prefers the one with the text; that this does not matter is `C114_one_route`. Static files
(`/doc/`, `/api/swagger/`), `OPTIONS`, queries and bodies are left out.
-/
namespace RankDB.Routes
open Validate

/-- The bytes of a text in the program. -/
def w (s : String) : Str := s.toList.map Char.toUInt8

/-- HTTP methods. -/
inductive Method | get | post | put | delete
deriving DecidableEq, Repr

/-- The operations of the server: the second argument of `MuxHandler` with the controller, in the order of
api/app/controllers.go. -/
inductive Action
  | deleteBackup
  | statusBackup
  | createElement
  | deleteElement
  | deleteElements
  | getElement
  | getAround
  | getElements
  | putElement
  | putElements
  | health
  | root
  | jwt
  | cloneList
  | createList
  | deleteList
  | getList
  | getPercentile
  | getRange
  | getLists
  | reindexList
  | repairList
  | verifyList
  | backupLists
  | createInLists
  | deleteFromLists
  | getFromLists
  | putInLists
  | reindexLists
  | restoreLists
  | verifyLists
deriving DecidableEq, Repr

/-- A piece of a route: a text or a parameter (`:list_id`, `:element_id`, `:backup_id`). -/
inductive Part
  | text (s : Str)
  | param
deriving DecidableEq, Repr

/-- One call of `service.Mux.Handle`. -/
structure Route where
  method : Method
  parts : List Part
  action : Action
deriving DecidableEq, Repr

/-- api/app/controllers.go: the calls of `service.Mux.Handle`, at lines 60, 76, 117, 133, 149, 165, 187, 209, 231, 253,
357, 373, 401, 444, 466, 482, 498, 514, 530, 546, 562, 578, 594, 667, 689, 705, 721, 743, 765, 781, 803. -/
def routes : List Route := [
  ⟨.delete, [.text (w "backup"), .param], .deleteBackup⟩,
  ⟨.get, [.text (w "backup"), .param], .statusBackup⟩,
  ⟨.post, [.text (w "lists"), .param, .text (w "elements")], .createElement⟩,
  ⟨.delete, [.text (w "lists"), .param, .text (w "elements"), .param], .deleteElement⟩,
  ⟨.delete, [.text (w "lists"), .param, .text (w "elements")], .deleteElements⟩,
  ⟨.get, [.text (w "lists"), .param, .text (w "elements"), .param], .getElement⟩,
  ⟨.post, [.text (w "lists"), .param, .text (w "elements"), .param, .text (w "around")], .getAround⟩,
  ⟨.post, [.text (w "lists"), .param, .text (w "elements"), .text (w "find")], .getElements⟩,
  ⟨.put, [.text (w "lists"), .param, .text (w "elements"), .param], .putElement⟩,
  ⟨.put, [.text (w "lists"), .param, .text (w "elements")], .putElements⟩,
  ⟨.get, [.text (w "health")], .health⟩,
  ⟨.get, [.text (w "")], .root⟩,
  ⟨.post, [.text (w "jwt")], .jwt⟩,
  ⟨.put, [.text (w "lists"), .param, .text (w "clone")], .cloneList⟩,
  ⟨.post, [.text (w "lists")], .createList⟩,
  ⟨.delete, [.text (w "lists"), .param], .deleteList⟩,
  ⟨.get, [.text (w "lists"), .param], .getList⟩,
  ⟨.get, [.text (w "lists"), .param, .text (w "percentile")], .getPercentile⟩,
  ⟨.get, [.text (w "lists"), .param, .text (w "range")], .getRange⟩,
  ⟨.get, [.text (w "lists")], .getLists⟩,
  ⟨.put, [.text (w "lists"), .param, .text (w "reindex")], .reindexList⟩,
  ⟨.put, [.text (w "lists"), .param, .text (w "repair")], .repairList⟩,
  ⟨.put, [.text (w "lists"), .param, .text (w "verify")], .verifyList⟩,
  ⟨.put, [.text (w "xlist"), .text (w "backup")], .backupLists⟩,
  ⟨.post, [.text (w "xlist"), .text (w "elements")], .createInLists⟩,
  ⟨.delete, [.text (w "xlist"), .text (w "elements"), .param], .deleteFromLists⟩,
  ⟨.get, [.text (w "xlist"), .text (w "elements"), .param], .getFromLists⟩,
  ⟨.put, [.text (w "xlist"), .text (w "elements")], .putInLists⟩,
  ⟨.put, [.text (w "xlist"), .text (w "reindex")], .reindexLists⟩,
  ⟨.post, [.text (w "xlist"), .text (w "restore")], .restoreLists⟩,
  ⟨.put, [.text (w "xlist"), .text (w "verify")], .verifyLists⟩]

/-- The pieces of a path, between slashes. -/
def pieces : Str → List Str
  | [] => [[]]
  | c :: s =>
    if c = 47 then [] :: pieces s
    else match pieces s with
      | [] => [[c]]
      | p :: ps => (c :: p) :: ps

/-- Whether pieces fit a route, and the values of its parameters. Parameters are not empty. -/
def fits : List Part → List Str → Option (List Str)
  | [], [] => some []
  | .text s :: ps, x :: xs => if x = s then fits ps xs else none
  | .param :: ps, x :: xs => if x = [] then none else (fits ps xs).map (x :: ·)
  | _, _ => none

/-- The router: the operation for a method and a path, and the values of the parameters. -/
def route (m : Method) : Str → Option (Action × List Str)
  | 47 :: path => routes.findSome? fun r =>
      if r.method = m then (fits r.parts (pieces path)).map fun ps => (r.action, ps) else none
  | _ => none

/-- The functions of the client library with their parameters of the path. -/
inductive Call
  | deleteBackup (backup : Str)
  | statusBackup (backup : Str)
  | createElement (list : Str)
  | deleteElement (list : Str) (element : Str)
  | deleteElements (list : Str)
  | getElement (list : Str) (element : Str)
  | getAround (list : Str) (element : Str)
  | getElements (list : Str)
  | putElement (list : Str) (element : Str)
  | putElements (list : Str)
  | health
  | root
  | jwt
  | cloneList (list : Str)
  | createList
  | deleteList (list : Str)
  | getList (list : Str)
  | getPercentile (list : Str)
  | getRange (list : Str)
  | getLists
  | reindexList (list : Str)
  | repairList (list : Str)
  | verifyList (list : Str)
  | backupLists
  | createInLists
  | deleteFromLists (element : Str)
  | getFromLists (element : Str)
  | putInLists
  | reindexLists
  | restoreLists
  | verifyLists
deriving DecidableEq, Repr

/-- The first argument of `http.NewRequest` in `New…Request` of api/client. -/
def Call.method : Call → Method
  | .statusBackup .. | .getElement .. | .health | .root | .getList .. | .getPercentile .. | .getRange .. | .getLists |
    .getFromLists .. => .get
  | .createElement .. | .getAround .. | .getElements .. | .jwt | .createList | .createInLists | .restoreLists => .post
  | .putElement .. | .putElements .. | .cloneList .. | .reindexList .. | .repairList .. | .verifyList .. |
    .backupLists | .putInLists | .reindexLists | .verifyLists => .put
  | .deleteBackup .. | .deleteElement .. | .deleteElements .. | .deleteList .. | .deleteFromLists .. => .delete

/-- The `…Path` functions of api/client: backup.go:21-25, backup.go:56-60, elements.go:23-27, elements.go:78-83,
elements.go:114-118, elements.go:156-161, elements.go:198-203, elements.go:256-260, elements.go:306-311,
elements.go:367-371, health.go:21-24, health.go:55-58, jwt.go:22-25, lists.go:23-27, lists.go:73-76, lists.go:129-133,
lists.go:165-169, lists.go:207-211, lists.go:252-256, lists.go:302-305, lists.go:349-353, lists.go:384-388,
lists.go:426-430, multilist.go:23-26, multilist.go:72-75, multilist.go:130-134, multilist.go:183-187,
multilist.go:231-234, multilist.go:289-292, multilist.go:344-347, multilist.go:396-399. -/
def Call.path : Call → Str
  | .deleteBackup backup => w "/backup/" ++ backup
  | .statusBackup backup => w "/backup/" ++ backup
  | .createElement list => w "/lists/" ++ list ++ w "/elements"
  | .deleteElement list element => w "/lists/" ++ list ++ w "/elements/" ++ element
  | .deleteElements list => w "/lists/" ++ list ++ w "/elements"
  | .getElement list element => w "/lists/" ++ list ++ w "/elements/" ++ element
  | .getAround list element => w "/lists/" ++ list ++ w "/elements/" ++ element ++ w "/around"
  | .getElements list => w "/lists/" ++ list ++ w "/elements/find"
  | .putElement list element => w "/lists/" ++ list ++ w "/elements/" ++ element
  | .putElements list => w "/lists/" ++ list ++ w "/elements"
  | .health => w "/health"
  | .root => w "/"
  | .jwt => w "/jwt"
  | .cloneList list => w "/lists/" ++ list ++ w "/clone"
  | .createList => w "/lists"
  | .deleteList list => w "/lists/" ++ list
  | .getList list => w "/lists/" ++ list
  | .getPercentile list => w "/lists/" ++ list ++ w "/percentile"
  | .getRange list => w "/lists/" ++ list ++ w "/range"
  | .getLists => w "/lists"
  | .reindexList list => w "/lists/" ++ list ++ w "/reindex"
  | .repairList list => w "/lists/" ++ list ++ w "/repair"
  | .verifyList list => w "/lists/" ++ list ++ w "/verify"
  | .backupLists => w "/xlist/backup"
  | .createInLists => w "/xlist/elements"
  | .deleteFromLists element => w "/xlist/elements/" ++ element
  | .getFromLists element => w "/xlist/elements/" ++ element
  | .putInLists => w "/xlist/elements"
  | .reindexLists => w "/xlist/reindex"
  | .restoreLists => w "/xlist/restore"
  | .verifyLists => w "/xlist/verify"

end RankDB.Routes

import Verif.Model.ClientMany
/-
Model of the remaining calls of the client library with arguments: verifying and repairing (api/client/lists.go:400-462,
api/client/multilist.go:412-443), restoring (359-382) and tokens (api/client/jwt.go:38-56), with the contexts of
api/app/contexts.go that read them. What the operations do with them is not part of this file. A restoration
has no body (multilist.go:382), and the payload of a verification is not validated (api/app/controllers.go:863-870).
-/
namespace RankDB.ClientArgs
open Validate Routes

/-- Calls of the client with all their arguments. -/
inductive UseJob
  | repairList (list : Str) (clear : Option Bool)
  | verifyList (list : Str) (clear repair : Option Bool)
  | verifyLists (body : RawSelect) (clear elements errorsOnly repair : Option Bool)
  | restore (keep : Option Bool) (pre suf src srcFile : Option Str)
  | jwt (scope : Str) (expire : Option Int) (onlyElements onlyLists : Option Str)

/-- The method and the path. -/
def UseJob.call : UseJob → Call
  | .repairList l _ => .repairList l
  | .verifyList l _ _ => .verifyList l
  | .verifyLists .. => .verifyLists
  | .restore .. => .restoreLists
  | .jwt .. => .jwt

/-- The values of the query, in the order in which `Encode` sorts them. -/
def UseJob.args : UseJob → List (Str × Str)
  -- api/client/lists.go:407-411
  | .repairList _ clear => set "clear" (clear.map formatBool)
  -- api/client/lists.go:449-458
  | .verifyList _ clear repair => set "clear" (clear.map formatBool) ++ set "repair" (repair.map formatBool)
  -- api/client/multilist.go:426-442
  | .verifyLists _ clear elements errorsOnly repair =>
    set "clear" (clear.map formatBool) ++ (set "elements" (elements.map formatBool) ++
      (set "errors_only" (errorsOnly.map formatBool) ++ set "repair" (repair.map formatBool)))
  -- api/client/multilist.go:365-381
  | .restore keep pre suf src srcFile =>
    set "keep" (keep.map formatBool) ++ (set "list_id_prefix" pre ++ (set "list_id_suffix" suf ++ (set "src" src ++ set "src_file" srcFile)))
  -- api/client/jwt.go:44-55
  | .jwt scope expire onlyElements onlyLists =>
    set "expire" (expire.map formatInt) ++ (set "only_elements" onlyElements ++ (set "only_lists" onlyLists ++ set "scope" (some scope)))

/-- The body, api/client/multilist.go:417. -/
def UseJob.body : UseJob → BodyMany
  | .verifyLists s .. => .select s
  | _ => .none

/-- What the handlers are called with. -/
inductive Job
  | repairList (list : Str) (clear : Bool)
  | verifyList (list : Str) (clear repair : Bool)
  | verifyLists (s : RawSelect) (clear elements errorsOnly repair : Bool)
  | restore (keep : Bool) (pre suf : Option Str) (src srcFile : Str)
  | jwt (scope : Str) (expire : Nat) (onlyElements onlyLists : Option Str)

/-- api/app/contexts.go:939-952, the parameter `expire`: a number of minutes from 1 on, 1440 by default. -/
def expireParam : Option Str → Option Nat
  | none => some 1440
  | some s =>
    match atoi s with
    | none => none
    | some v => if v < 1 then none else some v.toNat

/-- The server reads the parameters; nothing if the request is refused. -/
def receivedJob (m : Method) (path query : Str) (body : BodyMany) : Option Job :=
  let ps := parse query
  match route m path with
  -- api/app/contexts.go:1664-1699
  | some (.repairList, [l]) =>
    match boolParam (first ps (w "clear")) with
    | some c => if okListID l then some (.repairList l c) else none
    | none => none
  -- api/app/contexts.go:1743-1787
  | some (.verifyList, [l]) =>
    match boolParam (first ps (w "clear")), boolParam (first ps (w "repair")) with
    | some c, some r => if okListID l then some (.verifyList l c r) else none
    | _, _ => none
  -- api/app/contexts.go:2328-2381
  | some (.verifyLists, []) =>
    match boolParam (first ps (w "clear")), boolParam (first ps (w "elements")), boolParam (first ps (w "errors_only")),
      boolParam (first ps (w "repair")), body.asSelect with
    | some c, some e, some o, some r, some s => some (.verifyLists s c e o r)
    | _, _, _, _, _ => none
  -- api/app/contexts.go:2245-2286
  | some (.restoreLists, []) =>
    match boolParam (first ps (w "keep")) with
    | some k =>
      some (.restore k (first ps (w "list_id_prefix")) (first ps (w "list_id_suffix")) ((first ps (w "src")).getD [])
        ((first ps (w "src_file")).getD []))
    | none => none
  -- api/app/contexts.go:932-972
  | some (.jwt, []) =>
    match expireParam (first ps (w "expire")) with
    | some e => some (.jwt ((first ps (w "scope")).getD (w "api:read")) e (first ps (w "only_elements")) (first ps (w "only_lists")))
    | none => none
  | _ => none

/-- A call of the client as the server receives it. -/
def sendJob (u : UseJob) : Option Job := receivedJob u.call.method u.call.path (encode u.args) u.body

end RankDB.ClientArgs

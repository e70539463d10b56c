import Verif.Model.Routes
import Verif.Model.Keys
/-
Model of the arguments of the client library: how it writes them into the query of a URL (api/client/elements.go,
api/client/lists.go), how the query is read again, and the request that the server's contexts (api/app/contexts.go)
are made from.

`net/url` is modelled: `QueryEscape`, `Values.Encode` and `ParseQuery`. Every call of the client sets its keys in the
order in which `Encode` sorts them, so sorting is left out. Bodies are given as the decoder leaves them, as in
`Model/Validate`; a body of another kind counts as none. The text of a percentile is read by a function that is given,
as `strconv.ParseFloat` is left out. `before_id` and the calls for several lists are left out.
-/
namespace RankDB.ClientArgs
open Validate Routes

/-- Bytes that `url.QueryEscape` leaves as they are: letters, digits and `-`, `_`, `.`, `~`. -/
def plain (b : UInt8) : Bool := idByte b || b == 126

/-- A digit of base 16, in upper case. -/
def hex (n : Nat) : UInt8 := UInt8.ofNat (if n < 10 then 48 + n else 55 + n)

/-- The value of a digit of base 16. -/
def unhex (b : UInt8) : Option Nat :=
  if 48 ≤ b ∧ b ≤ 57 then some (b.toNat - 48)
  else if 65 ≤ b ∧ b ≤ 70 then some (b.toNat - 55)
  else if 97 ≤ b ∧ b ≤ 102 then some (b.toNat - 87)
  else none

/-- `url.QueryEscape` of one byte. -/
def escapeByte (b : UInt8) : Str :=
  if plain b then [b] else if b = 32 then [43] else [37, hex (b.toNat / 16), hex (b.toNat % 16)]

/-- `url.QueryEscape`. -/
def escape (s : Str) : Str := s.flatMap escapeByte

/-- `url.QueryUnescape`. -/
def unescape : Str → Option Str
  | [] => some []
  | [c] => if c = 37 then none else some [if c = 43 then 32 else c]
  | [c, d] => if c = 37 then none else (unescape [d]).map ((if c = 43 then 32 else c) :: ·)
  | c :: a :: b :: s =>
    if c = 37 then
      match unhex a, unhex b with
      | some x, some y => (unescape s).map (UInt8.ofNat (16 * x + y) :: ·)
      | _, _ => none
    else (unescape (a :: b :: s)).map ((if c = 43 then 32 else c) :: ·)

/-- `url.Values.Encode`, for example called in api/client/lists.go:288. -/
def encode : List (Str × Str) → Str
  | [] => []
  | [p] => escape p.1 ++ 61 :: escape p.2
  | p :: q :: ps => escape p.1 ++ 61 :: (escape p.2 ++ 38 :: encode (q :: ps))

/-- The pieces of a query between `&`. -/
def pairs : Str → List Str
  | [] => [[]]
  | c :: s =>
    if c = 38 then [] :: pairs s
    else match pairs s with
      | [] => [[c]]
      | p :: ps => (c :: p) :: ps

/-- A key and a value: the piece is cut at the first `=`. Pieces with `;` or with wrong escapes are dropped. -/
def pair (p : Str) : Option (Str × Str) :=
  if p = [] ∨ 59 ∈ p then none
  else match unescape (p.takeWhile (· != 61)), unescape ((p.dropWhile (· != 61)).drop 1) with
    | some k, some v => some (k, v)
    | _, _ => none

/-- `url.ParseQuery`, where errors are ignored (`URL.Query`): the parameters of a request. -/
def parse (s : Str) : List (Str × Str) := (pairs s).filterMap pair

/-- `req.Params[key]`: all values of a parameter, for example api/app/contexts.go:324. -/
def values (ps : List (Str × Str)) (key : Str) : List Str := (ps.filter fun p => p.1 == key).map (·.2)

/-- `req.Params[key][0]`, if there is one, for example api/app/contexts.go:1376-1378. -/
def first (ps : List (Str × Str)) (key : Str) : Option Str := (values ps key).head?

/-- `strconv.Itoa`. -/
def formatInt : Int → Str
  | .ofNat n => Keys.itoa n
  | .negSucc n => 45 :: Keys.itoa (n + 1)

/-- `strconv.FormatBool`. -/
def formatBool (b : Bool) : Str := if b then w "true" else w "false"

/-- Calls of the client with all their arguments. -/
inductive Use
  | createElement (list : Str) (body : RawElement) (range : Option Int)
  | deleteElement (list element : Str)
  | deleteElements (list : Str) (elements : List Str)
  | getElement (list element : Str) (range : Option Int)
  | getAround (list element : Str) (ids : List UInt64) (range : Option Int)
  | getElements (list : Str) (ids : List UInt64)
  | putElement (list element : Str) (body : RawElement) (range : Option Int)
  | putElements (list : Str) (body : List (Option RawElement)) (results : Option Bool)
  | cloneList (list : Str) (body : RawList)
  | createList (body : RawList) (replace : Option Bool)
  | deleteList (list : Str)
  | getList (list : Str) (topBottom : Option Bool)
  | getPercentile (list : Str) (fromTop : Option Str) (range : Option Int)
  | getRange (list : Str) (fromBottom fromTop limit : Option Int)
  | getLists (after : Option Str) (limit : Option Int)
  | reindexList (list : Str)
  | repairList (list : Str) (clear : Option Bool)

/-- The method and the path, with the functions `…Path` of api/client. -/
def Use.call : Use → Call
  | .createElement l _ _ => .createElement l
  | .deleteElement l e => .deleteElement l e
  | .deleteElements l _ => .deleteElements l
  | .getElement l e _ => .getElement l e
  | .getAround l e _ _ => .getAround l e
  | .getElements l _ => .getElements l
  | .putElement l e _ _ => .putElement l e
  | .putElements l _ _ => .putElements l
  | .cloneList l _ => .cloneList l
  | .createList _ _ => .createList
  | .deleteList l => .deleteList l
  | .getList l _ => .getList l
  | .getPercentile l _ _ => .getPercentile l
  | .getRange l _ _ _ => .getRange l
  | .getLists _ _ => .getLists
  | .reindexList l => .reindexList l
  | .repairList l _ => .repairList l

/-- `if arg != nil { values.Set(key, text) }`, for example api/client/elements.go:54-57. -/
def set (key : String) (arg : Option Str) : List (Str × Str) :=
  match arg with
  | none => []
  | some s => [(w key, s)]

/-- The values of the query. -/
def Use.args : Use → List (Str × Str)
  -- api/client/elements.go:53-57
  | .createElement _ _ range => set "range" (range.map formatInt)
  | .deleteElement _ _ => []
  -- api/client/elements.go:137-141
  | .deleteElements _ es => es.map fun e => (w "element_ids", e)
  -- api/client/elements.go:179-183
  | .getElement _ _ range => set "range" (range.map formatInt)
  -- api/client/elements.go:231-235
  | .getAround _ _ _ range => set "range" (range.map formatInt)
  | .getElements _ _ => []
  -- api/client/elements.go:339-343
  | .putElement _ _ _ range => set "range" (range.map formatInt)
  -- api/client/elements.go:398-402
  | .putElements _ _ results => set "results" (results.map formatBool)
  | .cloneList _ _ => []
  -- api/client/lists.go:104-108
  | .createList _ replace => set "replace" (replace.map formatBool)
  | .deleteList _ => []
  -- api/client/lists.go:188-192
  | .getList _ topBottom => set "top_bottom" (topBottom.map formatBool)
  -- api/client/lists.go:230-237
  | .getPercentile _ fromTop range => set "from_top" fromTop ++ set "range" (range.map formatInt)
  -- api/client/lists.go:275-287
  | .getRange _ fromBottom fromTop limit =>
    set "from_bottom" (fromBottom.map formatInt) ++ (set "from_top" (fromTop.map formatInt) ++ set "limit" (limit.map formatInt))
  -- api/client/lists.go:324-334
  | .getLists after limit => set "after_id" after ++ set "limit" (limit.map formatInt)
  | .reindexList _ => []
  -- api/client/lists.go:407-411
  | .repairList _ clear => set "clear" (clear.map formatBool)

/-- A body of a request, as it is decoded. -/
inductive Body
  | none
  | element (b : RawElement)
  | ids (b : List UInt64)
  | elements (b : List (Option RawElement))
  | list (b : RawList)

/-- The body: `c.Encoder.Encode(payload, …)`, for example api/client/elements.go:44. -/
def Use.body : Use → Body
  | .createElement _ b _ => .element b
  | .putElement _ _ b _ => .element b
  | .getAround _ _ ids _ => .ids ids
  | .getElements _ ids => .ids ids
  | .putElements _ b _ => .elements b
  | .cloneList _ b => .list b
  | .createList b _ => .list b
  | _ => .none

/-- api/app/controllers.go:208-236: the body as an element. -/
def Body.asElement : Body → Option RawElement
  | .element b => some b
  | _ => Option.none

/-- api/app/controllers.go:273-301: the body as IDs. -/
def Body.asIDs : Body → Option (Option (List UInt64))
  | .ids b => some (some b)
  | _ => Option.none

/-- The body as an array of elements. -/
def Body.asElements : Body → Option (List (Option RawElement))
  | .elements b => some b
  | _ => Option.none

/-- api/app/controllers.go:599-631: the body as the description of a list. -/
def Body.asList : Body → Option RawList
  | .list b => some b
  | _ => Option.none

/-- The server reads the parameters for the operation that the router found: the contexts of api/app/contexts.go, with
the lines in `Validate.route`. Nothing for operations that `Validate` does not have. -/
def received (float : Str → Percent) (m : Method) (path query : Str) (body : Body) : Option Raw :=
  let ps := parse query
  match route m path with
  | some (.createElement, [l]) => some (.createElement l (first ps (w "range")) body.asElement)
  | some (.deleteElement, [l, e]) => some (.deleteElement l e)
  | some (.deleteElements, [l]) => some (.deleteElements l (values ps (w "element_ids")))
  | some (.getElement, [l, e]) => some (.getElement l e (first ps (w "range")))
  | some (.getAround, [l, e]) => some (.getAround l e (first ps (w "range")) body.asIDs)
  | some (.getElements, [l]) => some (.getElements l body.asIDs)
  | some (.putElement, [l, e]) => some (.putElement l e (first ps (w "range")) body.asElement)
  | some (.putElements, [l]) => some (.putElements l body.asElements)
  | some (.cloneList, [l]) => some (.cloneList l body.asList)
  | some (.createList, []) => some (.createList (first ps (w "replace")) body.asList)
  | some (.deleteList, [l]) => some (.deleteList l)
  | some (.getList, [l]) => some (.getList l)
  | some (.getPercentile, [l]) => some (.getPercentile l ((first ps (w "from_top")).map float) (first ps (w "range")))
  | some (.getRange, [l]) =>
    some (.getRange l (first ps (w "from_top")) (first ps (w "from_bottom")) (first ps (w "limit")))
  | some (.getLists, []) => some (.getAll (first ps (w "after_id")) (first ps (w "limit")))
  | some (.reindexList, [l]) => some (.reindex l)
  | some (.repairList, [l]) => some (.repair l)
  | _ => none

/-- A call of the client as the server receives it. -/
def send (float : Str → Percent) (u : Use) : Option Raw :=
  received float u.call.method u.call.path (encode u.args) u.body

end RankDB.ClientArgs

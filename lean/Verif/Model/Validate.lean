import Verif.Model.ServerQueries
/-
Model of how the server reads requests: the parameters of the URL (api/app/contexts.go), the bodies
(api/app/controllers.go, api/app/user_types.go), and the checks of the handlers in api/elements.go and api/lists.go
before anything of a list is read.

A parameter is the text of its first value, or absent. Of bodies, the syntax (JSON or msgpack) is left out: they are
given as the decoder leaves them in the Go structures, so numbers have the range of their types, absent fields are
nil, and entries of arrays may be null. `strconv.ParseFloat` is left out: a percentile is given as the float64 that
was read. Parameters that only choose how an answer is shown (`results`, `top_bottom`) and the requests of
api/multilist.go are left out, and so is `before_id`. Access checks are in `Model/ApiServer`.
-/
namespace RankDB.Validate
open Server

/-- The bytes of the pattern `^[a-zA-Z0-9-_.]+$`, for example api/app/contexts.go:157. Outside of a range `-` stands
for itself. Texts that are not ASCII do not match. -/
def idByte (b : UInt8) : Bool :=
  decide (97 ≤ b ∧ b ≤ 122) || decide (65 ≤ b ∧ b ≤ 90) || decide (48 ≤ b ∧ b ≤ 57) || b == 45 || b == 95 || b == 46

/-- The bytes of the pattern `^[0-9]+$`, for example api/app/contexts.go:248. -/
def digit (b : UInt8) : Bool := decide (48 ≤ b ∧ b ≤ 57)

/-- `utf8.RuneCountInString` for valid UTF-8: bytes that do not continue a character. -/
def runeCount (s : Str) : Nat := (s.filter fun b => !decide (128 ≤ b ∧ b < 192)).length

/-- api/app/contexts.go:154-166 and the same in all other contexts: `list_id`. api/app/user_types.go:433-447 is the
same for the ID in a body. -/
def okListID (s : Str) : Bool :=
  (!s.isEmpty && s.all idByte) && !decide (runeCount s < 2) && !decide (100 < runeCount s)

/-- api/app/contexts.go:245-258 and the same in other contexts: `element_id`; api/app/contexts.go:325-338 is the same
for every value of `element_ids`. -/
def okElementID (s : Str) : Bool :=
  (!s.isEmpty && s.all digit) && !decide (runeCount s < 1) && !decide (20 < runeCount s)

/-- The loop of `strconv.ParseUint` and `strconv.Atoi` with base 10, without the check for overflow. -/
def digitsValue (s : Str) : Nat := s.foldl (fun n b => n * 10 + (b.toNat - 48)) 0

/-- `strconv.ParseUint(s, 10, 64)`, api/morph/elements.go:228-250. -/
def parseUint (s : Str) : Option Nat :=
  if s.isEmpty || !s.all digit then none
  else if 2 ^ 64 ≤ digitsValue s then none
  else some (digitsValue s)

/-- The digits of `strconv.Atoi`, after the sign. -/
def signed (neg : Bool) (ds : Str) : Option Int :=
  if ds.isEmpty || !ds.all digit then none
  else if neg then if digitsValue ds ≤ 2 ^ 63 then some (-(digitsValue ds : Int)) else none
  else if digitsValue ds < 2 ^ 63 then some (digitsValue ds) else none

/-- `strconv.Atoi`. -/
def atoi : Str → Option Int
  | [] => none
  | b :: ds => if b = 45 then signed true ds else if b = 43 then signed false ds else signed false (b :: ds)

/-- The parameters `range` and `limit`, for example api/app/contexts.go:1304-1320 and 1408-1424. -/
def intParam (default lo hi : Nat) : Option Str → Option Nat
  | none => some default
  | some s =>
    match atoi s with
    | none => none
    | some v => if v < lo then none else if hi < v then none else some v.toNat

/-- The parameters `from_top` and `from_bottom`, api/app/contexts.go:1376-1407. Outer `none` is an error. -/
def offsetParam : Option Str → Option (Option Nat)
  | none => some none
  | some s =>
    match atoi s with
    | none => none
    | some v => if v < 0 then none else some (some v.toNat)

/-- `strconv.ParseBool`. -/
def parseBool (s : Str) : Option Bool :=
  if s ∈ ["1", "t", "T", "true", "TRUE", "True"].map fun x => x.toUTF8.toList then some true
  else if s ∈ ["0", "f", "F", "false", "FALSE", "False"].map fun x => x.toUTF8.toList then some false
  else none

/-- The parameter `replace`, api/app/contexts.go:1084-1094. -/
def boolParam : Option Str → Option Bool
  | none => some false
  | some s => parseBool s

/-- api/app/user_types.go:87-96 `type element`. -/
structure RawElement where
  id : Option UInt64
  score : Option UInt64
  tie : Option UInt32
  payload : Option (List UInt8)

/-- api/app/user_types.go:391-407 `type rankList`. -/
structure RawList where
  id : Option Str
  set : Option Str
  loadIndex : Option Bool
  mergeSize : Option Int
  splitSize : Option Int
  metadata : Option (List (Str × Str))
  populate : Option (List (Option RawElement))

/-- api/app/user_types.go:99-126 `element.Validate`; numbers cannot be out of the range of their types. -/
def okElement (e : RawElement) : Bool := e.id.isSome && e.score.isSome

/-- api/app/user_types.go:129-144 `element.Publicize` with api/morph/elements.go:193-211 `ApiElements.Elements`. -/
def toElement (e : RawElement) : Element :=
  { id := (e.id.getD 0).toNat, score := (e.score.getD 0).toNat, payload := e.payload.getD []
    tie := (e.tie.getD 0).toNat, updated := 0 }

/-- api/app/user_types.go:410-423 `rankList.Finalize`. -/
def finalize (l : RawList) : RawList :=
  { l with loadIndex := some (l.loadIndex.getD false), mergeSize := some (l.mergeSize.getD 500)
           splitSize := some (l.splitSize.getD 2000) }

/-- api/app/user_types.go:448-457 and 475-484. -/
def okSize : Option Int → Bool
  | none => true
  | some v => !decide (v < 10) && !decide (100000 < v)

/-- api/app/user_types.go:465-474. -/
def okSet (s : Str) : Bool := !decide (runeCount s < 2) && !decide (100 < runeCount s)

/-- api/app/user_types.go:458-464: null is skipped. -/
def okEntry : Option RawElement → Bool
  | none => true
  | some e => okElement e

/-- api/app/user_types.go:426-486 `rankList.Validate`. -/
def okList (l : RawList) : Bool :=
  (l.id.any okListID) && (l.set.any okSet) && okSize l.mergeSize && okSize l.splitSize &&
  (l.populate.getD []).all okEntry

/-- api/app/user_types.go:503-508: `Publicize` of every entry of `populate`. Null is a nil pointer, and
`element.Publicize` reads its fields. `none` is a panic. -/
def publicizeAll : List (Option RawElement) → Option (List Element)
  | [] => some []
  | none :: _ => none
  | some e :: es => (publicizeAll es).map (toElement e :: ·)

/-- api/app/user_types.go:489-516 `rankList.Publicize`, with api/lists.go:46-57 and 332-341. `none` is a panic. -/
def publicize (l : RawList) : Option Payload :=
  let p : Payload :=
    { id := l.id.getD [], set := l.set.getD [], metadata := l.metadata, mergeSize := (l.mergeSize.getD 0).toNat
      splitSize := (l.splitSize.getD 0).toNat, loadIndex := l.loadIndex.getD false, populate := none }
  match l.populate with
  | none => some p
  | some es => (publicizeAll es).map fun es' => { p with populate := some es' }

/-- What `strconv.ParseFloat` returns (api/lists.go:133-138): an error, or a float64. `num neg m e` is `m / 2 ^ e`,
negative if `neg`. -/
inductive Percent
  | unreadable
  | nan
  | inf (neg : Bool)
  | num (neg : Bool) (m e : Nat)

/-- Division of natural numbers, rounded to the nearest, and to the even one of two. -/
def roundDiv (a b : Nat) : Nat :=
  if 2 * (a % b) < b then a / b
  else if b < 2 * (a % b) then a / b + 1
  else if (a / b) % 2 = 0 then a / b else a / b + 1

/-- api/lists.go:145: `percentile/100` in float64, for `m / 2 ^ e` with `m < 2 ^ 53` and `e ≤ 1074`. The quotient has 53
bits, or fewer if it is subnormal. The result is a numerator below `2 ^ 53` and the exponent of the denominator. -/
def div100 (m e : Nat) : Nat × Nat :=
  if m = 0 then (0, 0)
  else
    let k0 := 59 - Nat.log2 m
    let k1 := if 100 * 2 ^ 53 ≤ m * 2 ^ k0 then k0 - 1 else k0
    let k := min k1 (1074 - e)
    let n := roundDiv (m * 2 ^ k) 100
    if n = 2 ^ 53 then (2 ^ 52, e + k - 1) else (n, e + k)

/-- Requests as they arrive. The values of a path are always there; `body` is `none` if the request has no body. -/
inductive Raw
  | createList (replace : Option Str) (body : Option RawList)
  | cloneList (id : Str) (body : Option RawList)
  | deleteList (id : Str)
  | getList (id : Str)
  | getPercentile (id : Str) (fromTop : Option Percent) (range : Option Str)
  | getRange (id : Str) (fromTop fromBottom limit : Option Str)
  | getAll (after : Option Str) (limit : Option Str)
  | reindex (id : Str)
  | repair (id : Str)
  | createElement (id : Str) (range : Option Str) (body : Option RawElement)
  | deleteElement (id eid : Str)
  | deleteElements (id : Str) (eids : List Str)
  | getElement (id eid : Str) (range : Option Str)
  | getElements (id : Str) (body : Option (Option (List UInt64)))
  | getAround (id eid : Str) (range : Option Str) (body : Option (Option (List UInt64)))
  | putElement (id eid : Str) (range : Option Str) (body : Option RawElement)
  | putElements (id : Str) (body : Option (List (Option RawElement)))

/-- What becomes of a request: `refused` before the handler, or by the handler before it looks for the list; `broken`
is a panic before the handler; `late id` is refused by the handler after it looked for the list; `crash id` is a panic
after the list was found; otherwise the request is carried out. -/
inductive Outcome
  | refused
  | broken
  | late (id : Str)
  | crash (id : Str)
  | change (r : Request)
  | query (q : Query)

/-- The bodies of `createList` and `cloneList`: api/app/controllers.go:599-631. -/
def readList (body : Option RawList) (f : Payload → Outcome) : Outcome :=
  match body with
  | none => .refused
  | some b =>
    if okList (finalize b) then
      match publicize (finalize b) with
      | none => .broken
      | some p => f p
    else .refused

/-- api/app/user_types.go:294-304 `multiElement.Validate`, 307-313 `Publicize`, with the decoding of `element_ids`;
api/app/controllers.go:273-301. -/
def readIDs (body : Option (Option (List UInt64))) (f : List Nat → Outcome) : Outcome :=
  match body with
  | some (some ids) => f (ids.map (·.toNat))
  | _ => .refused

/-- api/app/controllers.go:258-270 and 304-316. -/
def readElement (body : Option RawElement) (f : Element → Outcome) : Outcome :=
  match body with
  | none => .refused
  | some b => if okElement b then f (toElement b) else .refused

/-- api/morph/elements.go:228-250 `NewApiElementIDsString`, called by handlers after the list was looked up. -/
def readElementID (id eid : Str) (f : Nat → Outcome) : Outcome :=
  match parseUint eid with
  | none => .late id
  | some v => f v

/-- The same for several IDs. -/
def parseAll : List Str → Option (List Nat)
  | [] => some []
  | s :: ss =>
    match parseUint s, parseAll ss with
    | some v, some vs => some (v :: vs)
    | _, _ => none

/-- api/lists.go:131-145: the percentile, after the list was looked up. For NaN both comparisons are false, and
`big.NewFloat` in list.go:1749 panics. -/
def readPercent (id : Str) (p : Percent) (range : Nat) : Outcome :=
  match p with
  | .unreadable => .late id
  | .nan => .crash id
  | .inf _ => .late id
  | .num neg m e =>
    if neg && m != 0 then .late id
    else if m > 100 * 2 ^ e then .late id
    else .query (.percentile id (div100 m e).1 (div100 m e).2 range)

/-- The body of api/app/contexts.go:801-813 `PutMultiElementsPayload`: its entries are of the type `Element`
(api/app/user_types.go:147-156), where an absent field is zero, and `Element.Validate` (159-179) checks nothing
that can be false. Null is skipped in api/morph/elements.go:196-199. -/
def putBody (es : List (Option RawElement)) : List Element := es.filterMap fun e => e.map toElement

/-- Requests are read: contexts in api/app/contexts.go, bodies in api/app/controllers.go, then the handlers up to the
point where a list is read or changed. -/
def route : Raw → Outcome
  -- api/app/contexts.go:1077-1096, api/lists.go:27-78
  | .createList replace body =>
    match boolParam replace with
    | none => .refused
    | some r => readList body fun p => .change (.create r p)
  -- api/app/contexts.go:1002-1027, api/lists.go:315-360
  | .cloneList id body => if okListID id then readList body fun p => .change (.clone id p) else .refused
  -- api/app/contexts.go:1140-1163
  | .deleteList id => if okListID id then .change (.delete id) else .refused
  -- api/app/contexts.go:1197-1232
  | .getList id => if okListID id then .query (.list id) else .refused
  -- api/app/contexts.go:1276-1322
  | .getPercentile id fromTop range =>
    if okListID id then
      match intParam 5 0 100 range with
      | none => .refused
      | some r => readPercent id (fromTop.getD (.num false 50 0)) r
    else .refused
  -- api/app/contexts.go:1369-1440, api/lists.go:168-173
  | .getRange id fromTop fromBottom limit =>
    if okListID id then
      match offsetParam fromTop, offsetParam fromBottom, intParam 25 1 1000 limit with
      | some (some t), some none, some n => .query (.fromTop id t n)
      | some none, some (some b), some n => .query (.fromBottom id b n)
      | _, _, _ => .refused
    else .refused
  -- api/app/contexts.go:1522-1561
  | .getAll after limit =>
    match intParam 25 1 1000 limit with
    | none => .refused
    | some n => .query (.page (after.getD []) n)
  -- api/app/contexts.go:1597-1620
  | .reindex id => if okListID id then .change (.reindex id) else .refused
  -- api/app/contexts.go:1664-1699
  | .repair id => if okListID id then .change (.repair id) else .refused
  -- api/app/contexts.go:146-185
  | .createElement id range body =>
    if okListID id then
      match intParam 5 0 100 range with
      | none => .refused
      | some _ => readElement body fun e => .change (.createElement id e)
    else .refused
  -- api/app/contexts.go:238-275, api/elements.go:95-98
  | .deleteElement id eid =>
    if okListID id && okElementID eid then readElementID id eid fun v => .change (.deleteElements id [v]) else .refused
  -- api/app/contexts.go:317-354, api/elements.go:126-129
  | .deleteElements id eids =>
    if okListID id && eids.all okElementID then
      match parseAll eids with
      | none => .late id
      | some vs => .change (.deleteElements id vs)
    else .refused
  -- api/app/contexts.go:399-453, api/elements.go:155-158
  | .getElement id eid range =>
    if okListID id && okElementID eid then
      match intParam 5 0 100 range with
      | none => .refused
      | some r => readElementID id eid fun v => .query (.element id v r)
    else .refused
  -- api/app/contexts.go:597-620
  | .getElements id body => if okListID id then readIDs body fun vs => .query (.elements id vs) else .refused
  -- api/app/contexts.go:499-553, api/elements.go:233-236
  | .getAround id eid range body =>
    if okListID id && okElementID eid then
      match intParam 5 0 100 range with
      | none => .refused
      | some r => readIDs body fun vs => readElementID id eid fun v => .query (.around id vs v r)
    else .refused
  -- api/app/contexts.go:666-719, api/elements.go:294-300
  | .putElement id eid range body =>
    if okListID id && okElementID eid then
      match intParam 5 0 100 range with
      | none => .refused
      | some _ => readElement body fun e => readElementID id eid fun v =>
          if v != e.id then .late id else .change (.putElements id [e])
    else .refused
  -- api/app/contexts.go:765-798
  | .putElements id body =>
    if okListID id then
      match body with
      | none => .refused
      | some es => .change (.putElements id (putBody es))
    else .refused

/-- A request is answered. A panic is the answer `stuck`; nothing has been changed before it. -/
def respond (env : Env) (db : Db) (raw : Raw) : Response × Db :=
  match route raw with
  | .refused => (.answer .badRequest, db)
  | .broken => (.answer .stuck, db)
  | .late id => (.answer (if (byID db.lists id).isSome then .badRequest else .notFound), db)
  | .crash id => (.answer (if (byID db.lists id).isSome then .stuck else .notFound), db)
  | .change r => (.answer (serve env db r).1, (serve env db r).2)
  | .query q => (.shown (ask env.sch db q), db)

end RankDB.Validate

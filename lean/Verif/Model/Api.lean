import Verif.Model.List
/-
Model of the REST handlers that look up elements: api/elements.go, api/lists.go and the conversion of
results in api/morph/elements.go. Decoding of requests, access checks (see Model/Access) and the lookup of
the list by its ID are not part of this file; the list is given.
-/
namespace RankDB.Api
open Segments (Ranked)

/-- rankedelement.go:91-95 `RankedElements.Sort`. -/
def sortRanked (r : List Ranked) : List Ranked := goSort (fun a b => Elements.le a.elem b.elem) r

/-- rankedelement.go:82-88 `RankedElements.IDs`. -/
def resultIDs (r : List Ranked) : List Nat := r.map (·.elem.id)

/-- api/elements.go:200-203: the order of the missing IDs. -/
def ascending (l : List Nat) : List Nat := goSort (fun a b => decide (a ≤ b)) l

/-- api/elements.go:178-218 `GetMulti`: found elements and missing IDs. A found element is converted with
its own ranks (api/morph/elements.go:31-46, 147-154). -/
def getMulti (sch : Sched) (st : ListState) (req : List Nat) : List Ranked × List Nat :=
  let ids := ElementIDs.deduplicate sch.order req
  if ids.length == 0 then ([], [])
  else
    let re := Lists.getElements sch st ids 0
    let notFound := if re.length != ids.length then ascending (ElementIDs.notIn sch.order ids (resultIDs re)) else []
    (sortRanked re, notFound)

/-- api/elements.go:244-250: the position of the first result with the ID. -/
def position (id : Nat) : List Ranked → Option Nat
  | [] => none
  | r :: rs => if r.elem.id == id then some 0 else (position id rs).map (· + 1)

/-- What `GetAround` returns (api/elements.go:254-275). -/
structure Around where
  center : Ranked
  above : List Ranked
  below : List Ranked
  localFromTop : Nat
  localFromBottom : Nat
deriving DecidableEq, Repr

/-- api/elements.go:221-276 `GetAround`; `none` is the answer "not found". `range` is at least 0
(api/design/elements.go:155-160). The neighbours are converted with their own ranks
(api/morph/elements.go:75-103). -/
def getAround (sch : Sched) (st : ListState) (req : List Nat) (id range : Nat) : Option Around :=
  let ids := ElementIDs.deduplicate sch.order (req ++ [id])
  let re := sortRanked (Lists.getElements sch st ids 0)
  match position id re with
  | none => none
  | some found =>
    match re[found]? with
    | none => none
    | some center =>
      let below := re.drop (found + 1)
      let below := if below.length > range then below.take range else below
      let above := re.take found
      let above := if above.length > range then above.drop (above.length - range) else above
      some { center := center, above := above, below := below
             localFromTop := found, localFromBottom := re.length - found - 1 }

/-- api/morph/elements.go:165-183 `Elements.ToRanked`: the elements with `FromTop` and `FromBottom`. -/
def toRanked : Int → Int → List Element → List (Element × Int × Int)
  | _, _, [] => []
  | top, bottom, e :: l => (e, top, bottom) :: toRanked (top + 1) (bottom - 1) l

/-- `Neighbors.Above` of api/morph/elements.go:48-73 `Full` and 105-133 `FullUpdate`. -/
def fullAbove (r : Ranked) : List (Element × Int × Int) :=
  toRanked ((r.fromTop : Int) - r.above.length) ((r.fromBottom : Int) + r.above.length) r.above

/-- `Neighbors.Below` of api/morph/elements.go:48-73 `Full` and 105-133 `FullUpdate`. -/
def fullBelow (r : Ranked) : List (Element × Int × Int) :=
  toRanked ((r.fromTop : Int) + 1) ((r.fromBottom : Int) - 1) r.below

/-- An element as returned by `Full`: the element with its ranks, and its neighbours with theirs. -/
structure Full where
  elem : Element
  fromTop : Int
  fromBottom : Int
  above : List (Element × Int × Int)
  below : List (Element × Int × Int)
deriving DecidableEq, Repr

/-- api/morph/elements.go:48-73 `Full`. -/
def full (r : Ranked) : Full :=
  { elem := r.elem, fromTop := r.fromTop, fromBottom := r.fromBottom, above := fullAbove r, below := fullBelow r }

/-- api/elements.go:143-175 `Get`; `none` is the answer "not found". -/
def get (sch : Sched) (st : ListState) (id range : Nat) : Option Full :=
  ((Lists.getElements sch st [id] range).head?).map full

/-- api/lists.go:183-186, 192-201 `GetRange` with `from_top`; `none` is the answer "not found". -/
def getRangeTop (st : ListState) (fromTop limit : Nat) : Option (List (Element × Int × Int)) :=
  match Lists.getRankTop st fromTop limit with
  | none => none
  | some l =>
    let res := toRanked fromTop ((Lists.len st : Int) - fromTop - 1) l
    if res.isEmpty then none else some res

/-- api/lists.go:187-201 `GetRange` with `from_bottom`; `none` is the answer "not found". -/
def getRangeBottom (st : ListState) (fromBottom limit : Nat) : Option (List (Element × Int × Int)) :=
  match Lists.getRankBottom st fromBottom limit with
  | none => none
  | some l =>
    let res := toRanked ((Lists.len st : Int) - fromBottom - 1) fromBottom l
    if res.isEmpty then none else some res

/-- The answers of `Create`. -/
inductive Created
  | conflict
  | notFound
  | ok (r : Full)
deriving DecidableEq, Repr

/-- api/elements.go:30-76 `Create`: the answer and the list afterwards. `none` if the insertion does not
return. -/
def create (now : Nat) (sch : Sched) (st : ListState) (e : Element) (range : Nat) : Option (Created × ListState) :=
  if (Lists.getElements sch st [e.id] range).length > 0 then some (.conflict, st)
  else
    (Lists.insert now sch st (Elements.updateTime now [e])).map fun st' =>
      match Lists.getElements sch st' [e.id] range with
      | [r] => (.ok (full r), st')
      | _ => (.notFound, st')

/-- api/elements.go:321-357 `PutMulti`: the results and the list afterwards. -/
def putMulti (now : Nat) (sch : Sched) (st : ListState) (es : List Element) : List Ranked × ListState :=
  let es := (Elements.deduplicate (Elements.updateTime now es)).1
  (sortRanked (Lists.updateResults now sch st es 0), Lists.updateElements now sch st es)

end RankDB.Api

/-! Several `Create` requests for one list at the same time. -/
namespace RankDB.Api

/-- Where a request of `Create` is: before the lookup at api/elements.go:51, before the insertion at 61, or
answered with "conflict" (true) or not. -/
inductive Phase
  | lookup
  | insert
  | answered (conflict : Bool)
deriving DecidableEq, Repr

/-- The list and the requests with their elements. -/
structure Creates where
  st : ListState
  reqs : List (Element × Phase)

/-- One step of one request. Lookup and insertion each hold the locks of the list, so they are atomic here;
nothing is held between them. -/
inductive CreateStep (now : Nat) (sch : Sched) : Creates → Creates → Prop
  | lookup (c pre e post) (h : c.reqs = pre ++ (e, .lookup) :: post) :
      CreateStep now sch c { c with reqs := pre ++ (e, if (Lists.getElements sch c.st [e.id] 0).length > 0
        then .answered true else .insert) :: post }
  | insert (c pre e post st') (h : c.reqs = pre ++ (e, .insert) :: post)
      (hi : Lists.insert now sch c.st (Elements.updateTime now [e]) = some st') :
      CreateStep now sch c { st := st', reqs := pre ++ (e, .answered false) :: post }

/-- Any number of steps. -/
inductive CreateSteps (now : Nat) (sch : Sched) : Creates → Creates → Prop
  | refl (c) : CreateSteps now sch c c
  | step {c c' c''} (h : CreateSteps now sch c c') (hs : CreateStep now sch c' c'') : CreateSteps now sch c c''

end RankDB.Api

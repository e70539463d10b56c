/-
Model of the restrictions of access tokens: api/jwt.go:84-140. The signature check of the token is done by
the JWT middleware and is not modelled. Strings are sequences of characters (valid UTF-8).
-/
namespace RankDB.Access

/-- A Go string as its characters. -/
abbrev Text := List Char

/-- `unicode.IsSpace`. -/
def isSpace (c : Char) : Bool :=
  let n := c.toNat
  (9 ≤ n && n ≤ 13) || n == 32 || n == 0x85 || n == 0xA0 || n == 0x1680 || (0x2000 ≤ n && n ≤ 0x200a) ||
  n == 0x2028 || n == 0x2029 || n == 0x202f || n == 0x205f || n == 0x3000

/-- `strings.TrimSpace`. -/
def trimSpace (s : Text) : Text := ((s.dropWhile isSpace).reverse.dropWhile isSpace).reverse

/-- `strings.Split(s, ",")`. -/
def splitComma : Text → List Text
  | [] => [[]]
  | c :: s =>
    if c = ',' then [] :: splitComma s
    else
      match splitComma s with
      | [] => [[c]]
      | p :: ps => (c :: p) :: ps

/-- The digit loop of `strconv.ParseUint` with base 10: `none` for another character or a value above
`limit`. -/
def parseDigits (limit : Nat) : Nat → Text → Option Nat
  | acc, [] => some acc
  | acc, c :: s =>
    if '0'.toNat ≤ c.toNat ∧ c.toNat ≤ '9'.toNat then
      let v := acc * 10 + (c.toNat - '0'.toNat)
      if v ≤ limit then parseDigits limit v s else none
    else none

/-- `strconv.ParseUint(s, 10, 64)`; `none` is an error. -/
def parseUint (s : Text) : Option Nat := if s = [] then none else parseDigits (2 ^ 64 - 1) 0 s

/-- A value of a claim: absent, a string, or something else. -/
inductive Claim
  | absent
  | str (s : Text)
  | other
deriving DecidableEq

/-- The token of the request: none, a token whose claims are not a map, or the two claims of interest. -/
inductive Token
  | none
  | unsupported
  | claims (onlyLists onlyElements : Claim)
deriving DecidableEq

/-- The outcome of a check; the error names the first offending ID. -/
inductive Result (α : Type)
  | ok
  | unsupported
  | denied (id : α)
deriving DecidableEq

/-- The loop over the IDs in api/jwt.go:95-107 and 125-137. -/
def checkAll {α : Type} (granted : α → Bool) : List α → Result α
  | [] => .ok
  | id :: ids => if granted id then checkAll granted ids else .denied id

/-- api/jwt.go:84-110 `HasAccessToList`. -/
def hasAccessToList (t : Token) (ids : List Text) : Result Text :=
  match t with
  | .none => .ok
  | .unsupported => .unsupported
  | .claims (.str val) _ => checkAll (fun id => (splitComma val).any fun p => trimSpace p == id) ids
  | .claims _ _ => .ok

/-- api/jwt.go:114-140 `HasAccessToElement`. -/
def hasAccessToElement (t : Token) (ids : List Nat) : Result Nat :=
  match t with
  | .none => .ok
  | .unsupported => .unsupported
  | .claims _ (.str val) =>
    checkAll (fun id => (splitComma val).any fun p => parseUint (trimSpace p) == some id) ids
  | .claims _ _ => .ok

end RankDB.Access

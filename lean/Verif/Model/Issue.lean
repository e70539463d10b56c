import Verif.Model.Access
import Verif.Model.ClientJobs
/-
Model of the creation of tokens: api/jwt.go:170-205, asked for with the client library. Signing is left out: a token is what
it claims. Times are nanoseconds since 1970.
-/
namespace RankDB.Issue
open Validate ClientArgs Access

/-- A Go string with these characters. -/
def utf8 (t : Text) : Str := t.flatMap String.utf8EncodeChar

/-- The characters of a Go string as the claims of a token carry them. `other`: what `encoding/json` makes of strings that are
not UTF-8, which is not modelled. -/
def chars (other : Str → Text) (s : Str) : Text :=
  match s.toByteArray.utf8Decode? with
  | some cs => cs.toList
  | none => other s

/-- What a token claims. The issuer and the random identifier are left out. -/
structure Claims where
  exp : Int
  iat : Int
  nbf : Int
  scopes : Text
  onlyLists : Claim
  onlyElements : Claim

/-- A value of the type `int64` after an overflow. -/
def wrap (i : Int) : Int := (i + 2 ^ 63) % 2 ^ 64 - 2 ^ 63

/-- `time.Minute * time.Duration(minutes)`, nanoseconds as `int64`: api/jwt.go:177. -/
def duration (minutes : Nat) : Int := wrap (60000000000 * minutes)

/-- `Unix` of a time. -/
def unix (t : Int) : Int := t / 1000000000

/-- api/jwt.go:186-191: a claim of an optional argument. -/
def claim (other : Str → Text) : Option Str → Claim
  | none => .absent
  | some s => .str (chars other s)

/-- api/jwt.go:170-205 `JWT`. `enabled`: creating tokens is enabled and there is a private key. `t` and `t'` are the times of
the two calls of `time.Now`, lines 177 and 182. -/
def issue (other : Str → Text) (enabled : Bool) (t t' : Int) : Job → Option Claims
  | .jwt scope expire onlyElements onlyLists =>
    if enabled then
      some { exp := unix (t + duration expire), iat := unix t', nbf := 2, scopes := chars other scope,
             onlyLists := claim other onlyLists, onlyElements := claim other onlyElements }
    else none
  | _ => none

/-- `NewJWTJWTRequest` of the client, api/client/jwt.go:38-56, and the answer of the server. -/
def ask (other : Str → Text) (enabled : Bool) (t t' : Int) (scope : Text) (expire : Option Int) (onlyElements onlyLists : Option Text) :
    Option Claims :=
  (sendJob (.jwt (utf8 scope) expire (onlyElements.map utf8) (onlyLists.map utf8))).bind (issue other enabled t t')

/-- The token of later requests, as `HasAccessToList` and `HasAccessToElement` see it. -/
def Claims.token (c : Claims) : Token := .claims c.onlyLists c.onlyElements

/-- `MapClaims.Valid` of jwt-go, by its documentation: requests with the token at time `t` get past the middleware of
api/jwt.go:40-58 only if it holds. -/
def Claims.valid (c : Claims) (t : Int) : Bool := decide (unix t ≤ c.exp) && decide (c.iat ≤ unix t) && decide (c.nbf ≤ unix t)

end RankDB.Issue

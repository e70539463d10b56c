import Verif.Model.ValidateMany
/-
Model of how the hosts of an Aerospike cluster are read from the configuration: blobstore/aerostore/aerostore.go:114-140.
Of the white space that `strings.TrimSpace` removes only ASCII is modelled. Connecting is left out.
-/
namespace RankDB.Hosts
open Validate

/-- `strings.Split` with a separator of one byte. -/
def split (sep : UInt8) : Str → List Str
  | [] => [[]]
  | c :: s =>
    if c = sep then [] :: split sep s
    else match split sep s with
      | [] => [[c]]
      | p :: ps => (c :: p) :: ps

/-- The loop of `strconv.ParseUint` with base 10: nothing if a byte is not a digit, and the greatest number as soon as
there is no room. -/
def scan : Nat → Str → Option Nat
  | n, [] => some n
  | n, c :: s =>
    if digit c then
      if 2 ^ 64 ≤ n * 10 + (c.toNat - 48) then some (2 ^ 64 - 1) else scan (n * 10 + (c.toNat - 48)) s
    else none

/-- The digits of `strconv.Atoi`, after the sign: its first result, whether or not there is an error. -/
def signedValue (neg : Bool) (ds : Str) : Int :=
  if ds = [] then 0
  else match scan 0 ds with
    | none => 0
    | some v => if neg then -((min v (2 ^ 63) : Nat) : Int) else ((min v (2 ^ 63 - 1) : Nat) : Int)

/-- The first result of `strconv.Atoi`; blobstore/aerostore/aerostore.go:130 ignores the error. -/
def atoiValue : Str → Int
  | [] => 0
  | b :: ds => if b = 45 then signedValue true ds else if b = 43 then signedValue false ds else signedValue false (b :: ds)

/-- blobstore/aerostore/aerostore.go:126-136: one entry. -/
def parseHost (default : Int) (hwp : Str) : Str × Int :=
  match split 58 hwp with
  | name :: port :: _ => (trimBytes name, if 0 < atoiValue port then atoiValue port else default)
  | [name] => (trimBytes name, default)
  | [] => ([], default)

/-- blobstore/aerostore/aerostore.go:121-140 `parseHosts`. -/
def parseHosts (hosts : Str) (default : Int) : List (Str × Int) := (split 44 hosts).map (parseHost default)

/-- blobstore/aerostore/aerostore.go:36-43, the beginning of `New`: the hosts to connect to; nothing is the error "no hosts
specified". -/
def clusterHosts (hosts : Str) : Option (List (Str × Int)) :=
  if (parseHosts hosts 3000).length = 0 then none else some (parseHosts hosts 3000)

end RankDB.Hosts

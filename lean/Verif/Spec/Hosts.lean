import Verif.Spec.ValidateMany
import Verif.Model.Hosts
/-
The documented form of the hosts of a cluster, for C116: entries `host:port` or `host`, separated by commas.
-/
namespace RankDB.Spec

/-- A text without commas and colons. -/
def Apart (s : Str) : Prop := ∀ c ∈ s, c ≠ ','.toUInt8 ∧ c ≠ ':'.toUInt8

/-- One entry names this host and port. The port is from 1 to 65535; without a port it is 3000. -/
inductive Names : Str → Str × Nat → Prop
  | plain {raw name} : Apart raw → Spelled raw name → name ≠ [] → Names raw (name, 3000)
  | port {raw name text port} : Apart raw → Spelled raw name → name ≠ [] → Decimal text port → 1 ≤ port → port ≤ 65535 →
      Names (raw ++ ':'.toUInt8 :: text) (name, port)

/-- A list of hosts. -/
inductive NamesAll : Str → List (Str × Nat) → Prop
  | one {raw h} : Names raw h → NamesAll raw [h]
  | more {raw h rest hs} : Names raw h → NamesAll rest hs → NamesAll (raw ++ ','.toUInt8 :: rest) (h :: hs)

end RankDB.Spec

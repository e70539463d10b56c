import Verif.Model.Stored
/-
What can be in a stored segment table: the four known fields and fields of other versions of the program with
any MessagePack value.
-/
namespace RankDB
open Wire

mutual
/-- MessagePack values. -/
inductive Val
  | nil
  | bool (b : Bool)
  | uint (n : Nat)
  | int (i : Int)
  | float32 (d : Bytes)
  | float64 (d : Bytes)
  | str (d : Bytes)
  | bin (d : Bytes)
  | ext (type : UInt8) (d : Bytes)
  | array (vs : Vals)
  | map (kvs : Pairs)
inductive Vals
  | nil
  | cons (v : Val) (vs : Vals)
inductive Pairs
  | nil
  | cons (k v : Val) (kvs : Pairs)
end

def Vals.length : Vals → Nat
  | .nil => 0
  | .cons _ vs => vs.length + 1

def Pairs.length : Pairs → Nat
  | .nil => 0
  | .cons _ _ kvs => kvs.length + 1

mutual
/-- The bytes of a value. -/
def Val.encode : Val → Bytes
  | .nil => [0xc0]
  | .bool b => encBool b
  | .uint n => encUint n
  | .int i => encInt i
  | .float32 d => 0xca :: d
  | .float64 d => 0xcb :: d
  | .str d => encStr d
  | .bin d => encBin d
  | .ext t d => 0xc9 :: be 4 d.length ++ t :: d
  | .array vs => encArray vs.length ++ vs.encode
  | .map kvs => encMap kvs.length ++ kvs.encode
def Vals.encode : Vals → Bytes
  | .nil => []
  | .cons v vs => v.encode ++ vs.encode
def Pairs.encode : Pairs → Bytes
  | .nil => []
  | .cons k v kvs => k.encode ++ (v.encode ++ kvs.encode)
end

mutual
/-- Lengths that MessagePack can represent. -/
def Val.ok : Val → Prop
  | .float32 d => d.length = 4
  | .float64 d => d.length = 8
  | .str d | .bin d | .ext _ d => d.length < 2 ^ 32
  | .array vs => vs.length < 2 ^ 32 ∧ vs.ok
  | .map kvs => kvs.length < 2 ^ 32 ∧ kvs.ok
  | _ => True
def Vals.ok : Vals → Prop
  | .nil => True
  | .cons v vs => v.ok ∧ vs.ok
def Pairs.ok : Pairs → Prop
  | .nil => True
  | .cons k v kvs => k.ok ∧ v.ok ∧ kvs.ok
end

namespace Stored

/-- A field of a stored segment table. -/
inductive Field
  | id (s : Str)
  | segments (l : List SegMeta)
  | nextID (n : Nat)
  | isIndex (b : Bool)
  | other (key : Bytes) (v : Val)

def Field.known : Field → Bool
  | .other _ _ => false
  | _ => true

/-- The bytes of a field, key and value. -/
def Field.encode : Field → Bytes
  | .id s => encStr keyID ++ encStr s
  | .segments l => encStr keySegments ++ (encArray l.length ++ l.flatMap encSegment)
  | .nextID n => encStr keyNextID ++ encUint n
  | .isIndex b => encStr keyIsIndex ++ encBool b
  | .other k v => encStr k ++ v.encode

/-- An unknown field has another key. -/
def Field.ok : Field → Prop
  | .other k v => k ≠ keyID ∧ k ≠ keySegments ∧ k ≠ keyNextID ∧ k ≠ keyIsIndex ∧ k.length < 2 ^ 32 ∧ v.ok
  | _ => True

/-- The fields of a table in the order they are written. -/
def Table.fields (t : Table) : List Field := [.id t.id, .segments t.segments, .nextID t.nextID, .isIndex t.isIndex]

/-- Values allowed by the Go types of segment.go:31-40, and the length of the parent ID. -/
structure SegMeta.WF (s : SegMeta) : Prop where
  id : s.id ≤ maxU32
  min : s.min ≤ maxU64
  max : s.max ≤ maxU64
  minTie : s.minTie ≤ maxU32
  maxTie : s.maxTie ≤ maxU32
  n : -2 ^ 63 ≤ s.n ∧ s.n < 2 ^ 63
  updated : -2 ^ 63 ≤ s.updated ∧ s.updated < 2 ^ 63
  parent : s.parent.length ≤ maxU32

structure Table.WF (t : Table) : Prop where
  id : t.id.length ≤ maxU32
  count : t.segments.length ≤ maxU32
  segments : ∀ s ∈ t.segments, s.WF
  nextID : t.nextID ≤ maxU32

structure ListRec.WF (l : ListRec) : Prop where
  id : l.id.length ≤ maxU32
  set : l.set.length ≤ maxU32
  count : l.entries.length ≤ maxU32
  entries : ∀ kv ∈ l.entries, kv.1.length ≤ maxU32 ∧ kv.2.length ≤ maxU32
  /-- a Go map has every key once -/
  keys : (l.entries.map (·.1)).Nodup
  splitSize : -2 ^ 63 ≤ l.splitSize ∧ l.splitSize < 2 ^ 63
  mergeSize : -2 ^ 63 ≤ l.mergeSize ∧ l.mergeSize < 2 ^ 63
  scores : l.scores.length ≤ maxU32
  index : l.index.length ≤ maxU32

end Stored
end RankDB

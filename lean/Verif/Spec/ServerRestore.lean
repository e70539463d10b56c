import Verif.Model.ServerRestore
import Verif.Spec.Server
/-
Specification of restoring a backup set on a server. A set is a list of list IDs with what a user saw of these lists.
-/
namespace RankDB.Spec
open Server

/-- A list as it comes back from a backup: metadata that were not given are now empty (C35). -/
def fromBackup (s : Seen) : Seen := { s with metadata := some (s.metadata.getD []) }

/-- The lists after restoring `set` under its IDs with prefix and suffix. When existing lists are not replaced they are
as before, and so is everything else. -/
def afterRestore (pre suf : Str) (replace : Bool) (set : List (Str × Seen)) (L : Lists) : Lists := fun x =>
  match set.find? fun i => pre ++ i.1 ++ suf = x with
  | some i => if (L x).isSome ∧ replace = false then L x else some (fromBackup i.2)
  | none => L x

/-- The IDs of the lists of a stream, up to its end or to something that cannot be read. `fuel` is more than the number
of bytes. -/
def listed : Nat → Wire.Bytes → List Str
  | 0, _ => []
  | fuel + 1, b =>
    match Wire.decBool b with
    | some (true, b) =>
      let (v, b) := Stored.getVersion b
      if v ≠ Backup.backupListVersion then [] else
      match Wire.decStr b with
      | none => []
      | some (id, b) =>
        match Wire.decBin b with
        | none => []
        | some (_, b) => id :: listed fuel b
    | _ => []

/-- The list is one of those that the stream is about. -/
def IsListed (pre suf : Str) (b : Wire.Bytes) (x : Str) : Prop := ∃ id ∈ listed (b.length + 1) b, x = pre ++ id ++ suf

/-- The names that are taken for one list. -/
def Names.all (e : Names) : List Str := [e.scores, e.stub, e.index]

/-- The names that are taken while a set is restored: they are all different and not in use. -/
structure FreshNames (env : Nat → Names) (db : Db) : Prop where
  differ : ∀ k, (Names.all (env k)).Nodup
  apart : ∀ j k, ∀ n ∈ Names.all (env j), n ∈ Names.all (env k) → j = k
  fresh : ∀ k, ∀ l ∈ db.lists ++ db.file, ∀ n ∈ Names.all (env k), n ∉ names l

/-- A list whose backup has room for everything: fewer than 2^32 - 2 elements, and less than 4 GB. -/
def FitsBackup (db : Db) (id : Str) : Prop :=
  (∀ s, look db id = some s → s.content.length + 2 ≤ 2 ^ 32) ∧
  ∀ p, payloadOf db id = some (some p) → p.length < 2 ^ 32

end RankDB.Spec

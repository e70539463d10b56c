import Verif.Model.Bytes
import Verif.Spec.Sizes
import Verif.Spec.Stored
/-
Specification of the server down to bytes: the server of `Model/Server`, which knows nothing of bytes.
-/
namespace RankDB.Spec
open Server Files

/-- A name that can be used for segments: not the name of the catalogue, without dash, not too long. -/
structure GoodName (p : Str) : Prop where
  dash : 45 ∉ p
  other : p ≠ Keys.listStorageKey
  length : p.length < 2 ^ 32

/-- The names of new segments can be used. -/
def GoodNames (env : Env) : Prop := GoodName env.scores ∧ GoodName env.index

/-- The description of a new list fits its stored form: strings are shorter than 4 GB, there are fewer than 2^32
metadata, every key once, and sizes fit 63 bits. -/
structure Describable (p : Payload) : Prop where
  id : p.id.length < 2 ^ 32
  set : p.set.length < 2 ^ 32
  count : (p.metadata.getD []).length < 2 ^ 32
  entries : ∀ kv ∈ p.metadata.getD [], kv.1.length < 2 ^ 32 ∧ kv.2.length < 2 ^ 32
  keys : ((p.metadata.getD []).map (·.1)).Nodup
  splitSize : p.splitSize < 2 ^ 63
  mergeSize : p.mergeSize < 2 ^ 63

/-- The description in a request, if it has one, fits. -/
def Described : Request → Prop
  | .create _ p | .clone _ p => Describable p
  | _ => True

/-- A list that was loaded always has metadata (C35). -/
def withMetadata (l : Listing) : Listing := { l with metadata := some (l.metadata.getD []) }

/-- A start of the server: the lists are those of the saved catalogue. -/
def started (db : Db) : Db := { db with lists := db.file.map withMetadata }

/-- All that is required of a request. -/
structure Asks (env : Env) (db : Db) (r : Request) : Prop where
  fits : Fits env db
  allowed : Allowed db r
  room : Room db r
  names : GoodNames env
  described : Described r

/-- What is seen of the server that knows nothing of bytes. -/
def seenOf (db : Db) : List Files.Event → List Files.Response × Db
  | [] => ([], db)
  | .change env r :: es =>
    let s := Server.serve env db r
    let t := seenOf s.2 es
    (.answer s.1 :: t.1, t.2)
  | .ask sch q :: es =>
    let t := seenOf db es
    (.shown (Server.ask sch db q) :: t.1, t.2)
  | .crash k env r :: es =>
    let t := seenOf (started (Server.applyAll db ((handle env db r).2.take k))) es
    (.started true :: t.1, t.2)

/-- Events to which the theorems apply: requests fit, and the lists that the server has after a start can be read. -/
def Orderly (db : Db) : List Files.Event → Prop
  | [] => True
  | .change env r :: es => Asks env db r ∧ Orderly (Server.serve env db r).2 es
  | .ask _ _ :: es => Orderly db es
  | .crash k env r :: es => Asks env db r ∧ Good (started (Server.applyAll db ((handle env db r).2.take k))) ∧
      Orderly (started (Server.applyAll db ((handle env db r).2.take k))) es

end RankDB.Spec

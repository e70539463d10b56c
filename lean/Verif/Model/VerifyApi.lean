import Verif.Model.Server
/-
Model of the request that verifies a list.
-/
namespace RankDB.Server
open Disk

/-- The answers of `Verify`: the list is not there, it is in order, it was not in order and has been repaired, or there
is an error. -/
inductive Checked
  | notFound
  | correct
  | repaired
  | error
deriving DecidableEq, Repr

/-- api/lists.go:282-312 `Verify`, with list.go:559-670 `Verify`, list.go:673-719 `VerifyElements` and, if `fix` is set
and something is wrong, list.go:1789-1844 `Repair`. Simplification: a list of which something is missing gives an
error, without an attempt to repair it (see `Model/Disk` and C31, C68 for `Repair` of such lists). -/
def verify (env : Env) (db : Db) (id : Str) (fix : Bool) : Checked × List Effect :=
  match byID db.lists id with
  | none => (.notFound, [])
  | some l =>
    match reload db.store l.ent with
    | none => (.error, [])
    | some st =>
      if Lists.verify st && Lists.verifyElements st then (.correct, [])
      else if fix then
        match handle env db (.repair id) with
        | (.ok, es) => (.repaired, es)
        | (_, es) => (.error, es)
      else (.error, [])

end RankDB.Server

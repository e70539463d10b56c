import Verif.Model.Locks
/-
Notions for the properties of concurrent calls on a list.
-/
namespace RankDB.Locks

/-- All calls have returned. -/
def Done (st : State) : Prop := ∀ c ∈ st, c.Finished

/-- Some call has not returned and no goroutine of any call can go on. -/
def Deadlock (st : State) : Prop := ¬ Done st ∧ ∀ st', ¬ Step st st'

/-- No neighbouring segments are visited: the case of a lookup with radius 0. -/
def NoRadius (near : List (List Nat)) : Prop := ∀ is ∈ near, is = []

/-- Operations that do not have one of the problems of the properties below: lookups of elements or of a
percentile with neighbours, `GetRankScoreDesc`, `Stats` with the first and the last element, and `Populate`
when the segments could not be loaded. `Repair` when the statistics could not be read but the segments can does
not go through, see `Failure.repairPanics`. -/
def Op.Simple : Op → Prop
  | .getElements _ _ _ _ found => ∀ p ∈ found, NoRadius p.2
  | .getPercentile _ _ near => NoRadius near
  | .getRankScoreDesc _ _ segs => segs = []
  | .stats _ elements => elements = none
  | .populateUnloaded .. => False
  | .repair stat .. => stat ≠ .failed
  | _ => True

/-- Operations that change no element: lookups, percentiles and ranges of any kind, checks, backups, cloning,
rebuilding the index, and unloading or deleting the whole list. `Stats` with the first and the last element is
not among them. -/
def Op.KeepsElements : Op → Prop
  | .getElements .. | .getRank .. | .getRankScoreDesc .. | .getPercentile .. | .len .. | .verify .. => True
  | .stats _ elements => elements = none
  | .verifyElements .. | .backup .. | .cloneFrom .. | .reindex .. | .deleteAll .. | .releaseSegments => True
  | _ => False

/-- Reading a list whose segments are in memory, with the index of the elements if that is needed. `Stats` with
the first and the last element is among them. -/
def Op.Warm : Op → Prop
  | .getElements how _ _ missing _ => how = .cached ∧ missing = false
  | .getRank how _ | .getRankScoreDesc how _ _ | .getPercentile how _ _ | .len how | .verify how _ _ => how = .cached
  | .verifyElements how _ _ | .backup how _ | .cloneFrom how _ => how = .cached
  | .stats how none => how = .cached
  | .stats how (some (h1, _, h2, _)) => how = .cached ∧ h1 = .cached ∧ h2 = .cached
  | _ => False

end RankDB.Locks

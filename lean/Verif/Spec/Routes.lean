import Verif.Model.Routes
/-
What the calls of the client library mean, for C114.
-/
namespace RankDB.Spec
open Routes

/-- The operation of a call, by its name in the library, with its parameters. -/
def meant : Call → Action × List Str
  | .deleteBackup backup => (.deleteBackup, [backup])
  | .statusBackup backup => (.statusBackup, [backup])
  | .createElement list => (.createElement, [list])
  | .deleteElement list element => (.deleteElement, [list, element])
  | .deleteElements list => (.deleteElements, [list])
  | .getElement list element => (.getElement, [list, element])
  | .getAround list element => (.getAround, [list, element])
  | .getElements list => (.getElements, [list])
  | .putElement list element => (.putElement, [list, element])
  | .putElements list => (.putElements, [list])
  | .health => (.health, [])
  | .root => (.root, [])
  | .jwt => (.jwt, [])
  | .cloneList list => (.cloneList, [list])
  | .createList => (.createList, [])
  | .deleteList list => (.deleteList, [list])
  | .getList list => (.getList, [list])
  | .getPercentile list => (.getPercentile, [list])
  | .getRange list => (.getRange, [list])
  | .getLists => (.getLists, [])
  | .reindexList list => (.reindexList, [list])
  | .repairList list => (.repairList, [list])
  | .verifyList list => (.verifyList, [list])
  | .backupLists => (.backupLists, [])
  | .createInLists => (.createInLists, [])
  | .deleteFromLists element => (.deleteFromLists, [element])
  | .getFromLists element => (.getFromLists, [element])
  | .putInLists => (.putInLists, [])
  | .reindexLists => (.reindexLists, [])
  | .restoreLists => (.restoreLists, [])
  | .verifyLists => (.verifyLists, [])

/-- The parameters of a call can be part of a path: they are not empty and have no slash. -/
def PathParams (c : Call) : Prop := ∀ x ∈ (meant c).2, x ≠ [] ∧ 47 ∉ x

end RankDB.Spec

import Verif.Spec.ClientArgs
import Verif.Model.ClientJobs
/-
What calls of the client library for verifying, repairing, restoring and tokens ask for, by their arguments, for C115.
-/
namespace RankDB.Spec
open Validate ClientArgs

/-- The call is proper and asks for this: absent flags are false, absent texts are empty or absent, and a token is for 1440
minutes by default and for at least one. -/
inductive Wants : UseJob → Job → Prop
  | repairList {list} {clear : Option Bool} : IsListID list → Wants (.repairList list clear) (.repairList list (clear.getD false))
  | verifyList {list} {clear repair : Option Bool} : IsListID list →
      Wants (.verifyList list clear repair) (.verifyList list (clear.getD false) (repair.getD false))
  | verifyLists {body} {clear elements errorsOnly repair : Option Bool} :
      Wants (.verifyLists body clear elements errorsOnly repair)
        (.verifyLists body (clear.getD false) (elements.getD false) (errorsOnly.getD false) (repair.getD false))
  | restore {keep : Option Bool} {pre suf src srcFile : Option Str} :
      Wants (.restore keep pre suf src srcFile) (.restore (keep.getD false) pre suf (src.getD []) (srcFile.getD []))
  | jwtDefault {scope onlyElements onlyLists} :
      Wants (.jwt scope none onlyElements onlyLists) (.jwt scope 1440 onlyElements onlyLists)
  | jwt {scope onlyElements onlyLists} {minutes : Nat} : 1 ≤ minutes →
      Wants (.jwt scope (some minutes) onlyElements onlyLists) (.jwt scope minutes onlyElements onlyLists)

/-- The minutes of a token are of the type `int`. -/
def JobInts : UseJob → Prop
  | .jwt _ e _ _ => IsInt e
  | _ => True

end RankDB.Spec

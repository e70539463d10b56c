import Verif.Model.Element
/-
Specification of rankings, independent of the algorithms in the model.
-/
namespace RankDB.Spec

/-- `a` is ranked above `b`: higher score, then higher tie-breaker, then earlier update time, then
lower ID. -/
def RanksAbove (a b : Element) : Prop :=
  b.score < a.score ∨ (a.score = b.score ∧
    (b.tie < a.tie ∨ (a.tie = b.tie ∧
      (a.updated < b.updated ∨ (a.updated = b.updated ∧ a.id < b.id)))))

instance (a b : Element) : Decidable (RanksAbove a b) := by unfold RanksAbove; infer_instance

/-- A list is ranked if no element should be above an earlier one. -/
def Ranked (l : List Element) : Prop := l.Pairwise fun a b => ¬ RanksAbove b a

/-- No two elements have the same ID. -/
def DistinctIDs (l : List Element) : Prop := (l.map (·.id)).Nodup

instance (l : List Element) : Decidable (Ranked l) := by unfold Ranked; infer_instance
instance (l : List Element) : Decidable (DistinctIDs l) := by unfold DistinctIDs; infer_instance

/-- Insert one element in front of the first element that it is ranked above. -/
def place (e : Element) : List Element → List Element
  | [] => [e]
  | a :: l => if RanksAbove e a then e :: a :: l else a :: place e l

/-- The ranking of a collection of elements (insertion sort, the reference algorithm). -/
def ranking : List Element → List Element
  | [] => []
  | e :: l => place e (ranking l)

/-- The number of elements in `l` ranked above `e`. -/
def rankFromTop (l : List Element) (e : Element) : Nat := l.countP fun a => RanksAbove a e
/-- The number of elements in `l` ranked below `e`. -/
def rankFromBottom (l : List Element) (e : Element) : Nat := l.countP fun a => RanksAbove e a

end RankDB.Spec

import Verif.Spec.Server
/-
What it means that an element was not touched.
-/
namespace RankDB.Spec

/-- The list is there before and afterwards, or neither; its options are the same; and an element with this ID is in
it afterwards exactly if it was before, with the same score, tie-breaker, payload and time. -/
def Untouched (eid : Nat) (a b : Option Seen) : Prop :=
  match a, b with
  | none, none => True
  | some l, some l' => l' = { l with content := l'.content } ∧ ∀ e : Element, e.id = eid → (e ∈ l'.content ↔ e ∈ l.content)
  | _, _ => False

theorem Untouched.refl (eid : Nat) (a : Option Seen) : Untouched eid a a := by
  cases a with
  | none => trivial
  | some l => exact ⟨rfl, fun _ _ => Iff.rfl⟩

theorem Untouched.trans {eid : Nat} {a b c : Option Seen} (h1 : Untouched eid a b) (h2 : Untouched eid b c) :
    Untouched eid a c := by
  cases a <;> cases b <;> cases c <;> simp only [Untouched] at *
  refine ⟨?_, fun e he => (h2.2 e he).trans (h1.2 e he)⟩
  rw [h2.1, h1.1]

end RankDB.Spec

import Verif.Model.MaxSteps
import Verif.Spec.MaxSize
/-
What several calls at the same time may observe: the same as one after the other, in the order in which they return.
-/
namespace RankDB.Spec.MaxSteps
open Wire
open RankDB.MaxSteps (Call Event Label Conc)
open RankDB.MaxSize (Op Res)
open RankDB.Spec.MaxSize (Known)

/-- The atomic call `o` is the call `c`, with some outcomes of the operations below; with `clean`, all succeeded. -/
def IsCall (c : Call) (clean : Bool) (o : Op) : Prop :=
  match c with
  | .get s k => ∃ f : Nat → Bool, o = .get f s k ∧ (clean = true → ∀ i, f i = true)
  | .set s k b => ∃ (g f : Nat → Bool) (late : Bool), o = .set g f late s k b ∧ (clean = true → ∀ i, g i = true ∧ f i = true)
  | .delete s k => ∃ (f : Nat → Bool) (late : Bool), o = .delete f late s k ∧ (clean = true → ∀ i, f i = true)

/-- An atomic call with its result explains an event: a call that has returned has this result; a call that was
running when the process ended did some of its work. -/
def Explains : Event → Op × Res → Prop
  | .returned c r clean, (o, r') => IsCall c clean o ∧ r = r'
  | .lost c, (o, _) => IsCall c false o
  | .crash, (o, _) => o = .restart

/-- A history of atomic calls, one for each event and in the same order. -/
def Serial : List Event → List (Op × Res) → Prop
  | [], [] => True
  | e :: es, o :: os => Explains e o ∧ Serial es os
  | _, _ => False

/-- The keys of all calls of a schedule have the property. -/
def Calls (P : Str → Str → Prop) (ls : List Label) : Prop :=
  ∀ c, Label.call c ∈ ls → P c.name c.key

/-- No call is running. -/
def Quiet (σ : Conc) : Prop := ∀ t ∈ σ.threads, t.pc.isRunning = false

/-- What an event says about a key: the blob it has (`none`: no blob), or that this is not determined. -/
def afterEvent (v : Known) (s k : Str) : Event → Known
  | .returned (.set s' k' b) (.unit r) _ =>
    if s' = s ∧ k' = k then
      match r with
      | .ok _ => .is (some b)
      | .error .tooBig => v
      | .error _ => .unknown
    else v
  | .returned (.delete s' k') (.unit r) clean =>
    if s' = s ∧ k' = k then
      match r with
      | .ok _ => if clean then .is none else .unknown
      | .error _ => .unknown
    else v
  | .lost (.set s' k' _) => if s' = s ∧ k' = k then .unknown else v
  | .lost (.delete s' k') => if s' = s ∧ k' = k then .unknown else v
  | _ => v

def lastEvent (es : List Event) (s k : Str) : Known := es.foldl (fun v e => afterEvent v s k e) (.is none)

end RankDB.Spec.MaxSteps

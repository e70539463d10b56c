import Verif.Props.ClientArgs
import Verif.Props.ValidateMany
import Verif.Spec.ClientMany
/-
C115 for calls for several lists.
-/
namespace RankDB.ClientArgs
open Spec Validate Routes

theorem values_add_same (k : String) (l : List Str) : values (addAll k l) (w k) = l := values_many (w k) l

theorem values_add_other {k k' : String} (h : w k ≠ w k') (l : List Str) : values (addAll k l) (w k') = [] := by
  simp [values, addAll, List.filter_map, Function.comp_def, h]

theorem asked_iff {json : Str → Option (List (Str × Str))} {m : Option Str} {fs : List (Str × Str)} :
    IsFields (m.map fun t => { text := t, parsed := json t : RawFields }) fs ↔ Asked json m fs := by
  cases m <;> exact Iff.rfl

end RankDB.ClientArgs

namespace RankDB.Props
open Spec Routes Server Validate ClientArgs

/-- Every call for several lists arrives, and the request asks for exactly what the arguments of the call say. -/
theorem C115_many_understood (json : Str → Option (List (Str × Str))) (u : UseMany) (hp : PathParams u.call) :
    ∃ raw, sendMany json u = some raw ∧ ∀ a, AsksForMany raw a ↔ SaysMany json u a := by
  have hr := C114_arrives u.call hp
  unfold sendMany receivedMany
  rw [hr, parse_encode]
  have k1 : w "errors_only" ≠ w "results" := by decide +kernel
  have k2 : w "all_in_sets" ≠ w "errors_only" := by decide +kernel
  have k3 : w "all_in_sets" ≠ w "lists" := by decide +kernel
  have k4 : w "all_in_sets" ≠ w "match_metadata" := by decide +kernel
  have k5 : w "errors_only" ≠ w "lists" := by decide +kernel
  have k6 : w "errors_only" ≠ w "match_metadata" := by decide +kernel
  have k7 : w "lists" ≠ w "match_metadata" := by decide +kernel
  cases u <;> simp only [UseMany.call, meant, UseMany.args, UseMany.body] <;> refine ⟨_, rfl, fun a => ?_⟩
  case create s es e r =>
    simp only [first, values_append, values_set_same, values_set_other k1, values_set_other k1.symm, Option.head?_toList,
      List.append_nil, List.nil_append, BodyMany.asPayload]
    exact ⟨fun h => by cases h with | create _ _ h1 h2 => exact .create h1 h2,
      fun h => by cases h with | create h1 h2 => exact .create (flag_iff.2 rfl) (flag_iff.2 rfl) h1 h2⟩
  case put s es e r =>
    simp only [first, values_append, values_set_same, values_set_other k1, values_set_other k1.symm, Option.head?_toList,
      List.append_nil, List.nil_append, BodyMany.asPayload]
    exact ⟨fun h => by cases h with | put _ _ h1 h2 => exact .put h1 h2,
      fun h => by cases h with | put h1 h2 => exact .put (flag_iff.2 rfl) (flag_iff.2 rfl) h1 h2⟩
  case delete el sets e lists metadata =>
    simp only [first, values_append, values_set_same, values_add_same, values_add_other k2, values_add_other k3,
      values_add_other k4, values_set_other k2.symm, values_set_other k5, values_set_other k6, values_add_other k3.symm,
      values_add_other k5.symm, values_add_other k7, values_set_other k4.symm, values_set_other k6.symm,
      values_set_other k7.symm, Option.head?_toList, List.append_nil, List.nil_append]
    exact ⟨fun h => by cases h with | delete _ h1 h2 h3 => exact .delete h1 (asked_iff.1 h2) h3,
      fun h => by cases h with | delete h1 h2 h3 => exact .delete (flag_iff.2 rfl) h1 (asked_iff.2 h2) h3⟩
  case get el sets lists metadata =>
    simp only [first, values_append, values_set_same, values_add_same, values_add_other k3, values_add_other k4,
      values_add_other k3.symm, values_add_other k7, values_set_other k4.symm, values_set_other k7.symm,
      Option.head?_toList, List.append_nil, List.nil_append]
    exact ⟨fun h => by cases h with | get h1 h2 h3 => exact .get h1 (asked_iff.1 h2) h3,
      fun h => by cases h with | get h1 h2 h3 => exact .get h1 (asked_iff.2 h2) h3⟩
  case reindex s e =>
    simp only [first, values_set_same, Option.head?_toList, BodyMany.asSelect]
    refine ⟨fun h => ?_, fun h => ?_⟩
    · cases h with
      | reindex _ h1 h2 => exact .reindex h1 h2
      | reindexNothing _ h1 h2 h3 h4 => exact .reindexNothing h1 h2 h3 h4
    · cases h with
      | reindex h1 h2 => exact .reindex (flag_iff.2 rfl) h1 h2
      | reindexNothing h1 h2 h3 h4 => exact .reindexNothing (flag_iff.2 rfl) h1 h2 h3 h4

/-- Metadata in the examples: one field. -/
def exJson (s : Str) : Option (List (Str × Str)) := if s = w "{\"country\":\"dk\"}" then some [(w "country", w "dk")] else none

/-- An element is deleted from two lists and from those with the metadata. -/
def exDeleteMany : UseMany := .delete (w "7") [w "set one"] (some true) [w "top", w " all "] (some (w "{\"country\":\"dk\"}"))

/-- What is deleted from which lists. -/
def exDeleted (raw : RawMany) : List Str × List (List Str) × List Str × List Nat :=
  match routeMany raw with
  | .call (.bulk s (.delete ids)) => (s.lists, s.fields.map fun f => [f.1, f.2], s.sets, ids)
  | _ => ([], [], [], [])

example : encode exDeleteMany.args =
      w "all_in_sets=set+one&errors_only=true&lists=top&lists=+all+&match_metadata=%7B%22country%22%3A%22dk%22%7D" ∧
    (sendMany exJson exDeleteMany).map exDeleted = some ([w "all", w "top"], [[w "country", w "dk"]], [w "set one"], [7]) ∧
    PathParams exDeleteMany.call := by
  refine ⟨by decide +kernel, by decide +kernel, ?_⟩
  intro x hx
  simp only [exDeleteMany, UseMany.call, meant, List.mem_cons, List.not_mem_nil, or_false] at hx
  subst hx
  decide

/-- A call for several lists says one thing only. -/
theorem C115_many_one_meaning (json : Str → Option (List (Str × Str))) (u : UseMany) (hp : PathParams u.call) (a b : AskMany)
    (ha : SaysMany json u a) (hb : SaysMany json u b) : a = b := by
  obtain ⟨raw, -, h2⟩ := C115_many_understood json u hp
  exact C85_many_one_meaning raw a b ((h2 a).2 ha) ((h2 b).2 hb)

/-- No element in the body of a call is null. -/
def NoNull : UseMany → Prop
  | .create _ p _ _ | .put _ p _ _ => none ∉ p.getD []
  | _ => True

/-- Every call without null for an element is carried out as its arguments say, or, if they say nothing proper, refused. -/
theorem C115_many_carried (json : Str → Option (List (Str × Str))) (u : UseMany) (hp : PathParams u.call) (hn : NoNull u) :
    ∃ raw, sendMany json u = some raw ∧
    ((∃ a, SaysMany json u a ∧ routeMany raw = carryMany a) ∨
     ((∀ a, ¬ SaysMany json u a) ∧ (routeMany raw = .refused ∨ ∃ s, routeMany raw = .late s))) := by
  obtain ⟨raw, h1, h2⟩ := C115_many_understood json u hp
  have hnull : ¬ HasNull raw := by
    have hr := C114_arrives u.call hp
    have h3 := h1
    unfold sendMany receivedMany at h3
    rw [hr, parse_encode] at h3
    cases u <;> simp only [UseMany.call, meant, UseMany.body] at h3 <;> obtain rfl := Option.some.inj h3
    case create s p e r | put s p e r =>
      cases p with
      | none => exact id
      | some bs => exact hn
    all_goals exact id
  refine ⟨raw, h1, ?_⟩
  rcases C85_many_read_partial raw hnull with ⟨a, c1, c2⟩ | ⟨c1, c2⟩
  · exact .inl ⟨a, (h2 a).1 c1, c2⟩
  · exact .inr ⟨fun a ha => c1 a ((h2 a).2 ha), c2⟩

/-- A call with metadata that is not JSON is refused. -/
example : PathParams (UseMany.get (w "7") [] [] (some (w "x"))).call ∧ NoNull (.get (w "7") [] [] (some (w "x"))) ∧
    (sendMany exJson (.get (w "7") [] [] (some (w "x")))).map (fun raw => match routeMany raw with
      | .refused => true
      | _ => false) = some true := by
  refine ⟨?_, trivial, by decide +kernel⟩
  intro x hx
  simp only [UseMany.call, meant, List.mem_cons, List.not_mem_nil, or_false] at hx
  subst hx
  decide

end RankDB.Props

import Verif.Props.Catalogue
import Verif.Props.ClientJobs
import Verif.Model.ClientPages
/-
C43 and C44 as clients see them: pages of lists asked for with the client library.
-/
namespace RankDB.Props
open Spec Routes Validate ClientArgs Catalogue

theorem askPages_eq (lists : List Entry) (after before : Option Str) (limit : Option Int) :
    askPages lists after before limit =
      match intParam 25 1 1000 (limit.map formatInt) with
      | some n => some (getAll lists (after.getD []) (before.getD []) n)
      | none => none := by
  have hr := C114_arrives Call.getLists (by intro x hx; simp [meant] at hx)
  have k1 : w "after_id" ≠ w "before_id" := by decide +kernel
  have k2 : w "after_id" ≠ w "limit" := by decide +kernel
  have k3 : w "before_id" ≠ w "limit" := by decide +kernel
  unfold askPages servePages
  rw [hr, parse_encode]
  simp only [meant, pagesArgs, first, values_append, values_set_same, values_set_other k1, values_set_other k1.symm,
    values_set_other k2, values_set_other k2.symm, values_set_other k3, values_set_other k3.symm, Option.head?_toList,
    List.append_nil, List.nil_append]
  cases intParam 25 1 1000 (limit.map formatInt) <;> rfl

/-- A call with a limit from 1 to 1000, or none, and without a list to stop before gets the page of so many lists, 25 by
default, after the given one or from the start. -/
theorem C43_page_after (lists : List Entry) (hnd : DistinctLists lists) (after : Option Str) (limit : Option Int) (n : Nat)
    (hi : IsInt limit) (hn : Amount 25 1 1000 limit n) :
    ∃ r, askPages lists after none limit = some r ∧ IsPageAfter lists (after.getD []) n r.1 r.2.before r.2.after := by
  have h1 : 1 ≤ n := by
    cases limit with
    | none => simp only [Amount] at hn; omega
    | some i => exact hn.2.1
  refine ⟨sortedIDsAfter lists (after.getD []) n, ?_, C43_after lists hnd _ n h1⟩
  rw [askPages_eq, (intParam_iff ..).2 ((amount_iff hi).2 hn)]
  rfl

/-- With a list to stop before, the page has lists before it, in order; all lists are on the page or counted on the right side.
Missing is that the first entry of the page is next to the others (C44), and pages of one list. -/
theorem C44_page_before_partial (lists : List Entry) (hnd : DistinctLists lists) (before : Str) (limit : Option Int) (n : Nat)
    (hi : IsInt limit) (hn : Amount 25 1 1000 limit n) (h2 : 2 ≤ n) (hb : before ≠ []) :
    ∃ r A B, askPages lists none (some before) limit = some r ∧ (A ++ r.1 ++ B).Perm lists ∧ SortedByID r.1 ∧
      r.2.before = A.length ∧ r.2.after = B.length ∧ (∀ a ∈ A ++ r.1, a.id < before) ∧ (∀ e ∈ B, ¬ e.id < before) ∧
      r.1.length ≤ n ∧ (A ≠ [] → r.1.length = n) ∧ ∀ a ∈ A, ∀ e ∈ r.1.tail, a.id < e.id := by
  obtain ⟨A, B, h⟩ := C44_before_partial lists hnd before n h2
  refine ⟨sortedIDsBefore lists before n, A, B, ?_, h⟩
  rw [askPages_eq, (intParam_iff ..).2 ((amount_iff hi).2 hn)]
  simp only [Option.getD_some, getAll, if_pos hb]

/-- Limits out of bounds are refused, and no others. -/
theorem C43_page_refused (lists : List Entry) (after before : Option Str) (limit : Option Int) (hi : IsInt limit) :
    askPages lists after before limit = none ↔ ∃ i, limit = some i ∧ (i < 1 ∨ 1000 < i) := by
  rw [askPages_eq]
  cases hp : intParam 25 1 1000 (limit.map formatInt) with
  | some n =>
    have hn := (amount_iff hi).1 ((intParam_iff ..).1 hp)
    refine ⟨nofun, ?_⟩
    rintro ⟨i, rfl, h⟩
    have := hn.1
    have := hn.2
    omega
  | none =>
    refine ⟨fun _ => ?_, fun _ => rfl⟩
    cases limit with
    | none => nomatch hp
    | some i =>
      refine ⟨i, rfl, Classical.byContradiction fun hc => ?_⟩
      have := (intParam_iff ..).2 ((amount_iff (d := 25) (lo := 1) (hi := 1000) (v := i.toNat) hi).2 (by simp only [Amount]; omega))
      rw [hp] at this
      nomatch this

/-- With both, the list to start after is ignored: there is no way to ask for the lists between two. -/
theorem C44_page_both (lists : List Entry) (after : Option Str) (before : Str) (limit : Option Int) (hb : before ≠ []) :
    askPages lists after (some before) limit = askPages lists none (some before) limit := by
  rw [askPages_eq, askPages_eq]
  simp only [Option.getD_some, getAll, if_pos hb]

/-- Two of four lists after "b". -/
def exPageLists : List Entry := [⟨w "e", [], none⟩, ⟨w "b", [], none⟩, ⟨w "d", [], none⟩, ⟨w "cc", [], none⟩]

example : DistinctLists exPageLists ∧ IsInt (some 2) ∧ Amount 25 1 1000 (some 2) 2 ∧
    askPages exPageLists (some (w "b")) none (some 2) = some ([⟨w "cc", [], none⟩, ⟨w "d", [], none⟩], ⟨1, 1⟩) ∧
    askPages exPageLists (some (w "c")) (some (w "d")) (some 2) = some ([⟨w "b", [], none⟩, ⟨w "cc", [], none⟩], ⟨0, 2⟩) := by
  refine ⟨by decide +kernel, by rintro i ⟨⟩; decide, ⟨rfl, by decide, by decide⟩, ?_, ?_⟩ <;> decide +kernel

end RankDB.Props

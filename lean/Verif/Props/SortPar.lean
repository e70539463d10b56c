import Verif.Proofs.SortPar
import Verif.Props.Elements
/-
C103: sorting many elements with several goroutines gives the same ranking at every schedule.
-/
namespace RankDB.Props
open RankDB Spec SortPar

/-- Whatever the order in which the goroutines run, `Sort` returns what it returns with one of them. -/
theorem C103_same (l : List Element) (r : List Element × Bool) :
    Sorts l r ↔ ∃ fuel, Elements.sort fuel l = some r :=
  ⟨sorts_sort, fun ⟨fuel, h⟩ => sort_sorts fuel h⟩

/-- Two schedules give the same result. -/
theorem C103_one_result (l : List Element) (r r' : List Element × Bool) (h : Sorts l r) (h' : Sorts l r') : r = r' := by
  obtain ⟨n, hn⟩ := sorts_sort h
  obtain ⟨m, hm⟩ := sorts_sort h'
  have := sort_le (Nat.le_max_left n m) hn
  rw [sort_le (Nat.le_max_right n m) hm] at this
  exact Option.some.inj this.symm

/-- The result is the ranking of exactly the given elements, whatever the schedule. -/
theorem C103_ranked (l : List Element) (r : List Element × Bool) (h : Sorts l r) :
    r.1.Perm l ∧ Ranked r.1 ∧ (r.2 = true ↔ ¬ Ranked l) :=
  (sorts_sort h).elim fun fuel e => C07_sort_correct fuel l r e

/-- No goroutine uses an index that is out of range, and at the end one piece is left, the merger of all of them. -/
theorem C103_no_panic (pieces : List (List Element)) (sched : List Who) :
    ∃ st, run (start pieces) sched = some st ∧
      (st.ended = true → st.split = Elements.mergeAll pieces.length pieces) := by
  obtain ⟨st, S, e, hi, hm⟩ := inv_run sched (inv_start pieces)
  exact ⟨st, e, fun he => by rw [inv_ended hi he, hm]⟩

/-- No schedule goes on for ever, and as long as the end is not reached somebody can go on. -/
theorem C103_ends (pieces : List (List Element)) (sched : List Who) (st : St)
    (h : run (start pieces) sched = some st) :
    Acc (fun st' st : St => ∃ w, step st w = some st' ∧ st' ≠ st) st ∧
      (st.ended = false → ∃ w st', step st w = some st' ∧ st' ≠ st) := by
  obtain ⟨st', S, e, hi, -⟩ := inv_run sched (inv_start pieces)
  rw [h] at e; cases e
  refine ⟨moves_acc _ _ hi (Nat.le_refl _) (Nat.le_refl _), fun he => ?_⟩
  obtain ⟨st', w, e, hne⟩ := can_move hi he
  exact ⟨w, st', e, hne⟩

/-- Slices in which fewer than 22500 elements share a score and tie-breaker are sorted (for others see
`C07_sort_diverges`). -/
theorem C103_returns (l : List Element) (h : ∀ s t, l.countP (fun e => e.score = s ∧ e.tie = t) < 22500) :
    ∃ r, Sorts l r := by
  obtain ⟨fuel, r, e⟩ := C07_sort_terminates_partial l h
  exact ⟨r, sort_sorts fuel e⟩

/-- Five pieces. -/
def exPieces : List (List Element) :=
  [[⟨9, 1, [], 0, 1⟩, ⟨3, 2, [], 0, 1⟩], [⟨5, 3, [], 0, 1⟩], [⟨8, 4, [], 0, 1⟩], [⟨8, 5, [], 1, 1⟩, ⟨1, 6, [], 0, 1⟩],
    [⟨4, 7, [], 0, 1⟩]]

/-- The goroutines that merge finish late and in the reverse order, then at once. -/
example : (run (start exPieces) [.caller, .caller, .merger 7, .merger 1, .caller, .caller, .merger 0, .caller, .caller,
      .caller, .merger 0, .caller, .caller, .merger 0, .caller]).map (fun st => (st.ended, st.split.map (·.map (·.id)))) =
    some (true, [[1, 5, 4, 3, 7, 2, 6]]) := by decide +kernel

/-- Before the end, with two goroutines that merge. -/
example : (run (start exPieces) [.caller, .caller]).map (fun st => (st.ended, st.running.length)) = some (false, 2) := by
  decide +kernel

/-- Slices that are long enough are sorted with goroutines. -/
example : ∃ l r, Sorts l r ∧ 25000 ≤ l.length ∧ ¬ Ranked l := by
  let l : List Element := (List.range 25000).map fun i => ⟨i, i, [], 0, 1⟩
  have hc : ∀ s t, l.countP (fun e => e.score = s ∧ e.tie = t) < 22500 := by
    intro s t
    have hnd : (List.range 25000).Nodup := List.nodup_range
    have : l.countP (fun e => e.score = s ∧ e.tie = t) ≤ (List.range 25000).count s := by
      show List.countP _ (List.map _ _) ≤ _
      rw [List.countP_map, List.count]
      exact List.countP_mono_left fun i _ h => by
        simp only [Function.comp, decide_eq_true_eq] at h
        simp [h.1]
    exact Nat.lt_of_le_of_lt this (Nat.lt_of_le_of_lt (List.nodup_iff_count.1 hnd s) (by decide))
  obtain ⟨r, hr⟩ := C103_returns l hc
  refine ⟨l, r, hr, by simp [l], fun h => ?_⟩
  have := List.pairwise_iff_getElem.1 h 0 1 (by simp [l]) (by simp [l]) (by decide)
  simp only [l, List.getElem_map, List.getElem_range] at this
  exact this (by decide)

end RankDB.Props

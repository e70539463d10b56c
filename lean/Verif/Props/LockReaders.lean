import Verif.Props.Locks
import Verif.Proofs.LockReaders
/-
Property C53: the operations that can deadlock with others do not do so among themselves.
-/
namespace RankDB.Props
open Locks

theorem ends_of {X : Lock → Bool} {ops : List Op} (h1 : ∀ op ∈ ops, BalP X [] op.program)
    (h2 : ∀ op ∈ ops, Disciplined (eraseP X op.program)) {n : Nat} {st : State} (hr : Run n (start ops) st) :
    (¬ Deadlock st ∧ (Done st ∨ ∃ st', Step st st')) ∧ (Done st → st.flatMap held = []) := by
  obtain ⟨hp, hi⟩ := pre_run (X := X)
    (pre_init fun p hp => by
      obtain ⟨op, hop, rfl⟩ := List.mem_map.1 hp
      exact h1 op hop)
    (by
      rw [erase_init]
      refine inv_init fun p hp => ?_
      obtain ⟨p0, hp0, rfl⟩ := List.mem_map.1 hp
      obtain ⟨op, hop, rfl⟩ := List.mem_map.1 hp0
      exact h2 op hop) hr
  have key : Done st ∨ ∃ st', Step st st' := by
    by_cases hs : ∃ i j st', exec st i j = some st'
    · obtain ⟨i, j, st', he⟩ := hs
      exact .inr ⟨st', i, j, he⟩
    · refine .inl (stuck_done hp hi fun i j => ?_)
      cases he : exec st i j with
      | none => rfl
      | some st' => exact absurd ⟨i, j, st', he⟩ hs
  refine ⟨⟨fun hd => ?_, key⟩, done_free hp hi⟩
  rcases key with hk | ⟨st', hk⟩
  · exact hd.1 hk
  · exact hd.2 st' hk

/-- C53 for everything that changes no element: lookups and percentiles with any number of neighbours, ranges
from a rank or a score, checks, backups, cloning, rebuilding the index, unloading and deleting the list. Any
number of these calls, with any data, in any order of the steps, come to their end, and then no lock is held.
The deadlocks below need a call that changes elements, or `Stats` with elements. -/
theorem C53_no_deadlock_reading_partial (ops : List Op) (h : ∀ op ∈ ops, op.KeepsElements) :
    (∃ N, ∀ n st, Run n (start ops) st → n ≤ N) ∧
    ∀ n st, Run n (start ops) st →
      (¬ Deadlock st ∧ (Done st ∨ ∃ st', Step st st')) ∧ (Done st → st.flatMap held = []) := by
  refine ⟨⟨((start ops).map weight).sum, fun n st hr => ?_⟩, fun n st hr => ?_⟩
  · have := weight_run hr
    omega
  · exact ends_of (fun op hop => keeps_balP op (h op hop)) (fun op hop => keeps_disciplined op (h op hop)) hr

/-- C53 for reading a list that is in memory, now with `Stats` with the first and the last element. -/
theorem C53_no_deadlock_warm_partial (ops : List Op) (h : ∀ op ∈ ops, op.Warm) :
    (∃ N, ∀ n st, Run n (start ops) st → n ≤ N) ∧
    ∀ n st, Run n (start ops) st →
      (¬ Deadlock st ∧ (Done st ∨ ∃ st', Step st st')) ∧ (Done st → st.flatMap held = []) := by
  refine ⟨⟨((start ops).map weight).sum, fun n st hr => ?_⟩, fun n st hr => ?_⟩
  · have := weight_run hr
    omega
  · exact ends_of (fun op hop => warm_balP op (h op hop)) (fun op hop => warm_disciplined op (h op hop)) hr

/-- The lookups that block each other in `C53_deadlock_delete`, without the deletion and with a reindex. -/
example : ∀ op ∈ ([.getElements .read 1 [0] true [(0, [[1]])], .getElements .cached 1 [0] false [(1, [[0]])],
    .getRankScoreDesc .cached 0 [0, 1], .getPercentile .cached 1 [[0], [2]], .reindex .cached [0, 1],
    .releaseSegments] : List Op), op.KeepsElements := by
  intro op hop
  simp only [List.mem_cons, List.not_mem_nil, or_false] at hop
  rcases hop with rfl | rfl | rfl | rfl | rfl | rfl <;> trivial

/-- The call of `C53_deadlock_stats`, twice and with others. -/
example : ∀ op ∈ ([.stats .cached (some (.cached, [0], .cached, [1])), .stats .cached (some (.cached, [0], .cached, [1])),
    .getElements .cached 1 [0] false [(1, [[0]])], .backup .cached [0, 1]] : List Op), op.Warm := by
  intro op hop
  simp only [List.mem_cons, List.not_mem_nil, or_false] at hop
  rcases hop with rfl | rfl | rfl | rfl <;> simp [Op.Warm]

end RankDB.Props

import Verif.Proofs.LockErrors
import Verif.Props.Locks
/-
Property C83: what a call that fails does to the locks of a list, for any number of calls, all data they can meet,
every place at which they can fail and all schedules.
-/
namespace RankDB.Props
open Locks

/-- C83, the part that holds: any number of requests that go through or fail cleanly, in any order of the steps.
They all come to their end, none of them ever releases a lock it does not hold, and when they have returned all
locks are free. Missing: the failures that are not clean, for which it is false, see below. -/
theorem C83_failures_release_partial (rs : List Request) (h : ∀ r ∈ rs, r.Clean) :
    (∃ N, ∀ n st, Run n (startAll rs) st → n ≤ N) ∧
    ∀ n st, Run n (startAll rs) st →
      (Done st ∨ ∃ st', Step st st') ∧ ¬ Crash st ∧ (Done st → st.flatMap held = []) := by
  refine ⟨⟨((startAll rs).map weight).sum, fun n st hr => ?_⟩, fun n st hr => ?_⟩
  · have := weight_run hr
    omega
  · have hi : Inv st := inv_run (inv_init fun p hp => by
      obtain ⟨r, hr, rfl⟩ := List.mem_map.1 hp
      exact request_disciplined r (h r hr)) hr
    refine ⟨?_, inv_no_crash hi, fun hd => ?_⟩
    · by_cases hs : ∃ i j st', exec st i j = some st'
      · obtain ⟨i, j, st', he⟩ := hs
        exact .inr ⟨st', i, j, he⟩
      · refine .inl (stuck_finished hi fun i j => ?_).1
        cases he : exec st i j with
        | none => rfl
        | some st' => exact absurd ⟨i, j, st', he⟩ hs
    · rw [List.flatMap_eq_nil_iff]
      intro c hc
      obtain ⟨Sh, hok⟩ := hi.calls c hc
      exact finished_free hok (hd c hc)

/-- C83: the same for one of the requests: as soon as it has returned, with an error or not, it holds nothing, even
while the others go on. -/
theorem C83_returned_holds_nothing (rs : List Request) (h : ∀ r ∈ rs, r.Clean) (n : Nat) (st : State)
    (hr : Run n (startAll rs) st) (c : Call) (hc : c ∈ st) (hf : c.Finished) : held c = [] := by
  have hi : Inv st := inv_run (inv_init fun p hp => by
    obtain ⟨r, hr, rfl⟩ := List.mem_map.1 hp
    exact request_disciplined r (h r hr)) hr
  obtain ⟨Sh, hok⟩ := hi.calls c hc
  exact finished_free hok hf

/-- An update whose second index segment cannot be read, an insert that fails after the scores, a deletion with a
segment that cannot be read, a split with a merge that cannot be read, a backup that stops, a repair that fails
late, a load that cannot rebuild the index, and the saving of the catalogue are clean. -/
example : ∀ r ∈ ([.fails (.updateElements .cached true 1 [(0, true, [(1, true), (0, false)]), (1, false, [])]),
    .fails (.updateLate .read false 1 [(0, [(1, true)])] [(true, 0, false), (false, 2, true)] (some (1, [0])) 3),
    .fails (.insert .cached [(false, [(0, true), (1, false)])] 1),
    .fails (.deleteElements .cached 1 [0] false [(0, false)] [(0, true)] 6),
    .fails (.split .cached [.mergeFails 0, .plain (.split 1)] [(0, false)] 1 1 [.plain (.keep 0)] 2),
    .fails (.backup .cached [0, 1] 3), .fails (.repair .cached .read [0, 1] false [(true, [(0, false)])] 1 1 4),
    .fails (.load false [0, 1] 3), .fails (.loadUnsaved true [0, 1] 2), .saveLists, .done (.getRank .cached [0])]
    : List Request), r.Clean := by
  intro r h
  simp only [List.mem_cons, List.not_mem_nil, or_false] at h
  rcases h with rfl | rfl | rfl | rfl | rfl | rfl | rfl | rfl | rfl | rfl | rfl <;>
    simp [Request.Clean, Failure.Clean, Op.Simple]

/-- All calls have returned and which locks they hold. -/
private def rest (st : State) : Bool × List (Lock × Bool) :=
  (st.all fun c => c.main.prog.isEmpty && c.kids.all (·.prog.isEmpty), st.flatMap held)

private theorem rest_done {st : State} {hs : List (Lock × Bool)} (h : rest st = (true, hs)) : Done st ∧ st.flatMap held = hs := by
  simp only [rest, Prod.mk.injEq] at h
  obtain ⟨h1, h2⟩ := h
  refine ⟨fun c hc => ?_, h2⟩
  have := List.all_eq_true.1 h1 c hc
  simp only [Bool.and_eq_true, List.isEmpty_iff, List.all_eq_true] at this
  exact this

/-- The steps of one call after the other: `n` times its own, with its first goroutine first. -/
private def alone (n i : Nat) : State → State
  | st => (List.replicate n ()).foldl (fun st _ =>
      match exec st i 2, exec st i 1, exec st i 0 with
      | some st', _, _ => st'
      | none, some st', _ => st'
      | none, none, some st' => st'
      | none, none, none => st) st

private theorem alone_run (n i : Nat) (st : State) : ∃ m, Run m st (alone n i st) := by
  unfold alone
  induction n generalizing st with
  | zero => exact ⟨0, .refl _⟩
  | succ n ih =>
    rw [List.replicate_succ, List.foldl_cons]
    have one : ∃ m, Run m st (match exec st i 2, exec st i 1, exec st i 0 with
      | some st', _, _ => st'
      | none, some st', _ => st'
      | none, none, some st' => st'
      | none, none, none => st) := by
      split
      · rename_i h; exact ⟨1, .step (.refl _) ⟨i, 2, h⟩⟩
      · rename_i h; exact ⟨1, .step (.refl _) ⟨i, 1, h⟩⟩
      · rename_i h; exact ⟨1, .step (.refl _) ⟨i, 0, h⟩⟩
      · exact ⟨0, .refl _⟩
    obtain ⟨m1, h1⟩ := one
    obtain ⟨m2, h2⟩ := ih (match exec st i 2, exec st i 1, exec st i 0 with
      | some st', _, _ => st'
      | none, some st', _ => st'
      | none, none, some st' => st'
      | none, none, none => st)
    exact ⟨m1 + m2, run_trans h1 h2⟩

/-- An update that fails and an insert after it both return and leave nothing. -/
example : rest (alone 60 1 (alone 60 0 (startAll
    [.fails (.updateElements .cached true 1 [(0, true, [(1, true), (0, false)]), (1, false, [])]),
     .fails (.insert .cached [(false, [(0, true), (1, false)])] 1)]))) = (true, []) := by decide +kernel

/-! ### A lock that stays behind blocks everybody who needs it -/

/-- C83: a lock that a call has kept when it returned is never released: every later request that has to wait for it
never returns, whatever else is going on. -/
theorem C83_kept_lock_blocks (st : State) (i : Nat) (c : Call) (hi : st[i]? = some c) (hf : c.Finished) (l : Lock)
    (w : Bool) (hl : (l, w) ∈ held c) (later : List Request) (n : Nat) (st' : State)
    (hr : Run n (st ++ startAll later) st') (j : Nat) (r : Request) (hj : later[j]? = some r)
    (hn : Needs l w r.program = true) : ∃ d, st'[st.length + j]? = some d ∧ ¬ d.Finished := by
  have hi' : (st ++ startAll later)[i]? = some c := by
    rw [List.getElem?_append_left]
    · exact hi
    · rcases Nat.lt_or_ge i st.length with h | h
      · exact h
      · rw [List.getElem?_eq_none h] at hi; cases hi
  have hj' : (st ++ startAll later)[st.length + j]? = some ⟨.start r.program, [], []⟩ := by
    rw [List.getElem?_append_right (by omega)]
    simp [startAll, init, hj]
  obtain ⟨d, hd, hn'⟩ := (left_behind hr hi' hf).2 _ _ l w hj' hl ⟨by simp, .inl hn⟩
  exact ⟨d, hd, needs_unfinished hn'⟩

theorem request_at {rs : List Request} {j : Nat} {f : Failure} (h : rs[j]? = some (.fails f)) :
    (rs.map Request.program)[j]? = some f.program := by
  simp [h, Request.program]

theorem held_of_bal {rs : List Request} {n : Nat} {st : State} (hr : Run n (startAll rs) st) {j : Nat} {f : Failure}
    (hj : rs[j]? = some (.fails f)) {c : Call} (hc : st[j]? = some c) (hf : c.Finished) {x : Lock × Bool}
    (hb : bal x f.program = 1) : x ∈ held c := by
  have := finished_bal hr x (request_at hj) hc hf
  rw [hb] at this
  exact mem_held.2 (.inl (List.count_pos_iff.1 (by omega)))

/-- C83 fails for a split whose old segment cannot be saved: whatever else is going on, when the split has returned
with the error the new segment, which is in the list by then, is still locked. -/
theorem C83_split_keeps_segment (rs : List Request) (n : Nat) (st : State) (hr : Run n (startAll rs) st) (j : Nat)
    (how : Loading) (before : List SplitActE) (i : Nat) (hj : rs[j]? = some (.fails (.splitUnsaved how before i)))
    (hh : how ≠ .failed) (c : Call) (hc : st[j]? = some c) (hf : c.Finished) : (Lock.seg false (i + 1), true) ∈ held c := by
  refine held_of_bal hr hj hc hf ?_
  simp only [Failure.program, bal_withSegments hh, bal_append, bal_touch, bal_flatMap (f := splitActE false) fun _ _ => bal_splitActE, bal,
    unlock]
  simp [bal]

/-- C83 fails for a split of the index whose new segment cannot be saved: the old one stays locked. -/
theorem C83_index_split_keeps_segment (rs : List Request) (n : Nat) (st : State) (hr : Run n (startAll rs) st) (j : Nat)
    (how : Loading) (scores : List SplitActE) (upd : List (Nat × Bool)) (a b : Nat) (before : List SplitActE) (i : Nat)
    (hj : rs[j]? = some (.fails (.splitIndexUnsaved how scores upd a b before i)))
    (hh : how ≠ .failed) (c : Call) (hc : st[j]? = some c) (hf : c.Finished) : (Lock.seg true i, true) ∈ held c := by
  refine held_of_bal hr hj hc hf ?_
  simp only [Failure.program, bal_withSegments hh, bal_append, bal_touch, bal_peek, bal_writeParE,
    bal_flatMap (f := splitActE false) fun _ _ => bal_splitActE, bal_flatMap (f := splitActE true) fun _ _ => bal_splitActE, bal, unlock]
  simp [bal]

/-- C83 fails for a backup whose destination cannot be written: the table of segments stays locked for reading. -/
theorem C83_backup_keeps_table (rs : List Request) (n : Nat) (st : State) (hr : Run n (startAll rs) st) (j : Nat)
    (how : Loading) (hj : rs[j]? = some (.fails (.backupUnwritten how)))
    (hh : how ≠ .failed) (c : Call) (hc : st[j]? = some c) (hf : c.Finished) : (Lock.table false, false) ∈ held c := by
  refine held_of_bal hr hj hc hf ?_
  simp only [Failure.program, updater, bal_withSegments hh, bal_append, bal_touch, bal, unlock]
  simp [bal]

/-- C83 fails for filling a list whose new index cannot be stored: the list stays locked. -/
theorem C83_populate_keeps_list (rs : List Request) (n : Nat) (st : State) (hr : Run n (startAll rs) st) (j : Nat)
    (how : Loading) (hj : rs[j]? = some (.fails (.populateNoIndex how)))
    (hh : how ≠ .failed) (c : Call) (hc : st[j]? = some c) (hf : c.Finished) : (Lock.list, true) ∈ held c := by
  refine held_of_bal hr hj hc hf ?_
  simp only [Failure.program, bal_withSegments hh, bal_append, bal_touch, bal, newUnlock]
  simp

/-- C83 fails for repairing a list whose statistics cannot be read but whose segments can, as when the index is
damaged and nothing is in memory: the list and the table of segments stay locked. -/
theorem C83_repair_keeps_list (rs : List Request) (n : Nat) (st : State) (hr : Run n (startAll rs) st) (j : Nat)
    (how : Loading) (hj : rs[j]? = some (.fails (.repairPanics how)))
    (hh : how ≠ .failed) (c : Call) (hc : st[j]? = some c) (hf : c.Finished) :
    (Lock.list, true) ∈ held c ∧ (Lock.table false, true) ∈ held c := by
  have h1 : bal (.list, true) (reader .failed []) = 0 := rfl
  have h2 : bal (.table false, true) (reader .failed []) = 0 := rfl
  constructor <;> refine held_of_bal hr hj hc hf ?_ <;>
    simp only [Failure.program, bal_withSegments hh, bal_append, bal_touch, h1, h2, bal, unlock] <;> simp [bal]

/-- C83 fails for repairing a list whose new index cannot be stored: the list stays locked. -/
theorem C83_repair_no_index_keeps_list (rs : List Request) (n : Nat) (st : State) (hr : Run n (startAll rs) st) (j : Nat)
    (stat how : Loading) (segs : List Nat) (hj : rs[j]? = some (.fails (.repairNoIndex stat how segs)))
    (hs : stat ≠ .failed) (hh : how ≠ .failed) (c : Call) (hc : st[j]? = some c) (hf : c.Finished) :
    (Lock.list, true) ∈ held c := by
  refine held_of_bal hr hj hc hf ?_
  simp only [Failure.program, bal_withSegments hh, bal_withSegments hs, bal_append, bal_touch, bal_peek, bal, unlock, reader,
    repairRead, bal_readEach, newUnlock]
  simp [bal]

/-- The calls that keep a lock do return: a split that goes on after another split, a split of the index, a backup,
filling, and both repairs. -/
example : rest (alone 60 0 (startAll [.fails (.splitUnsaved .cached [.plain (.split 0)] 1)])) =
      (true, [(.seg false 2, true)]) ∧
    rest (alone 60 0 (startAll [.fails (.splitIndexUnsaved .cached [.plain (.split 0)] [(0, true)] 1 1 [] 0)])) =
      (true, [(.seg true 0, true)]) ∧
    rest (alone 60 0 (startAll [.fails (.backupUnwritten .cached)])) = (true, [(.table false, false)]) ∧
    rest (alone 60 0 (startAll [.fails (.populateNoIndex .cached)])) = (true, [(.list, true)]) ∧
    rest (alone 60 0 (startAll [.fails (.repairPanics (.rebuilt [0, 1]))])) = (true, [(.table false, true), (.list, true)]) ∧
    rest (alone 60 0 (startAll [.fails (.repairNoIndex .cached .cached [0, 1])])) = (true, [(.list, true)]) := by
  decide +kernel

/-- What somebody needs stays needed when more is put around it. -/
theorem needs_append_left {l : Lock} {w : Bool} {a b : List Instr} (h : Needs l w a = true) : Needs l w (a ++ b) = true := by
  unfold Needs at h ⊢
  rw [List.any_append, h]
  rfl
theorem needs_append_right {l : Lock} {w : Bool} {a b : List Instr} (h : Needs l w b = true) : Needs l w (a ++ b) = true := by
  unfold Needs at h ⊢
  rw [List.any_append, h, Bool.or_true]

theorem needs_withSegments {l : Lock} {w upd wr : Bool} {how : Loading} {body : List Instr} (hh : how ≠ .failed)
    (h : Needs l w body = true) : Needs l w (withSegments upd wr how body) = true := by
  cases how with
  | failed => exact absurd rfl hh
  | cached => exact needs_append_right (needs_append_right (a := [.act (.rel .loading true)]) h)
  | read => exact needs_append_right (needs_append_right (needs_append_right (a := [.act (.rel .loading true)]) h))
  | rebuilt segs => exact needs_append_right (needs_append_right (needs_append_right (a := [.act (.rel .loading true)]) h))

/-- C83: what that means for a split that failed. No later request for a range of the ranking that comes to the new
segment ever returns. -/
theorem C83_split_blocks_ranking (rs : List Request) (n : Nat) (st : State) (hr : Run n (startAll rs) st) (j : Nat)
    (how : Loading) (before : List SplitActE) (i : Nat) (hj : rs[j]? = some (.fails (.splitUnsaved how before i)))
    (hh : how ≠ .failed) (c : Call) (hc : st[j]? = some c) (hf : c.Finished)
    (later : List Request) (m : Nat) (st' : State) (hr' : Run m (st ++ startAll later) st')
    (k : Nat) (how' : Loading) (segs : List Nat) (hk : later[k]? = some (.done (.getRank how' segs)))
    (hh' : how' ≠ .failed) (hi : i + 1 ∈ segs) : ∃ d, st'[st.length + k]? = some d ∧ ¬ d.Finished := by
  refine C83_kept_lock_blocks st j c hc hf _ _ (C83_split_keeps_segment rs n st hr j how before i hj hh c hc hf) later m st'
    hr' k _ hk ?_
  refine needs_withSegments hh' (needs_append_left (needs_append_right ?_))
  simp only [Needs, readEach, List.any_flatMap, List.any_eq_true]
  exact ⟨i + 1, hi, _, List.mem_cons_self .., by simp [waitsFor]⟩

/-- C83: what that means for filling a list that failed, or for a repair that did. No later request that reads or
changes elements of the list ever returns, and the catalogue of lists can never be saved again. -/
theorem C83_kept_list_blocks (st : State) (j : Nat) (c : Call) (hc : st[j]? = some c) (hf : c.Finished)
    (hl : (Lock.list, true) ∈ held c) (later : List Request) (m : Nat) (st' : State)
    (hr' : Run m (st ++ startAll later) st') (k : Nat) (r : Request) (hk : later[k]? = some r)
    (hreq : r = .saveLists ∨ (∃ how segs, how ≠ .failed ∧ r = .done (.getRank how segs)) ∨
      (∃ how looks index missing found, how ≠ .failed ∧ r = .done (.getElements how looks index missing found)) ∨
      (∃ how rounds, how ≠ .failed ∧ r = .done (.insert how rounds)) ∨
      (∃ how missing looks kids dsts results, how ≠ .failed ∧
        r = .done (.updateElements how missing looks kids dsts results))) :
    ∃ d, st'[st.length + k]? = some d ∧ ¬ d.Finished := by
  refine C83_kept_lock_blocks st j c hc hf _ _ hl later m st' hr' k r hk ?_
  have hlist : Needs .list true (touch .list false) = true := rfl
  rcases hreq with rfl | ⟨how, segs, hh, rfl⟩ | ⟨how, looks, index, missing, found, hh, rfl⟩ | ⟨how, rounds, hh, rfl⟩ |
    ⟨how, missing, looks, kids, dsts, results, hh, rfl⟩
  · rfl
  · exact needs_withSegments hh (needs_append_left (needs_append_left (needs_append_left hlist)))
  · exact needs_withSegments hh (needs_append_left (needs_append_left hlist))
  · refine needs_withSegments hh (needs_append_left ?_)
    exact needs_append_left (needs_append_right (needs_append_left (needs_append_left hlist)))
  · refine needs_withSegments hh (needs_append_left ?_)
    show Needs _ _ (updateBody ..) = true
    unfold updateBody
    simp only [List.append_assoc]
    exact needs_append_left hlist

/-- C83: what that means for a backup that failed. No later insert that changes a segment ever returns. -/
theorem C83_backup_blocks_insert (rs : List Request) (n : Nat) (st : State) (hr : Run n (startAll rs) st) (j : Nat)
    (how : Loading) (hj : rs[j]? = some (.fails (.backupUnwritten how))) (hh : how ≠ .failed) (c : Call)
    (hc : st[j]? = some c) (hf : c.Finished) (later : List Request) (m : Nat) (st' : State)
    (hr' : Run m (st ++ startAll later) st') (k : Nat) (how' : Loading) (i : Nat) (is idx : List Nat)
    (rounds : List (List Nat × List Nat)) (hk : later[k]? = some (.done (.insert how' ((i :: is, idx) :: rounds))))
    (hh' : how' ≠ .failed) : ∃ d, st'[st.length + k]? = some d ∧ ¬ d.Finished := by
  refine C83_kept_lock_blocks st j c hc hf _ _ (C83_backup_keeps_table rs n st hr j how hj hh c hc hf) later m st'
    hr' k _ hk ?_
  refine needs_withSegments hh' (needs_append_left (needs_append_left (needs_append_left ?_)))
  simp [inserts, writeSegs, writeSeg, Needs, waitsFor]

/-- A read of the ranking after a split that failed is stuck half-way. -/
example : rest (alone 60 1 (alone 60 0 (startAll [.fails (.splitUnsaved .cached [] 0)]) ++
    startAll [.done (.getRank .cached [0, 1])])) = (false, [(.seg false 1, true), (.segments, false)]) := by decide +kernel

/-! ### Locks that are released twice -/

/-- C83 fails for a reindex whose segments cannot be saved: it never returns, it comes to releasing a lock it has
already released. -/
theorem C83_reindex_never_returns (rs : List Request) (n : Nat) (st : State) (hr : Run n (startAll rs) st) (j : Nat)
    (how : Loading) (segs : List Nat) (k : Nat) (hj : rs[j]? = some (.fails (.reindexUnsaved how segs k)))
    (hh : how ≠ .failed) (c : Call) (hc : st[j]? = some c) : ¬ c.Finished := by
  intro hf
  have := finished_bal hr (.segments, true) (request_at hj) hc hf
  simp only [Failure.program, bal_withSegments hh, bal_append, bal_rebuildPieces, bal_savePieces, bal, unlock] at this
  simp [bal] at this

/-- C83 fails for a call that changes elements and finds that the index cannot be read and that the new one cannot be
saved: the same. -/
theorem C83_load_never_returns (rs : List Request) (n : Nat) (st : State) (hr : Run n (startAll rs) st) (j : Nat)
    (segs : List Nat) (k : Nat) (hj : rs[j]? = some (.fails (.loadUnsaved false segs k)))
    (c : Call) (hc : st[j]? = some c) : ¬ c.Finished := by
  intro hf
  have := finished_bal hr (.segments, true) (request_at hj) hc hf
  simp only [Failure.program, loadStart, bal_append, bal_rebuildPieces, bal_savePieces, bal, unlock] at this
  simp [bal] at this

/-- Some call is about to release a lock that nobody holds. -/
private def fatalNow (st : State) : Bool :=
  st.any fun c =>
    match c.main.prog with
    | .act (.rel l _) :: _ => (st.flatMap held).all fun h => h.1 != l
    | _ => false

private theorem fatal_of_check {st : State} (h : fatalNow st = true) : Fatal st := by
  simp only [fatalNow, List.any_eq_true] at h
  obtain ⟨c, hc, h⟩ := h
  split at h
  · rename_i l w p hp
    refine ⟨c, hc, l, w, p, hp, fun w' hw' => ?_⟩
    have := List.all_eq_true.1 h _ hw'
    simp at this
  · cases h

/-- C83: in both cases the server is ended by the Go runtime, which happens when nobody else uses the list. -/
theorem C83_double_unlock_fatal :
    (∃ n st, Run n (startAll [.fails (.reindexUnsaved .cached [0, 1] 3)]) st ∧ Fatal st) ∧
    ∃ n st, Run n (startAll [.fails (.loadUnsaved false [0, 1] 3)]) st ∧ Fatal st := by
  constructor
  · obtain ⟨m, hm⟩ := alone_run 60 0 (startAll [.fails (.reindexUnsaved .cached [0, 1] 3)])
    exact ⟨m, _, hm, fatal_of_check (by decide +kernel)⟩
  · obtain ⟨m, hm⟩ := alone_run 60 0 (startAll [.fails (.loadUnsaved false [0, 1] 3)])
    exact ⟨m, _, hm, fatal_of_check (by decide +kernel)⟩

/-! A call that is said to fail, but in which nothing goes wrong, locks as the call that goes through. -/

/-- All segments can be read. -/
def allRead (is : List Nat) : List (Nat × Bool) := is.map fun i => (i, true)

/-- The inserts of all rounds with all segments readable. -/
def allRounds (rounds : List (List Nat × List Nat)) : List (Bool × List (Nat × Bool)) :=
  rounds.flatMap fun r => [(false, allRead r.1), (true, allRead r.2)]

private theorem stop_all {k : Nat} {ps : List (List Instr)} (h : ps.length ≤ k) : stop k ps = ps.flatten := by
  unfold stop
  rw [List.take_of_length_le h]

private theorem write_all (index : Bool) (is : List Nat) : (allRead is).map (writeSegE index) = is.map (writeSeg index) := by
  unfold allRead
  rw [List.map_map]
  rfl

private theorem rounds_all (rounds : List (List Nat × List Nat)) :
    ((allRounds rounds).map fun w => writeSegsE w.1 w.2).flatten = inserts rounds := by
  unfold allRounds inserts
  induction rounds with
  | nil => rfl
  | cons r rs ih =>
    rw [List.flatMap_cons, List.map_append, List.flatten_append, ih, List.flatMap_cons]
    simp only [List.map_cons, List.map_nil, List.flatten_cons, List.flatten_nil, List.append_nil, writeSegsE, writeSegs, write_all]

private theorem splits_all (index : Bool) (as : List SplitAct) :
    ((as.map SplitActE.plain).map (splitActE index)).flatten = as.flatMap (splitAct index) := by
  rw [List.map_map, List.flatMap]
  rfl

private theorem split_pieces (scores : List SplitAct) (upd : List Nat) (n m : Nat) (index : List SplitAct) :
    (splitPieces (scores.map .plain) (allRead upd) n m (index.map .plain)).flatten = splitBody scores upd n m index := by
  unfold splitPieces splitBody savePieces save writeParE
  simp only [List.flatten_append, List.flatten_cons, List.flatten_nil, List.append_nil, splits_all, write_all, List.append_assoc]

private theorem populate_pieces (empty : Bool) (rounds : List (List Nat × List Nat)) (n m : Nat) :
    (populatePieces empty (allRounds rounds) n m).flatten ++ newUnlock = populateBody empty rounds n m := by
  unfold populatePieces populateBody savePieces save newUnlock
  cases empty <;> simp only [List.flatten_append, List.flatten_cons, List.flatten_nil, List.append_nil, rounds_all, List.append_assoc,
    Bool.false_eq_true, if_true, if_false]

/-- C83: the locking of the calls that fail is the locking of the calls that go through, up to where they fail. Here
nothing fails. -/
theorem C83_same_locks (how stat : Loading) (k : Nat) :
    (∀ scores index, 5 ≤ k → (Failure.verifyElements how scores index k).program = (Op.verifyElements how scores index).program) ∧
    (∀ segs, 2 + segs.length ≤ k → (Failure.backup how segs k).program = (Op.backup how segs).program) ∧
    (∀ rounds, 2 * rounds.length + 4 ≤ k → (Failure.insert how (allRounds rounds) k).program = (Op.insert how rounds).program) ∧
    (∀ looks found missing scores index, 11 ≤ k →
      (Failure.deleteElements how looks found missing (allRead scores) (allRead index) k).program =
        (Op.deleteElements how looks found missing scores index).program) ∧
    (∀ scores upd n m index, scores.length + index.length + 8 ≤ k →
      (Failure.split how (scores.map .plain) (allRead upd) n m (index.map .plain) k).program =
        (Op.split how scores upd n m index).program) ∧
    (∀ empty rounds n m, 2 * rounds.length + 7 ≤ k →
      (Failure.populate how empty (allRounds rounds) n m k).program = (Op.populate how empty rounds n m).program) ∧
    (∀ segs empty rounds n m, 2 * rounds.length + 7 ≤ k →
      (Failure.repair stat how segs empty (allRounds rounds) n m k).program = (Op.repair stat how segs empty rounds n m).program) := by
  have hr : ∀ rounds, (allRounds rounds).length = 2 * rounds.length := by
    intro rounds
    unfold allRounds
    induction rounds with
    | nil => rfl
    | cons r rs ih => rw [List.flatMap_cons, List.length_append, ih]; simp; omega
  refine ⟨fun scores index h => ?_, fun segs h => ?_, fun rounds h => ?_, fun looks found missing scores index h => ?_,
    fun scores upd n m index h => ?_, fun empty rounds n m h => ?_, fun segs empty rounds n m h => ?_⟩
  · simp only [Failure.program, Op.program]
    rw [stop_all (by simpa using h)]
    simp only [List.flatten_cons, List.flatten_nil, List.append_nil, List.append_assoc]
  · simp only [Failure.program, Op.program]
    rw [stop_all (by simp; omega)]
    simp only [List.flatten_append, List.flatten_cons, List.flatten_nil, List.append_nil, List.append_assoc, readEach, List.flatMap]
  · simp only [Failure.program, Op.program]
    rw [stop_all (by simp [hr, savePieces]; omega)]
    simp only [List.flatten_append, List.flatten_cons, List.flatten_nil, List.append_nil, List.append_assoc, rounds_all, savePieces, save]
  · simp only [Failure.program, Op.program]
    rw [stop_all (by simpa [savePieces] using h)]
    simp only [List.flatten_append, List.flatten_cons, List.flatten_nil, List.append_nil, List.append_assoc, savePieces, save,
      writeParE, writeSegsE, writeSegs, write_all]
  · simp only [Failure.program, Op.program]
    rw [stop_all (by simp [splitPieces, savePieces]; omega), split_pieces]
  · simp only [Failure.program, Op.program]
    rw [stop_all (by cases empty <;> simp [populatePieces, savePieces, hr] <;> omega), populate_pieces]
  · simp only [Failure.program, Op.program]
    rw [stop_all (by cases empty <;> simp [populatePieces, savePieces, hr] <;> omega), List.append_assoc (repairRead segs), populate_pieces]
    simp only [repairRead, List.append_assoc]

/-- C83: the same for changes of elements, and the beginnings of the calls that fail in the middle. -/
theorem C83_same_start (how : Loading) (missing : Bool) (looks : Nat) (kids : List (Nat × List Nat)) (dsts : List (Bool × Nat))
    (k : Nat) (h : 4 ≤ k) (index segs : List Nat) (found : List (Nat × List (List Nat))) :
    (Failure.updateLate how missing looks (kids.map fun x => (x.1, allRead x.2)) (dsts.map fun d => (d.1, d.2, true)) none k).program =
      (Op.updateElements how missing looks kids dsts none).program ∧
    (Failure.updateElements how missing looks (kids.map fun x => (x.1, true, allRead x.2))).program =
      (Op.updateFailed how missing looks kids).program ∧
    (∃ rest, lookup looks index missing found = (lookupPieces looks index).flatten ++ rest) ∧
    rebuildIndex segs = (rebuildPieces segs).flatten ++ savePieces.flatten := by
  have hread : ∀ is, readable (allRead is) = is := by
    intro is
    unfold readable allRead
    induction is with
    | nil => rfl
    | cons i is ih => simpa using ih
  have hk1 : kidsIdx (kids.map fun x => (x.1, true, allRead x.2)) = kids.map (·.1) := by
    unfold kidsIdx
    rw [List.map_map]
    exact (congrArg readable (by simp [allRead, Function.comp_def])).trans (hread (kids.map (·.1)))
  have hk2 : kidsScores (kids.map fun x => (x.1, true, allRead x.2)) = kids.flatMap (·.2) := by
    unfold kidsScores
    rw [List.filter_eq_self.2 (by intro x hx; obtain ⟨y, -, rfl⟩ := List.mem_map.1 hx; rfl), List.flatMap_map]
    refine Eq.trans (congrArg readable ?_) (hread (kids.flatMap (·.2)))
    unfold allRead
    rw [List.map_flatMap]
  have hd : readable ((dsts.map fun d => (d.1, d.2, true)).map (·.2)) = dsts.map (·.2) := by
    rw [List.map_map]
    exact (congrArg readable (by simp [allRead, Function.comp_def])).trans (hread (dsts.map (·.2)))
  have hkid : ∀ x : Nat × List Nat, updateKidE x.1 true (allRead x.2) = updateKid x.1 x.2 := by
    intro x
    unfold updateKidE updateKid allRead
    rw [if_pos rfl, List.flatMap_map]
  have hstart : updateStart missing looks (kids.map fun x => (x.1, true, allRead x.2)) =
      touch .list false ++ ensureIdx false missing ++ peek true looks ++ [.par (kids.map fun k => updateKid k.1 k.2), .join] := by
    unfold updateStart
    rw [List.map_map]
    simp only [Function.comp_def, hkid]
  refine ⟨?_, ?_, ⟨ensureIdx false missing ++ peek false 2 ++ [.par (found.map fun p => findIn p.1 p.2), .join], ?_⟩, ?_⟩
  · simp only [Failure.program, Op.program]
    rw [stop_all (by simpa [savePieces] using h), List.map_map]
    have : ((fun x : Nat × List (Nat × Bool) => ((x.1, true, x.2) : KidE)) ∘ fun x : Nat × List Nat => (x.1, allRead x.2)) =
        fun x => (x.1, true, allRead x.2) := rfl
    rw [this]
    unfold updateMid updateBody
    rw [hstart, hk1, hk2, hd, List.flatMap_map, List.flatMap_map]
    simp only [List.flatten_append, List.flatten_cons, List.flatten_nil, List.append_nil, List.append_assoc, List.nil_append,
      savePieces, save]
  · simp only [Failure.program, Op.program]
    unfold updateFailE updateFail
    rw [hstart, hk1, hk2, List.map_map]
    rfl
  · unfold lookup lookupPieces
    simp only [List.flatten_cons, List.flatten_nil, List.append_nil, List.append_assoc]
  · unfold rebuildIndex rebuildPieces savePieces save
    simp only [List.flatten_cons, List.flatten_nil, List.append_nil, List.append_assoc]

/-- Nothing fails while two rounds are inserted, one segment is split and two are merged. -/
example : (Failure.insert .read (allRounds [([0, 1], [2]), ([3], [])]) 8).program = (Op.insert .read [([0, 1], [2]), ([3], [])]).program ∧
    (Failure.split .cached ([.split 0, .merge 1].map .plain) (allRead [3]) 2 1 ([.keep 0].map .plain) 11).program =
      (Op.split .cached [.split 0, .merge 1] [3] 2 1 [.keep 0]).program :=
  ⟨(C83_same_locks .read .cached 8).2.2.1 _ (by decide), (C83_same_locks .cached .cached 11).2.2.2.2.1 _ _ _ _ _ (by decide)⟩

end RankDB.Props

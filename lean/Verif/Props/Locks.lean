import Verif.Proofs.LockOps
/-
Property C53: deadlocks of concurrent calls on a list, for any number of calls, all data they can meet and
all schedules.
-/
namespace RankDB.Props
open Locks

/-- A schedule: the calls and goroutines that take the steps. -/
def sched : List (Nat × Nat) → State → Option State
  | [], st => some st
  | (i, j) :: s, st => (exec st i j).bind (sched s)

theorem run_trans {n m : Nat} {a b c : State} (h1 : Run n a b) (h2 : Run m b c) : Run (n + m) a c := by
  induction h2 with
  | refl => exact h1
  | step _ hs ih => exact .step (ih h1) hs

theorem sched_run {s : List (Nat × Nat)} {st st' : State} (h : sched s st = some st') : ∃ n, Run n st st' := by
  induction s generalizing st with
  | nil => cases h; exact ⟨0, .refl _⟩
  | cons x s ih =>
    obtain ⟨i, j⟩ := x
    cases he : exec st i j with
    | none => simp [sched, he] at h
    | some st₁ =>
      rw [sched, he] at h
      obtain ⟨n, hn⟩ := ih h
      exact ⟨_, run_trans (.step (.refl _) ⟨i, j, he⟩) hn⟩

/-- A check for deadlocks. -/
def isDeadlock (st : State) : Bool :=
  !(st.all fun c => c.main.prog.isEmpty && c.kids.all (·.prog.isEmpty)) &&
  (List.range st.length).all fun i =>
    match st[i]? with
    | none => true
    | some c => (List.range (c.kids.length + 1)).all fun j => (exec st i j).isNone

theorem deadlock_of_check {st : State} (h : isDeadlock st = true) : Deadlock st := by
  simp only [isDeadlock, Bool.and_eq_true, Bool.not_eq_true', List.all_eq_true, List.mem_range] at h
  obtain ⟨h1, h2⟩ := h
  refine ⟨fun hd => ?_, ?_⟩
  · rw [List.all_eq_false] at h1
    obtain ⟨c, hc, h1⟩ := h1
    obtain ⟨h3, h4⟩ := hd c hc
    apply h1
    rw [Bool.and_eq_true, List.all_eq_true]
    exact ⟨by rw [h3]; rfl, fun k hk => by rw [h4 k hk]; rfl⟩
  · rintro st' ⟨i, j, he⟩
    by_cases hi : i < st.length
    · have h3 := h2 i hi
      rw [List.getElem?_eq_getElem hi] at h3
      dsimp only at h3
      rw [List.all_eq_true] at h3
      by_cases hj : j < (st[i]).kids.length + 1
      · have := h3 j (List.mem_range.2 hj)
        rw [he] at this
        cases this
      · unfold exec at he
        rw [List.getElem?_eq_getElem hi] at he
        dsimp only at he
        cases j with
        | zero => omega
        | succ j =>
          dsimp only at he
          unfold stepKid at he
          rw [List.getElem?_eq_none (by omega)] at he
          cases he
    · unfold exec at he
      rw [List.getElem?_eq_none (by omega)] at he
      cases he

/-! ### C53 -/

/-- C53, the part that holds: any number of calls of the simple operations, with any data, in any order of the
steps. The calls come to their end: as long as some call has not returned, some goroutine can go on, and the
number of steps is bounded. In the end no lock is held. Missing: the operations that are not simple, for which
it is false, see below. -/
theorem C53_no_deadlock_partial (ops : List Op) (h : ∀ op ∈ ops, op.Simple) :
    (∃ N, ∀ n st, Run n (start ops) st → n ≤ N) ∧
    ∀ n st, Run n (start ops) st → ¬ Deadlock st ∧ (Done st ∨ ∃ st', Step st st') := by
  refine ⟨⟨((start ops).map weight).sum, fun n st hr => ?_⟩, fun n st hr => ?_⟩
  · have := weight_run hr
    omega
  · have hi : Inv st := inv_run (inv_init fun p hp => by
      obtain ⟨op, hop, rfl⟩ := List.mem_map.1 hp
      exact simple_disciplined op (h op hop)) hr
    have key : Done st ∨ ∃ st', Step st st' := by
      by_cases hs : ∃ i j st', exec st i j = some st'
      · obtain ⟨i, j, st', he⟩ := hs
        exact .inr ⟨st', i, j, he⟩
      · refine .inl (stuck_finished hi fun i j => ?_).1
        cases he : exec st i j with
        | none => rfl
        | some st' => exact absurd ⟨i, j, st', he⟩ hs
    refine ⟨fun hd => ?_, key⟩
    rcases key with hk | ⟨st', hk⟩
    · exact hd.1 hk
    · exact hd.2 st' hk

/-- C53: when the calls have returned, all locks are free. -/
theorem C53_all_released (ops : List Op) (h : ∀ op ∈ ops, op.Simple) (n : Nat) (st : State)
    (hr : Run n (start ops) st) (hd : Done st) : st.flatMap held = [] := by
  have hi : Inv st := inv_run (inv_init fun p hp => by
    obtain ⟨op, hop, rfl⟩ := List.mem_map.1 hp
    exact simple_disciplined op (h op hop)) hr
  rw [List.flatMap_eq_nil_iff]
  intro c hc
  obtain ⟨Sh, hok⟩ := hi.calls c hc
  exact finished_free hok (hd c hc)

/-- C53: what the locks are for. A lock that a call holds for writing is held by no other call. A call that
holds a segment for writing is the one with the update lock, so that there is at most one. A call that holds a
segment or a table of segments has the segments of the list, so that nobody else replaces them. -/
theorem C53_exclusive (ops : List Op) (h : ∀ op ∈ ops, op.Simple) (n : Nat) (st : State)
    (hr : Run n (start ops) st) :
    (∀ (i j : Nat) c d, st[i]? = some c → st[j]? = some d → i ≠ j → ∀ l w, (l, true) ∈ held c → (l, w) ∉ held d) ∧
    (∀ c ∈ st, ∀ b i, (Lock.seg b i, true) ∈ held c → (Lock.update, true) ∈ held c) ∧
    (∀ c ∈ st, ∀ b i w, (Lock.seg b i, w) ∈ held c ∨ (Lock.table b, w) ∈ held c →
      ∃ w', (Lock.segments, w') ∈ held c) := by
  have hinv : Inv st := inv_run (inv_init fun p hp => by
    obtain ⟨op, hop, rfl⟩ := List.mem_map.1 hp
    exact simple_disciplined op (h op hop)) hr
  refine ⟨fun i j c d hi hj hij l w hw hw' => ?_, fun c hc b i hw => ?_, fun c hc b i w hw => ?_⟩
  · obtain ⟨a, b, rfl, rfl⟩ := split_at hi
    have hcount := hinv.excl l (List.mem_flatMap.2 ⟨c, by simp, hw⟩)
    have hpos : ∀ (x : Held) (w : Bool), (l, w) ∈ x → 0 < x.countP (fun h => h.1 == l) :=
      fun x w hx => List.countP_pos_iff.2 ⟨_, hx, by simp⟩
    rw [List.flatMap_append, List.flatMap_cons, List.countP_append, List.countP_append] at hcount
    have hc1 := hpos _ _ hw
    have hd : d ∈ a ∨ d ∈ b := by
      by_cases hlt : j < a.length
      · rw [List.getElem?_append_left hlt] at hj
        exact .inl (List.mem_of_getElem? hj)
      · rw [List.getElem?_append_right (by omega)] at hj
        cases hk : j - a.length with
        | zero => omega
        | succ k =>
          rw [hk] at hj
          exact .inr (List.mem_of_getElem? hj)
    rcases hd with hd | hd
    · have := hpos (a.flatMap held) w (List.mem_flatMap.2 ⟨d, hd, hw'⟩)
      omega
    · have := hpos (b.flatMap held) w (List.mem_flatMap.2 ⟨d, hd, hw'⟩)
      omega
  · obtain ⟨Sh, hok⟩ := hinv.calls c hc
    exact own_held (hok.segW _ rfl hw)
  · obtain ⟨Sh, hok⟩ := hinv.calls c hc
    rcases hw with hw | hw <;> obtain ⟨w', h'⟩ := hok.inner _ hw rfl <;> exact ⟨w', own_held h'⟩

/-- Steps of one goroutine. -/
private def times (n : Nat) (x : Nat × Nat) : List (Nat × Nat) := List.replicate n x

/-- An update, an insert with reading from storage, a lookup, a percentile, a deletion and a split at the same
time are simple. -/
example : ∀ op ∈ ([.updateElements .cached false 1 [(0, [1, 0])] [(true, 0)] (some (1, [0], false, [(0, [[1], [1]])])),
    .insert .read [([0, 1], [0])], .getElements .cached 1 [0] true [(0, [[], []]), (1, [])],
    .getPercentile .cached 0 [[], []], .deleteElements .cached 1 [0] false [0, 1] [0],
    .split .cached [.merge 0, .split 1] [0] 1 1 [.keep 0], .repair .read (.rebuilt [0, 1]) [0, 1] false [([0], [0])] 1 1]
    : List Op), op.Simple := by
  intro op h
  simp only [List.mem_cons, List.not_mem_nil, or_false] at h
  rcases h with rfl | rfl | rfl | rfl | rfl | rfl | rfl <;> simp [Op.Simple, NoRadius]

/-- Two of them at the start have not returned and can go on. -/
example : ¬ Done (start [.insert .cached [([0], [0])], .split .cached [.split 0] [0] 1 1 []]) ∧
    ∃ st', Step (start [.insert .cached [([0], [0])], .split .cached [.split 0] [0] 1 1 []]) st' := by
  refine ⟨fun h => ?_, _, 0, 0, rfl⟩
  have := (h _ (List.mem_cons_self ..)).1
  cases this

/-- They do return: an insert with its goroutines and the reading of a range after it. -/
example : ∃ st, sched (times 9 (0, 0) ++ times 6 (0, 1) ++ times 4 (0, 0) ++ times 6 (0, 1) ++ times 15 (0, 0) ++
      times 13 (1, 0)) (start [.insert .cached [([0], [0])], .getRank .cached [0, 1]]) = some st ∧
    (st.all fun c => c.main.prog.isEmpty && c.kids.all (·.prog.isEmpty)) = true := by
  decide +kernel

/-- C53 fails for lookups with neighbours. A lookup of an element with its neighbours holds a segment and waits
for the next; an update of two elements holds the next and waits for the one before. Neither ever returns. -/
theorem C53_deadlock_radius : ∃ n st, Run n (start [.getElements .cached 1 [0] false [(0, [[1]])], .updateElements .cached false 1 [(0, [1, 0])] [] none]) st ∧ Deadlock st := by
  have h : ∃ st, sched (times 13 (0, 0) ++ times 2 (0, 1) ++ times 13 (1, 0) ++ times 5 (1, 1) ++ times 8 (0, 0) ++ times 1 (0, 1) ++ times 4 (1, 1))
      (start [.getElements .cached 1 [0] false [(0, [[1]])], .updateElements .cached false 1 [(0, [1, 0])] [] none]) = some st ∧ isDeadlock st = true := by
    decide +kernel
  obtain ⟨st, h1, h2⟩ := h
  obtain ⟨n, hn⟩ := sched_run h1
  exact ⟨n, st, hn, deadlock_of_check h2⟩

/-- C53 fails for a percentile with neighbours in the same way. -/
theorem C53_deadlock_percentile : ∃ n st, Run n (start [.getPercentile .cached 0 [[1]], .updateElements .cached false 1 [(0, [1, 0])] [] none]) st ∧ Deadlock st := by
  have h : ∃ st, sched (times 13 (1, 0) ++ times 5 (1, 1) ++ times 9 (0, 0) ++ times 4 (1, 1))
      (start [.getPercentile .cached 0 [[1]], .updateElements .cached false 1 [(0, [1, 0])] [] none]) = some st ∧ isDeadlock st = true := by
    decide +kernel
  obtain ⟨st, h1, h2⟩ := h
  obtain ⟨n, hn⟩ := sched_run h1
  exact ⟨n, st, hn, deadlock_of_check h2⟩

/-- C53 fails for two lookups with neighbours in opposite directions and a deletion: each lookup holds one segment
for reading and wants the other, and the deletion waits for both, which keeps the lookups out. -/
theorem C53_deadlock_delete : ∃ n st, Run n (start [.getElements .cached 1 [0] false [(0, [[1]])], .getElements .cached 1 [0] false [(1, [[0]])],
        .deleteElements .cached 1 [0] false [0, 1] []]) st ∧ Deadlock st := by
  have h : ∃ st, sched (times 13 (0, 0) ++ times 2 (0, 1) ++ times 8 (0, 0) ++ times 1 (0, 1) ++ times 13 (1, 0) ++ times 2 (1, 1) ++ times 8 (1, 0) ++ times 1 (1, 1) ++ times 13 (2, 0) ++ times 2 (2, 1) ++ times 6 (2, 0) ++ times 1 (2, 1) ++ times 1 (2, 2))
      (start [.getElements .cached 1 [0] false [(0, [[1]])], .getElements .cached 1 [0] false [(1, [[0]])],
        .deleteElements .cached 1 [0] false [0, 1] []]) = some st ∧ isDeadlock st = true := by
    decide +kernel
  obtain ⟨st, h1, h2⟩ := h
  obtain ⟨n, hn⟩ := sched_run h1
  exact ⟨n, st, hn, deadlock_of_check h2⟩

/-- C53 fails for the range from a score: it holds the segment of the score for reading and locks it again for
reading; if an insert announces itself in between, both wait for each other. -/
theorem C53_deadlock_score_rank : ∃ n st, Run n (start [.getRankScoreDesc .cached 0 [0], .insert .cached [([0], [0])]]) st ∧ Deadlock st := by
  have h : ∃ st, sched (times 9 (0, 0) ++ times 9 (1, 0) ++ times 1 (1, 1))
      (start [.getRankScoreDesc .cached 0 [0], .insert .cached [([0], [0])]]) = some st ∧ isDeadlock st = true := by
    decide +kernel
  obtain ⟨st, h1, h2⟩ := h
  obtain ⟨n, hn⟩ := sched_run h1
  exact ⟨n, st, hn, deadlock_of_check h2⟩

/-- C53 fails for the statistics with the first and last element: they hold the segments and load them again,
while a reindex has begun to load them and waits until nobody holds them. -/
theorem C53_deadlock_stats : ∃ n st, Run n (start [.stats .cached (some (.cached, [0], .cached, [0])), .reindex .cached [0]]) st ∧ Deadlock st := by
  have h : ∃ st, sched (times 4 (0, 0) ++ times 3 (1, 0) ++ times 2 (0, 0) ++ times 2 (1, 0))
      (start [.stats .cached (some (.cached, [0], .cached, [0])), .reindex .cached [0]]) = some st ∧ isDeadlock st = true := by
    decide +kernel
  obtain ⟨st, h1, h2⟩ := h
  obtain ⟨n, hn⟩ := sched_run h1
  exact ⟨n, st, hn, deadlock_of_check h2⟩

/-- C53 fails for filling a list whose segments could not be loaded: it locks the list and then waits for the
update lock, which an insert holds that waits for the list. -/
theorem C53_deadlock_populate : ∃ n st, Run n (start [.populateUnloaded [] 1 1, .insert .read [([0], [0])]]) st ∧ Deadlock st := by
  have h : ∃ st, sched (times 8 (0, 0) ++ times 1 (1, 0) ++ times 5 (0, 0) ++ times 13 (1, 0) ++ times 6 (1, 1) ++ times 4 (1, 0) ++ times 6 (1, 1) ++ times 1 (1, 0))
      (start [.populateUnloaded [] 1 1, .insert .read [([0], [0])]]) = some st ∧ isDeadlock st = true := by
    decide +kernel
  obtain ⟨st, h1, h2⟩ := h
  obtain ⟨n, hn⟩ := sched_run h1
  exact ⟨n, st, hn, deadlock_of_check h2⟩

end RankDB.Props

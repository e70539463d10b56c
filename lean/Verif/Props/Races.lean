import Verif.Proofs.RaceOps
import Verif.Props.Locks
/-
Property C106: data races between concurrent calls on a list, for any number of calls, all data they can meet and all
schedules. Two calls race when both are about to make an access, in any of their goroutines, to memory they share, and
one of the accesses writes: nothing orders the two.
-/
namespace RankDB.Props
open Races

/-! ### The locks are those of C53 -/

theorem races_exec {st st' : RState} {i j : Nat} (h : exec st i j = some st') :
    plain st' = plain st ∨ Locks.exec (plain st) i j = some (plain st') := by
  unfold exec at h
  cases hc : st[i]? with
  | none => rw [hc] at h; cases h
  | some c =>
    rw [hc] at h
    dsimp only at h
    have hpc : (plain st)[i]? = some c.plain := by unfold plain; rw [List.getElem?_map, hc]; rfl
    have hset : ∀ d : RCall, plain (st.set i d) = (plain st).set i d.plain := fun d => by
      unfold plain; rw [List.map_set]
    have hsame : (plain st).set i c.plain = plain st := by
      have hlt := (List.getElem?_eq_some_iff.1 hpc).1
      rw [← (List.getElem?_eq_some_iff.1 hpc).2, List.set_getElem_self hlt]
    obtain ⟨c', hc', rfl⟩ := Option.map_eq_some_iff.1 h
    have key : c'.plain = c.plain ∨ (match j with
     | 0 => Locks.stepMain ((plain st).flatMap Locks.held) ((plain st).flatMap Locks.pending) c.plain
     | j + 1 => Locks.stepKid ((plain st).flatMap Locks.held) ((plain st).flatMap Locks.pending) c.plain j) =
        some c'.plain := by
      cases j with
      | zero =>
        dsimp only at hc' ⊢
        obtain ⟨⟨own, pend, prog⟩, kids, sh⟩ := c
        cases prog with
        | nil => cases hc'
        | cons a p =>
          cases a with
          | use x => cases hc'; exact .inl rfl
          | act a =>
            right
            obtain ⟨r, hr, rfl⟩ := Option.map_eq_some_iff.1 hc'
            have h1 := congrArg (Option.map fun r : List (Locks.Lock × Bool) × Bool × Bool × List Locks.Lock =>
              ({ main := ⟨r.1, r.2.1, if r.2.2.1 then strip p else .act a :: strip p⟩,
                 kids := (RCall.plain ⟨⟨own, pend, p⟩, kids, sh⟩).kids, shared := r.2.2.2 } : Locks.Call)) hr
            refine Eq.trans h1 (congrArg some ?_)
            dsimp only [RCall.plain]
            cases r.2.2.1 <;> rfl
          | unload l => cases hc'; exact .inr rfl
          | par qs =>
            cases hc'
            right
            simp only [RCall.plain, strip, Locks.stepMain, List.filterMap_cons, stripInstr, List.map_append, List.map_map]
            rfl
          | join =>
            unfold stepMain at hc'
            dsimp only at hc'
            split at hc'
            · next hall =>
              cases hc'
              right
              unfold RCall.plain strip
              simp only [Locks.stepMain, List.filterMap_cons, stripInstr]
              rw [if_pos]
              · rfl
              · rw [List.all_eq_true] at hall ⊢
                intro k hk
                obtain ⟨k', hk', rfl⟩ := List.mem_map.1 hk
                have := hall k' hk'
                rw [List.isEmpty_iff] at this
                show (k'.prog.filterMap stripAct).isEmpty = true
                rw [this]
                rfl
            · cases hc'
      | succ j =>
        dsimp only at hc' ⊢
        unfold stepKid at hc'
        cases hk : c.kids[j]? with
        | none => rw [hk] at hc'; cases hc'
        | some k =>
          rw [hk] at hc'
          dsimp only at hc'
          have hpk : c.plain.kids[j]? = some ⟨k.own, k.pend, k.prog.filterMap stripAct⟩ := by
            show (c.kids.map _)[j]? = _
            rw [List.getElem?_map, hk]; rfl
          obtain ⟨own, pend, prog⟩ := k
          cases prog with
          | nil => cases hc'
          | cons a p =>
            cases a with
            | use x =>
              cases hc'
              left
              unfold RCall.plain
              dsimp only
              rw [List.map_set]
              congr 1
              have hlt := (List.getElem?_eq_some_iff.1 hpk).1
              have := (List.getElem?_eq_some_iff.1 hpk).2
              show c.plain.kids.set j ⟨own, pend, p.filterMap stripAct⟩ = c.plain.kids
              have h2 : (⟨own, pend, p.filterMap stripAct⟩ : Locks.Gor Locks.Act) = c.plain.kids[j] := this.symm
              rw [h2, List.set_getElem_self hlt]
            | act a =>
              right
              obtain ⟨r, hr, rfl⟩ := Option.map_eq_some_iff.1 hc'
              unfold Locks.stepKid
              rw [hpk]
              dsimp only [List.filterMap_cons, stripAct]
              have hr' : Locks.act ((plain st).flatMap Locks.held) ((plain st).flatMap Locks.pending) c.plain.shared own pend a
                = some r := hr
              rw [hr']
              unfold RCall.plain
              dsimp only [Option.map_some]
              rw [List.map_set]
              congr 3
              cases r.2.2.1 <;> rfl
    rcases key with hk | hk
    · left; rw [hset, hk, hsame]
    · right
      unfold Locks.exec
      rw [hpc, hset]
      cases j with
      | zero => exact congrArg (Option.map ((plain st).set i)) hk
      | succ j => exact congrArg (Option.map ((plain st).set i)) hk

/-- C106: the programs are those of C53 with the accesses added: without the accesses they are the same, and what the
locks go through in a run with accesses is a run of C53. -/
theorem C106_same_locks (ops : List Locks.Op) :
    (∀ op ∈ ops, strip (program op) = op.program) ∧
    ∀ st, Run (start ops) st → ∃ n, Locks.Run n (Locks.start ops) (plain st) := by
  refine ⟨fun op _ => strip_program op, fun st h => ?_⟩
  generalize hs : start ops = st₀ at h
  induction h with
  | refl =>
    subst hs
    refine ⟨0, ?_⟩
    have : plain (start ops) = Locks.start ops := by
      unfold plain start Locks.start Locks.init
      rw [List.map_map, List.map_map]
      refine List.map_congr_left fun op _ => ?_
      show Locks.Call.mk ⟨[], false, strip (program op)⟩ [] [] = _
      rw [strip_program]
      rfl
    rw [this]
    exact .refl _
  | step _ i j he ih =>
    obtain ⟨n, hn⟩ := ih
    rcases races_exec he with h | h
    · exact ⟨n, h ▸ hn⟩
    · exact ⟨n + 1, .step hn ⟨i, j, h⟩⟩

/-! ### C106 -/

/-- C106, the part that holds: any number of calls, with any data, in any order of the steps. When two calls are about
to make accesses to memory they share, both accesses read; or one reads and the other writes the value that is there
already. Missing: the second case, which is a race for Go's memory model, and the operations that are not guarded. For
both it is false, see below. -/
theorem C106_no_race_partial (ops : List Locks.Op) (h : ∀ op ∈ ops, Guarded op) (st : RState) (hr : Run (start ops) st)
    (i j : Nat) (c d : RCall) (hij : i ≠ j) (hc : st[i]? = some c) (hd : st[j]? = some d) (x y : Access)
    (hx : About c x) (hy : About d y) (ho : x.cell.overlaps y.cell = true) :
    (x.kind = .read ∧ y.kind = .read) ∨ (x.kind = .rewrite ∧ y.kind = .read) ∨ (x.kind = .read ∧ y.kind = .rewrite) := by
  have hi : Inv (start ops) := by
    have := inv_init (ps := ops.map program) fun p hp => by
      obtain ⟨op, hop, rfl⟩ := List.mem_map.1 hp
      exact guarded_safe op (h op hop)
    rw [List.map_map] at this
    exact this
  exact inv_harmless (inv_run hi hr) hij hc hd hx hy ho

/-- C106: while a guarded call is about to change memory, no other is about to read or write it. -/
theorem C106_change_alone (ops : List Locks.Op) (h : ∀ op ∈ ops, Guarded op) (st : RState) (hr : Run (start ops) st)
    (i j : Nat) (c d : RCall) (hij : i ≠ j) (hc : st[i]? = some c) (hd : st[j]? = some d) (x y : Access)
    (hx : About c x) (hw : x.kind = .write) (hy : About d y) : x.cell.overlaps y.cell = false := by
  cases ho : x.cell.overlaps y.cell with
  | false => rfl
  | true =>
    rcases C106_no_race_partial ops h st hr i j c d hij hc hd x y hx hy ho with h | h | h <;>
      (rw [hw] at h; cases h.1)

/-! ### Races -/

/-- A schedule: the calls and goroutines that take the steps. -/
def raceSched : List (Nat × Nat) → RState → Option RState
  | [], st => some st
  | (i, j) :: s, st => (exec st i j).bind (raceSched s)

theorem races_trans {a b c : RState} (h1 : Run a b) (h2 : Run b c) : Run a c := by
  induction h2 with
  | refl => exact h1
  | step _ i j hs ih => exact .step ih i j hs

theorem raceSched_run {s : List (Nat × Nat)} {st st' : RState} (h : raceSched s st = some st') : Run st st' := by
  induction s generalizing st with
  | nil => cases h; exact .refl _
  | cons x s ih =>
    obtain ⟨i, j⟩ := x
    cases he : exec st i j with
    | none => simp [raceSched, he] at h
    | some st₁ =>
      rw [raceSched, he] at h
      exact races_trans (.step (.refl _) i j he) (ih h)

/-- The accesses a call is about to make. -/
def aboutList (c : RCall) : List Access :=
  (match c.main.prog.head? with | some (.use x) => [x] | _ => []) ++
  c.kids.filterMap fun k => match k.prog.head? with | some (.use x) => some x | _ => none

theorem about_of_list {c : RCall} {x : Access} (h : x ∈ aboutList c) : About c x := by
  unfold aboutList at h
  rcases List.mem_append.1 h with h | h
  · left
    split at h
    · next y hy =>
      rw [List.mem_singleton.1 h]; exact hy
    · cases h
  · right
    obtain ⟨k, hk, he⟩ := List.mem_filterMap.1 h
    refine ⟨k, hk, ?_⟩
    split at he
    · next y hy => cases he; exact hy
    · cases he

/-- Both accesses are about to be made by the first two calls. -/
def racing (st : RState) (x y : Access) : Bool :=
  match st with
  | [c, d] => (aboutList c).contains x && (aboutList d).contains y
  | _ => false

/-- Two calls come to a point at which nothing orders the accesses `x` of the first and `y` of the second. -/
def Unordered (ops : List Locks.Op) (x y : Access) : Prop :=
  ∃ (st : RState) (c d : RCall), Run (start ops) st ∧ st = [c, d] ∧ About c x ∧ About d y ∧
    x.cell.overlaps y.cell = true

theorem unordered_of_sched {ops : List Locks.Op} {x y : Access} (s : List (Nat × Nat))
    (h : ((raceSched s (start ops)).any fun st => racing st x y) = true) (ho : x.cell.overlaps y.cell = true) :
    Unordered ops x y := by
  cases hs : raceSched s (start ops) with
  | none => rw [hs] at h; cases h
  | some st =>
    rw [hs] at h
    have h' : racing st x y = true := h
    unfold racing at h'
    split at h'
    · next c d =>
      rw [Bool.and_eq_true, List.contains_iff_mem, List.contains_iff_mem] at h'
      exact ⟨_, c, d, raceSched_run hs, rfl, about_of_list h'.1, about_of_list h'.2, ho⟩
    · cases h'

/-- C106 is false of `GetRank` during `Insert`: the segment is read, to find its lock, before it is locked
(segments.go:199-200), while the call that has it writes it back (segments.go:284). The value that is written is the
one that is there, but for Go the two accesses are a data race. -/
theorem C106_race_segment : ∃ ops : List Locks.Op, (∀ op ∈ ops, Guarded op) ∧
    Unordered ops ⟨.read, .bounds false (some 0)⟩ ⟨.rewrite, .bounds false (some 0)⟩ :=
  ⟨[.getRank .cached [0], .insert .cached [([0], [])]], by simp [Guarded],
    unordered_of_sched (List.replicate 13 (0, 0) ++ List.replicate 12 (1, 0) ++ List.replicate 8 (1, 1))
      (by decide +kernel) rfl⟩

/-- C106 is false of `Verify` during `Insert`: the time of the last change of a segment is read after the table has been
unlocked (segments.go:672-677), while the insert changes it. -/
theorem C106_race_verify : ∃ ops : List Locks.Op, (∀ op ∈ ops, (∃ n m, op = .verify .cached n m) ∨ Guarded op) ∧
    Unordered ops ⟨.read, .count false none⟩ ⟨.write, .count false (some 0)⟩ :=
  ⟨[.verify .cached 1 1, .insert .cached [([0], [])]], by
      intro op hop
      rcases List.mem_cons.1 hop with rfl | hop
      · exact .inl ⟨1, 1, rfl⟩
      · rw [List.mem_singleton.1 hop]; exact .inr trivial,
    unordered_of_sched (List.replicate 15 (0, 0) ++ List.replicate 12 (1, 0) ++ List.replicate 7 (1, 1))
      (by decide +kernel) rfl⟩

/-- C106 is false of `Populate` and of `Repair` when the segments could not be loaded and another call, `Len`, now
loads them: the names (list.go:890-892, with the lock of the list, which the call that loads does not take) and the
segments (list.go:1799, without a lock) are read while they are written (list.go:394, 241-259). -/
theorem C106_race_unloaded :
    Unordered [.populateUnloaded [] 0 0, .len .read] ⟨.read, .names⟩ ⟨.write, .names⟩ ∧
    Unordered [.repairCleared .failed 0 0, .len .read] ⟨.read, .head⟩ ⟨.write, .head⟩ :=
  ⟨unordered_of_sched (List.replicate 12 (0, 0) ++ List.replicate 9 (1, 0)) (by decide +kernel) rfl,
   unordered_of_sched (List.replicate 23 (0, 0) ++ List.replicate 8 (1, 0)) (by decide +kernel) rfl⟩

/-- The hypotheses of `C106_no_race_partial` are met by calls that are about to make accesses to the same memory: two
that read a segment at the same time, one of them in a goroutine it has started. -/
example : (∀ op ∈ [Locks.Op.getRank .cached [0], .verifyElements .cached [0] []], Guarded op) ∧
    Unordered [.getRank .cached [0], .verifyElements .cached [0] []] ⟨.read, .elems false (some 0)⟩
      ⟨.read, .elems false (some 0)⟩ :=
  ⟨by simp [Guarded], unordered_of_sched (List.replicate 16 (0, 0) ++ List.replicate 17 (1, 0) ++ List.replicate 4 (1, 1)) (by decide +kernel) rfl⟩

/-- The hypotheses of `C106_change_alone` are met: an insert is about to change the elements of a segment while
another call is about to read those of the next one. -/
example : (∀ op ∈ [Locks.Op.getRank .cached [1], .insert .cached [([0], [])]], Guarded op) ∧
    ((raceSched (List.replicate 16 (0, 0) ++ List.replicate 11 (1, 0) ++ List.replicate 4 (1, 1))
      (start [.getRank .cached [1], .insert .cached [([0], [])]])).any fun st =>
        racing st ⟨.read, .elems false (some 1)⟩ ⟨.write, .elems false (some 0)⟩) = true :=
  ⟨by simp [Guarded], by decide +kernel⟩

end RankDB.Props

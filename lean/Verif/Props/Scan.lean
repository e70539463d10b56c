import Verif.Proofs.Scan
import Verif.Props.Concurrent
import Verif.Props.Queries
/-
Property C76: cloning a list, and reading a range of it, while updates of the same list are in progress.

As in C54, `hist` are the lists in effect from the beginning of the call to its end.
-/
namespace RankDB.Props
open Concurrent
open Segments Spec Lists

/-- The call has read all it wants. -/
def ScanDone (w : World) (s : Scan) : Prop := w.cur.scores.segs.length ≤ s.pos ∨ s.left = some 0

theorem idle_ok {st : ListState} (h : ListOK st) : WorldOK (World.idle st) := start_ok h

theorem scan_start_ok {st : ListState} (h : ListOK st) {w : World} {s : Option Scan}
    (hr : ScanRun (World.idle st, none) (w, s)) : WorldOK w ∧ ∀ k, s = some k → ∃ p r, ScanOK w k p r :=
  scan_ok hr (idle_ok h) (fun _ hx => nomatch hx)

/-! ### The theorems -/

/-- Whatever updates do meanwhile: a clone or range has only elements that were in the list at some time during
the call, as they were then, and they are strictly in the order of the ranking. -/
theorem C76_old_or_new {st : ListState} (h : ListOK st) {w : World} {s : Scan}
    (hr : ScanRun (World.idle st, none) (w, some s)) :
    s.res.Pairwise RanksAbove ∧ ∀ e ∈ s.res, ∃ t ∈ w.hist, e ∈ t.content := by
  obtain ⟨h1, h2⟩ := scan_start_ok h hr
  obtain ⟨p, r, hok⟩ := h2 s rfl
  refine ⟨List.Pairwise.sublist hok.res (glued_strict (fun a ha => (h1.hist a (hok.hist a ha)).1) fun a ha b hb =>
    (h1.hist a (hok.hist a ha)).2.trans (h1.hist b (hok.hist b hb)).2.symm), fun e he => ?_⟩
  obtain ⟨i, t, h3, h4⟩ := mem_glued (hok.res.subset he)
  obtain ⟨g, h5, h6⟩ := elemsAt_mem h4
  exact ⟨t, hok.hist t (List.mem_of_getElem? h3), mem_allElems.2 ⟨g, List.mem_of_getElem? h5, h6⟩⟩

/-- An element that is not changed while a list is cloned is in the clone, exactly once and as it is, no matter
how other elements are updated. Missing for C76: an element that is updated meanwhile can be in the clone twice or
not at all, see `C76_clone_twice` and `C76_clone_missing`. -/
theorem C76_clone_unchanged_partial {st : ListState} (h : ListOK st) {w : World} {s : Scan}
    (hr : ScanRun (World.idle st, none) (w, some s)) (hc : s.left = none) (hd : ScanDone w s) {e : Element}
    (hall : ∀ t ∈ w.hist, e ∈ t.content) : s.res.filter (fun x => x.id == e.id) = [e] := by
  obtain ⟨h1, h2⟩ := scan_start_ok h hr
  obtain ⟨p, r, hok⟩ := h2 s rfl
  obtain ⟨rfl, hres⟩ := hok.all hc
  have hlen : r.length = w.cur.scores.segs.length := by
    have := hok.pos (by rw [hc]; nofun)
    have := hok.bound
    rcases hd with hd | hd
    · omega
    · rw [hc] at hd; cases hd
  -- every list has the element in the same position
  have hpos : ∃ i, i < w.cur.scores.segs.length ∧ ∀ t ∈ w.hist, e ∈ elemsAt t.scores.segs i := by
    obtain ⟨g, hg, heg⟩ := mem_allElems.1 (hall _ (logical_mem h1))
    have hlog := h1.hist _ (logical_mem h1)
    obtain ⟨i, hi⟩ := List.mem_iff_getElem?.1 hg
    refine ⟨i, ?_, fun t ht => ?_⟩
    · rw [← hlog.2.1.length]
      exact (List.getElem?_eq_some_iff.1 hi).1
    · have hokt := h1.hist t ht
      rcases sameRanges_getElem? (hlog.2.trans hokt.2.symm).1 i with ⟨h, _⟩ | ⟨a, b, h5, h6, h7⟩
      · rw [h] at hi; cases hi
      rw [hi] at h5
      cases h5
      obtain ⟨g2, hg2, heg2⟩ := mem_allElems.1 (hall t ht)
      have hb : InRange b e := (h7.inRange e).1 (hlog.1.scores.inRange g hg e heg)
      have := tiles_unique hokt.1.scores.tiles (List.mem_of_getElem? h6) hg2 hb (hokt.1.scores.inRange g2 hg2 e heg2)
      subst this
      unfold elemsAt
      rw [h6]
      exact heg2
  obtain ⟨i, hi, hmem⟩ := hpos
  have hin : e ∈ s.res := by
    rw [hres]
    obtain ⟨t, ht⟩ : ∃ t, r[i]? = some t := ⟨_, List.getElem?_eq_getElem (by omega)⟩
    exact glued_mem ht (by rw [Nat.zero_add]; exact hmem t (hok.hist t (List.mem_of_getElem? ht)))
  -- and every element with the ID is it
  obtain ⟨hstrict, hsrc⟩ := C76_old_or_new h hr
  have hsame : ∀ x ∈ s.res, x.id = e.id → x = e := by
    intro x hx hid
    obtain ⟨t, ht, hxt⟩ := hsrc x hx
    exact (h1.hist t ht).1.scores.distinct.eq_of_id hxt (hall t ht) hid
  have hf : ∀ x ∈ s.res.filter (fun x => x.id == e.id), x = e := by
    intro x hx
    rw [List.mem_filter] at hx
    exact hsame x hx.1 (by simpa using hx.2)
  have hp := hstrict.sublist (List.filter_sublist (p := fun x => x.id == e.id))
  have hin' : e ∈ s.res.filter (fun x => x.id == e.id) := List.mem_filter.2 ⟨hin, by simp⟩
  cases hfl : s.res.filter (fun x => x.id == e.id) with
  | nil => rw [hfl] at hin'; cases hin'
  | cons a l =>
    rw [hfl] at hf hp
    cases hf a (by simp)
    cases l with
    | nil => rfl
    | cons b l =>
      cases hf b (by simp)
      exact (ranksAbove_irrefl _ ((List.pairwise_cons.1 hp).1 _ (by simp))).elim

theorem idle_scan {st : ListState} (h : ListOK st) {s0 s : Scan} {w : World} (hr : ScanRun (World.idle st, some s0) (w, some s))
    (hd : ScanDone w s) (hq : w.hist = [st]) : s.res = Scan.rest st.scores.segs s0 := by
  obtain ⟨⟨s', h1, h2⟩, hw⟩ := quiet_scan (st := st) hr (idle_ok h) rfl rfl hq
  cases h1
  have hlen : w.cur.scores.segs.length = st.scores.segs.length :=
    (hw.hist st (by rw [hq]; simp)).2.1.length.symm
  rw [← h2, rest_done]
  rwa [← hlen]

/-- If no update changes the list while it is cloned, the clone has exactly its elements, whatever an update locks
meanwhile. -/
theorem C76_clone_quiet {st : ListState} (h : ListOK st) {w : World} {s : Scan}
    (hr : ScanRun (World.idle st, some .clone) (w, some s)) (hd : ScanDone w s) (hq : w.hist = [st]) :
    s.res = ranking st.content := by
  rw [idle_scan h hr hd hq]
  exact h.scores.ranking.symm

/-- If no update changes the list meanwhile, a range from the top is the one of the ranking. -/
theorem C76_top_quiet {st : ListState} (h : ListOK st) {w : World} {s0 s : Scan} {offset n : Nat}
    (h0 : Scan.fromTop (World.idle st) offset n = some s0)
    (hr : ScanRun (World.idle st, some s0) (w, some s)) (hd : ScanDone w s) (hq : w.hist = [st]) :
    offset < st.content.length ∧ s.res = ((ranking st.content).drop offset).take n := by
  rw [idle_scan h hr hd hq]
  obtain ⟨p, h1, rfl⟩ := Option.map_eq_some_iff.1 h0
  have : getRankTop st offset n = some (Scan.rest st.scores.segs ⟨p.1, p.2, some n, []⟩) := by
    unfold getRankTop
    have h1' : segIdxTop st.scores.segs 0 offset = some p := h1
    rw [h1']
    rfl
  rw [C22_rank_top st offset n h] at this
  split at this
  · rw [show ranking st.content = st.content from h.scores.ranking]
    exact ⟨‹_›, (Option.some.inj this).symm⟩
  · cases this

/-- If no update changes the list meanwhile, a range from the bottom is the one of the ranking. -/
theorem C76_bottom_quiet {st : ListState} (h : ListOK st) {w : World} {s0 s : Scan} {offset n : Nat}
    (h0 : Scan.fromBottom (World.idle st) offset n = some s0)
    (hr : ScanRun (World.idle st, some s0) (w, some s)) (hd : ScanDone w s) (hq : w.hist = [st]) :
    offset < st.content.length ∧ s.res = ((ranking st.content).drop (st.content.length - 1 - offset)).take n := by
  rw [idle_scan h hr hd hq]
  obtain ⟨p, h1, rfl⟩ := Option.map_eq_some_iff.1 h0
  have : getRankBottom st offset n = some (Scan.rest st.scores.segs ⟨p.1, p.2, some n, []⟩) := by
    unfold getRankBottom
    have h1' : segIdxBottom st.scores.segs offset = some p := h1
    rw [h1']
    rfl
  rw [C23_rank_bottom st offset n h] at this
  split at this
  · rw [show ranking st.content = st.content from h.scores.ranking]
    exact ⟨‹_›, (Option.some.inj this).symm⟩
  · cases this

/-! ### Schedules -/

/-- The choices of a schedule. -/
inductive ScanAct
  | update (a : Act)
  | clone
  | fromTop (offset n : Nat)
  | fromBottom (offset n : Nat)
  | read

/-- The step, if it is possible. -/
def scanAct : ScanAct → World × Option Scan → Option (World × Option Scan)
  | .update a, (w, s) =>
    match act a (w, none) with
    | some (w', none) => some (w', s)
    | _ => none
  | .clone, (w, none) => some ({ w with hist := w.hist.take 1 }, some .clone)
  | .fromTop o n, (w, none) => (Scan.fromTop w o n).map fun s => ({ w with hist := w.hist.take 1 }, some s)
  | .fromBottom o n, (w, none) => (Scan.fromBottom w o n).map fun s => ({ w with hist := w.hist.take 1 }, some s)
  | .read, (w, some s) =>
    if s.pos < w.cur.scores.segs.length ∧ s.left ≠ some 0 then (seeScores w s.pos).map fun l => (w, some (s.read l)) else none
  | _, _ => none

theorem scanAct_step {a : ScanAct} {x y : World × Option Scan} (h : scanAct a x = some y) : ScanStep x y := by
  unfold scanAct at h
  split at h
  · split at h
    · cases h; exact .update (act_step ‹_›)
    · cases h
  · cases h; exact .clone
  · obtain ⟨s, hs, rfl⟩ := Option.map_eq_some_iff.1 h
    exact .fromTop _ _ hs
  · obtain ⟨s, hs, rfl⟩ := Option.map_eq_some_iff.1 h
    exact .fromBottom _ _ hs
  · split at h
    · obtain ⟨l, hl, rfl⟩ := Option.map_eq_some_iff.1 h
      exact .read ‹_› hl
    · cases h
  · cases h

def scanActs : List ScanAct → World × Option Scan → Option (World × Option Scan)
  | [], x => some x
  | a :: as, x => (scanAct a x).bind (scanActs as)

theorem scanActs_run : ∀ {as : List ScanAct} {z x y : World × Option Scan}, ScanRun z x → scanActs as x = some y →
    ScanRun z y
  | [], _, _, _, hr, h => by cases h; exact hr
  | a :: as, _, x, _, hr, h => by
    cases ha : scanAct a x with
    | none => simp [scanActs, ha] at h
    | some x' =>
      rw [scanActs, ha] at h
      exact scanActs_run (.step hr (scanAct_step ha)) h

/-- What a schedule leads to. -/
def scanAfter (as : List ScanAct) (x : World × Option Scan) (p : World → Scan → Bool) : Bool :=
  match scanActs as x with
  | some (w, some s) => (decide (w.cur.scores.segs.length ≤ s.pos ∨ s.left = some 0)) && p w s
  | _ => false

theorem scanAfter_run {as : List ScanAct} {x : World × Option Scan} {p : World → Scan → Bool}
    (h : scanAfter as x p = true) : ∃ w s, ScanRun x (w, some s) ∧ ScanDone w s ∧ p w s = true := by
  unfold scanAfter at h
  split at h
  · rename_i w s hr
    simp only [Bool.and_eq_true, decide_eq_true_eq] at h
    exact ⟨w, s, scanActs_run (.refl _) hr, h.1, h.2⟩
  · cases h

def scanUpdate (e : Element) : List ScanAct := (updateActs e).map .update

/-- An element that is moved down while the list is cloned can be in the clone twice: once as it was and once as
it is. Then two elements of the clone have the same ID. -/
theorem C76_clone_twice : ∃ st w s, ListOK st ∧ ScanRun (World.idle st, none) (w, some s) ∧ s.left = none ∧ ScanDone w s ∧
    (s.res.filter fun e => e.id == 6).map (·.score) = [90, 1] ∧ ¬ DistinctIDs s.res := by
  obtain ⟨w, s, h1, h2, h3⟩ := scanAfter_run
    (as := [.clone, .read] ++ scanUpdate ⟨1, 6, [], 0, 0⟩ ++ [.read, .read]) (x := (World.idle exList, none))
    (p := fun _ s => s.left.isNone && (s.res.filter fun e => e.id == 6).map (·.score) == [90, 1] &&
      !decide (DistinctIDs s.res))
    (by decide +kernel)
  simp only [Bool.and_eq_true, beq_iff_eq, Option.isNone_iff_eq_none, Bool.not_eq_true', decide_eq_false_iff_not] at h3
  exact ⟨_, w, s, exList_ok, h1, h3.1.1, h2, h3.1.2, h3.2⟩

/-- An element that is moved up while the list is cloned can be missing in the clone, though it is in the list
before and after. -/
theorem C76_clone_missing : ∃ st w s, ListOK st ∧ ScanRun (World.idle st, none) (w, some s) ∧ s.left = none ∧ ScanDone w s ∧
    (∀ t ∈ w.hist, ∃ e ∈ t.content, e.id = 4) ∧ ∀ e ∈ s.res, e.id ≠ 4 := by
  obtain ⟨w, s, h1, h2, h3⟩ := scanAfter_run
    (as := [.clone, .read] ++ scanUpdate ⟨60, 4, [], 0, 0⟩ ++ [.read, .read]) (x := (World.idle exList, none))
    (p := fun w s => s.left.isNone && w.hist.all (fun t => t.content.any (·.id == 4)) && s.res.all (·.id != 4))
    (by decide +kernel)
  simp only [Bool.and_eq_true, beq_iff_eq, Option.isNone_iff_eq_none, List.all_eq_true, List.any_eq_true, bne_iff_ne] at h3
  exact ⟨_, w, s, exList_ok, h1, h3.1.1, h2, h3.1.2, h3.2⟩

/-- The same happens to a range: the list has an element once at any time, and one answer of `GetRankTop` shows it
twice. -/
theorem C76_range_twice : ∃ st w s, ListOK st ∧
    ScanRun (World.idle st, none) (w, some s) ∧ ScanDone w s ∧ s.left ≠ none ∧
    (s.res.filter fun e => e.id == 6).map (·.score) = [90, 1] := by
  obtain ⟨w, s, h1, h2, h3⟩ := scanAfter_run
    (as := [.fromTop 0 20, .read] ++ scanUpdate ⟨1, 6, [], 0, 0⟩ ++ [.read, .read]) (x := (World.idle exList, none))
    (p := fun _ s => s.left.isSome && (s.res.filter fun e => e.id == 6).map (·.score) == [90, 1])
    (by decide +kernel)
  simp only [Bool.and_eq_true, beq_iff_eq] at h3
  refine ⟨_, w, s, exList_ok, h1, h2, fun h => ?_, h3.2⟩
  rw [h] at h3
  exact absurd h3.1 (by simp)

/-- The theorems apply to calls during which the list changes. -/
example : ∃ w s, ScanRun (World.idle exList, none) (w, some s) ∧ s.left = none ∧ ScanDone w s ∧ w.hist.length = 2 ∧
    (∀ t ∈ w.hist, ⟨20, 5, [], 0, 7⟩ ∈ t.content) ∧ s.res.map (·.id) = [6, 3, 1, 2, 9, 5, 8, 7, 6, 4] := by
  obtain ⟨w, s, h1, h2, h3⟩ := scanAfter_run
    (as := [.clone, .read] ++ scanUpdate ⟨12, 6, [], 0, 0⟩ ++ [.read, .read]) (x := (World.idle exList, none))
    (p := fun w s => s.left.isNone && w.hist.length == 2 && decide (∀ t ∈ w.hist, (⟨20, 5, [], 0, 7⟩ : Element) ∈ t.content) &&
      s.res.map (·.id) == [6, 3, 1, 2, 9, 5, 8, 7, 6, 4])
    (by decide +kernel)
  simp only [Bool.and_eq_true, beq_iff_eq, Option.isNone_iff_eq_none, decide_eq_true_eq] at h3
  exact ⟨w, s, h1, h3.1.1.1, h2, h3.1.1.2, h3.1.2, h3.2⟩

/-- And to calls that are not disturbed, though an update has begun and locked a segment that was read already. -/
example : ∃ s0 w s, Scan.fromTop (World.idle exList) 2 4 = some s0 ∧ ScanRun (World.idle exList, some s0) (w, some s) ∧
    ScanDone w s ∧ w.hist = [exList] ∧ s.res.map (·.id) = [1, 2, 9, 5] := by
  have hs : ∃ s0, Scan.fromTop (World.idle exList) 2 4 = some s0 ∧ s0 = ⟨0, 2, some 4, []⟩ := by decide +kernel
  obtain ⟨s0, h0, rfl⟩ := hs
  obtain ⟨w, s, h1, h2, h3⟩ := scanAfter_run
    (as := [.read, .update (.begin 200 [⟨60, 4, [], 0, 0⟩]), .update (.lockScores 0), .read])
    (x := (World.idle exList, some ⟨0, 2, some 4, []⟩))
    (p := fun w s => decide (w.hist = [exList]) && s.res.map (·.id) == [1, 2, 9, 5])
    (by decide +kernel)
  simp only [Bool.and_eq_true, beq_iff_eq, decide_eq_true_eq] at h3
  exact ⟨_, w, s, h0, h1, h2, h3.1, h3.2⟩

end RankDB.Props

import Verif.Proofs.Near
import Verif.Props.Concurrent
/-
Property C95: a lookup with neighbours (`GetElements` with a radius) while updates of the same list are in progress.
-/
namespace RankDB.Props
open Concurrent
open Segments Spec Lists

/-- A list that is not in use. -/
def nearStart (st : ListState) : Near := ⟨⟨st, .idle, [st]⟩, none, []⟩

/-- A lookup that has just begun. -/
def nearCall (st : ListState) (ids : List Nat) : Near := ⟨⟨st, .idle, [st]⟩, some (Look.start ⟨st, .idle, [st]⟩ ids), []⟩

theorem near_start_all {st : ListState} (h : ListOK st) (radius : Nat) : NearAll radius (nearStart st) :=
  ⟨start_ok h, nofun⟩

theorem near_call_all {st : ListState} (h : ListOK st) (radius : Nat) (ids : List Nat) : NearAll radius (nearCall st ids) :=
  ⟨start_ok h, nofun⟩

/-! ### The theorems -/

/-- Whatever updates do meanwhile: a lookup that returns has found only requested elements, each at most once. The
neighbours below of each are exactly those right below it in one list in effect during the lookup, and it is in that
list as it was found; the neighbours above are exactly those right above it in one list in effect. -/
theorem C95_neighbours {st : ListState} (h : ListOK st) {radius : Nat} {n : Near} (hr : NearRun radius (nearStart st) n)
    {ids : List Nat} (hret : n.Returned ids) (hload : n.Loaded) (hid : ∀ v ∈ ids, v < 2 ^ 64) :
    (n.result.map (·.elem.id)).Nodup ∧ ∀ r ∈ n.result, r.elem.id ∈ ids ∧
      (∃ s ∈ n.w.hist, r.elem ∈ s.content ∧ r.below = rightBelow s.content r.elem radius) ∧
      ∃ s ∈ n.w.hist, r.elem ∈ s.content ∧ r.above = rightAbove s.content r.elem radius := by
  obtain ⟨h1, h2⟩ := near_run hr (near_start_all h radius)
  obtain ⟨k, k1, k2, k3, k4⟩ := near_result h1 hret
  rw [k1] at h2
  obtain ⟨c1, c2⟩ := C54_old_or_new h (k := k) h2 k2 (by rw [k3]; exact hid)
  rw [k4] at c1 c2
  refine ⟨by simpa [Function.comp_def, strip] using c1, fun r hr => ⟨?_, ?_⟩⟩
  · rw [← k3]
    exact (c2 (strip r) (List.mem_map.2 ⟨r, hr, rfl⟩)).1
  · obtain ⟨g, hg, hr⟩ := List.mem_flatMap.1 hr
    obtain ⟨⟨s, a1, a2, -, a4⟩, t, b1, b2, -, b4⟩ := (h1.gos g hg).1.res r hr
    rw [(h1.gos g hg).2.2] at a4 b4
    exact ⟨⟨s, a1, a2, a4 (hload g hg)⟩, t, b1, b2, b4 (hload g hg)⟩

/-- If segments cannot be loaded while neighbours are collected, those furthest away can be missing; the others are
right. -/
theorem C95_failed_load {st : ListState} (h : ListOK st) {radius : Nat} {n : Near} (hr : NearRun radius (nearStart st) n)
    {r : Ranked} (hin : r ∈ n.result) :
    (∃ s ∈ n.w.hist, r.elem ∈ s.content ∧ r.below <+: rightBelow s.content r.elem radius) ∧
      ∃ s ∈ n.w.hist, r.elem ∈ s.content ∧ r.above <+: rightAbove s.content r.elem radius := by
  obtain ⟨h1, -⟩ := near_run hr (near_start_all h radius)
  obtain ⟨g, hg, hr⟩ := List.mem_flatMap.1 hin
  obtain ⟨⟨s, a1, a2, a3, -⟩, t, b1, b2, b3, -⟩ := (h1.gos g hg).1.res r hr
  rw [(h1.gos g hg).2.2] at a3 b3
  exact ⟨⟨s, a1, a2, a3⟩, t, b1, b2, b3⟩

/-- An element that is not changed meanwhile is found as it is, no matter how other elements are updated. -/
theorem C95_unchanged {st : ListState} (h : ListOK st) {radius : Nat} {n : Near} (hr : NearRun radius (nearStart st) n)
    {ids : List Nat} (hret : n.Returned ids) (hid : ∀ v ∈ ids, v < 2 ^ 64) {e : Element} (hin : e.id ∈ ids)
    (hall : ∀ s ∈ n.w.hist, e ∈ s.content) : ∃ r ∈ n.result, r.elem = e := by
  obtain ⟨h1, h2⟩ := near_run hr (near_start_all h radius)
  obtain ⟨k, k1, k2, k3, k4⟩ := near_result h1 hret
  rw [k1] at h2
  obtain ⟨r, r1, r2⟩ := C54_unchanged h (k := k) h2 k2 (by rw [k3]; exact hid) (by rw [k3]; exact hin) hall
  rw [k4] at r1
  obtain ⟨x, x1, rfl⟩ := List.mem_map.1 r1
  exact ⟨x, x1, r2⟩

/-- If no update changes the list during the lookup, the result is the correct one: every requested element of the
list, with its true ranks and its true neighbours, however the goroutines are scheduled and whatever an update locks
meanwhile. Missing for C95: with a change, the neighbours above and below can be those of different lists, see
`C95_both_sides` and `C95_neither_side`. -/
theorem C95_no_change_partial {st : ListState} (h : ListOK st) {radius : Nat} {ids : List Nat} {n : Near}
    (hr : NearRun radius (nearCall st ids) n) (hret : n.Returned ids) (hload : n.Loaded) (hid : ∀ v ∈ ids, v < 2 ^ 64)
    (hq : n.w.hist = [st]) :
    (n.result.map (·.elem.id)).Nodup ∧
    (∀ r ∈ n.result, r.elem.id ∈ ids ∧ r.elem ∈ st.content ∧ r.fromTop = rankFromTop st.content r.elem ∧
      r.fromBottom = rankFromBottom st.content r.elem ∧ r.above = rightAbove st.content r.elem radius ∧
      r.below = rightBelow st.content r.elem radius) ∧
    ∀ e ∈ st.content, e.id ∈ ids → ∃ r ∈ n.result, r.elem = e := by
  obtain ⟨h1, h2⟩ := near_run hr (near_call_all h radius ids)
  obtain ⟨k, k1, k2, k3, k4⟩ := near_result h1 hret
  rw [k1] at h2
  obtain ⟨c1, c2, c3⟩ := C54_no_change h (ids := ids) (k := k) h2 k2 hid hq
  rw [k4] at c1 c2 c3
  refine ⟨by simpa [Function.comp_def, strip] using c1, fun r hr => ?_, fun e he hi => ?_⟩
  · obtain ⟨d1, d2, d3, d4⟩ := c2 (strip r) (List.mem_map.2 ⟨r, hr, rfl⟩)
    obtain ⟨g, hg, hr⟩ := List.mem_flatMap.1 hr
    obtain ⟨⟨s, a1, a2, -, a4⟩, t, b1, b2, -, b4⟩ := (h1.gos g hg).1.res r hr
    rw [(h1.gos g hg).2.2] at a4 b4
    rw [hq, List.mem_singleton] at a1 b1
    subst a1
    subst b1
    exact ⟨d1, d2, d3, d4, b4 (hload g hg), a4 (hload g hg)⟩
  · obtain ⟨r, r1, r2⟩ := c3 e he hi
    obtain ⟨x, x1, rfl⟩ := List.mem_map.1 r1
    exact ⟨x, x1, r2⟩

/-! ### Schedules -/

/-- The choices of a schedule. -/
inductive NearAct
  | world (a : Act)
  | call (ids : List Nat)
  | readIndex (n : Nat)
  | offsets
  | read (n : Nat)
  /-- Goroutine `n` goes on: it takes the next ID, or ends the collection on a side. -/
  | next (n : Nat)
  /-- It loads a further segment. -/
  | load (n : Nat)
  /-- It fails to load a further segment. -/
  | fail (n : Nat)

/-- The next ID or the end of a side. -/
def goroNext (w : World) (g : Goro) : Option Goro :=
  match g.way with
  | .idle =>
    match g.ids with
    | [] => none
    | id :: ids =>
      match Elements.findIdx g.elems id with
      | none => some { g with ids := ids }
      | some e => some { g with ids := ids, way := .below e [] }
  | .below e seen =>
    if (belowOf g.elems e g.radius seen).length = g.radius ∨ g.seg + 1 + seen.length = w.cur.scores.segs.length then
      some { g with way := .above e (belowOf g.elems e g.radius seen) [] }
    else none
  | .above e b seen =>
    if (aboveOf g.elems e g.radius seen).length = g.radius ∨ seen.length = g.seg then
      some { g with way := .idle, res := g.res ++ [g.result e (aboveOf g.elems e g.radius seen) b] }
    else none

/-- A further segment. -/
def goroLoad (w : World) (g : Goro) : Option Goro :=
  match g.way with
  | .idle => none
  | .below e seen =>
    if (belowOf g.elems e g.radius seen).length < g.radius ∧ g.seg + 1 + seen.length < w.cur.scores.segs.length then
      (seeScores w (g.seg + 1 + seen.length)).map fun l => { g with way := .below e (seen ++ [l]) }
    else none
  | .above e b seen =>
    if (aboveOf g.elems e g.radius seen).length < g.radius ∧ seen.length < g.seg then
      (seeScores w (g.seg - 1 - seen.length)).map fun l => { g with way := .above e b (seen ++ [l]) }
    else none

/-- A further segment that cannot be loaded. -/
def goroFail (w : World) (g : Goro) : Option Goro :=
  match g.way with
  | .idle => none
  | .below e seen =>
    if (belowOf g.elems e g.radius seen).length < g.radius ∧ g.seg + 1 + seen.length < w.cur.scores.segs.length then
      some { g with way := .above e (belowOf g.elems e g.radius seen) [], failed := true }
    else none
  | .above e b seen =>
    if (aboveOf g.elems e g.radius seen).length < g.radius ∧ seen.length < g.seg then
      some { g with way := .idle, failed := true, res := g.res ++ [g.result e (aboveOf g.elems e g.radius seen) b] }
    else none

theorem goroNext_step {w : World} {g g' : Goro} (h : goroNext w g = some g') : GoroStep w g g' := by
  unfold goroNext at h
  split at h
  · split at h
    · cases h
    · split at h
      · cases h; exact .skip ‹_› ‹_› ‹_›
      · cases h; exact .find ‹_› ‹_› ‹_›
  · split at h
    · cases h; exact .endBelow ‹_› ‹_›
    · cases h
  · split at h
    · cases h; exact .endAbove ‹_› ‹_›
    · cases h

theorem goroLoad_step {w : World} {g g' : Goro} (h : goroLoad w g = some g') : GoroStep w g g' := by
  unfold goroLoad at h
  split at h
  · cases h
  · split at h
    · obtain ⟨l, hl, rfl⟩ := Option.map_eq_some_iff.1 h
      exact .goBelow ‹_› (‹_ ∧ _›).1 (‹_ ∧ _›).2 hl
    · cases h
  · split at h
    · obtain ⟨l, hl, rfl⟩ := Option.map_eq_some_iff.1 h
      exact .goAbove ‹_› (‹_ ∧ _›).1 (‹_ ∧ _›).2 hl
    · cases h

theorem goroFail_step {w : World} {g g' : Goro} (h : goroFail w g = some g') : GoroStep w g g' := by
  unfold goroFail at h
  split at h
  · cases h
  · split at h
    · cases h
      exact .failBelow ‹_› (‹_ ∧ _›).1 (‹_ ∧ _›).2
    · cases h
  · split at h
    · cases h
      exact .failAbove ‹_› (‹_ ∧ _›).1 (‹_ ∧ _›).2
    · cases h

/-- A goroutine goes on. -/
def goroAt (f : Goro → Option Goro) (i : Nat) (n : Near) : Option Near :=
  match n.gos.drop i with
  | [] => none
  | g :: b => (f g).map fun g' => ⟨n.w, n.look, n.gos.take i ++ g' :: b⟩

/-- The step, if it is possible. -/
def nearAct (radius : Nat) : NearAct → Near → Option Near
  | .world a, n =>
    match act a (n.w, none) with
    | some (w', none) => if ∀ g ∈ n.gos, ∀ x ∈ g.held, x.1 ∉ lockedScores w' then some ⟨w', n.look, n.gos⟩ else none
    | _ => none
  | .call ids, ⟨w, none, []⟩ => some ⟨{ w with hist := w.hist.take 1 }, some (Look.start w ids), []⟩
  | .readIndex m, ⟨w, some k, gos⟩ =>
    match k.todo.drop m with
    | [] => none
    | (i, ids) :: b =>
      (seeIndex w i).map fun l => ⟨w, some { k with todo := k.todo.take m ++ b, got := k.got ++ Elements.firstWithScore l ids }, gos⟩
  | .offsets, ⟨w, some k, gos⟩ =>
    if k.todo.isEmpty ∧ k.offs.isNone then
      some ⟨w, some { k with offs := some (topOffsets (table w) 0, count (table w)), rest := places (table w) k.found }, gos⟩
    else none
  | .read m, ⟨w, some k, gos⟩ =>
    match k.offs, k.rest.drop m with
    | some (offs, total), (i, ids) :: b =>
      (seeScores w i).map fun l => ⟨w, some { k with rest := k.rest.take m ++ b },
        gos ++ [⟨i, radius, offs.getD i 0, total, l, ids, ids, .idle, false, []⟩]⟩
    | _, _ => none
  | .next i, n => goroAt (goroNext n.w) i n
  | .load i, n => goroAt (goroLoad n.w) i n
  | .fail i, n => goroAt (goroFail n.w) i n
  | _, _ => none

theorem goroAt_step {radius : Nat} {f : Goro → Option Goro} {i : Nat} {n m : Near} (h : goroAt f i n = some m)
    (hf : ∀ g g', f g = some g' → GoroStep n.w g g') : NearStep radius n m := by
  obtain ⟨w, k, gos⟩ := n
  unfold goroAt at h
  split at h
  · cases h
  · rename_i g b hd
    obtain ⟨g', hg, rfl⟩ := Option.map_eq_some_iff.1 h
    have : gos = gos.take i ++ g :: b := by rw [← hd, List.take_append_drop]
    have hs := NearStep.go (radius := radius) (w := w) (k := k) (a := gos.take i) (b := b) (hf g g' hg)
    rw [← this] at hs
    exact hs

theorem nearAct_step {radius : Nat} {a : NearAct} {x y : Near} (h : nearAct radius a x = some y) : NearStep radius x y := by
  unfold nearAct at h
  split at h
  · split at h
    · split at h
      · cases h
        exact .world (act_step ‹_›) ‹_›
      · cases h
    · cases h
  · cases h; exact .call _
  · rename_i m w k gos
    split at h
    · cases h
    · rename_i i ids b hd
      obtain ⟨l, hl, rfl⟩ := Option.map_eq_some_iff.1 h
      exact .readIndex (by conv => lhs; rw [← List.take_append_drop m k.todo, hd]) hl
  · split at h
    · cases h
      rename_i hc
      exact .offsets (List.isEmpty_iff.1 hc.1) (Option.isNone_iff_eq_none.1 hc.2)
    · cases h
  · rename_i m w k gos
    split at h
    · rename_i offs total i ids b ho hd
      obtain ⟨l, hl, rfl⟩ := Option.map_eq_some_iff.1 h
      exact .read ho (by conv => lhs; rw [← List.take_append_drop m k.rest, hd]) hl
    · cases h
  · exact goroAt_step h fun _ _ => goroNext_step
  · exact goroAt_step h fun _ _ => goroLoad_step
  · exact goroAt_step h fun _ _ => goroFail_step
  · cases h

def nearActs (radius : Nat) : List NearAct → Near → Option Near
  | [], x => some x
  | a :: as, x => (nearAct radius a x).bind (nearActs radius as)

theorem nearActs_run {radius : Nat} {as : List NearAct} {x y : Near} (h : nearActs radius as x = some y) : NearRun radius x y := by
  have : ∀ {as : List NearAct} {z x y : Near}, NearRun radius z x → nearActs radius as x = some y → NearRun radius z y := by
    intro as
    induction as with
    | nil => intro z x y hr h; cases h; exact hr
    | cons a as ih =>
      intro z x y hr h
      cases ha : nearAct radius a x with
      | none => simp [nearActs, ha] at h
      | some x' =>
        rw [nearActs, ha] at h
        exact ih (.step hr (nearAct_step ha)) h
  exact this (.refl _) h

def wayIdle : Way → Bool
  | .idle => true
  | _ => false

/-- What a schedule leads to. -/
def nearAfter (radius : Nat) (as : List NearAct) (n : Near) (ids : List Nat) (p : Near → Bool) : Bool :=
  match nearActs radius as n with
  | some m =>
    (match m.look with
      | some k => k.ids == ids && k.todo.isEmpty && k.offs.isSome && k.rest.isEmpty
      | none => false) && m.gos.all (fun g => g.ids.isEmpty && wayIdle g.way) && p m
  | none => false

theorem nearAfter_run {radius : Nat} {as : List NearAct} {n : Near} {ids : List Nat} {p : Near → Bool}
    (h : nearAfter radius as n ids p = true) : ∃ m, NearRun radius n m ∧ m.Returned ids ∧ p m = true := by
  unfold nearAfter at h
  split at h
  · rename_i m hr
    simp only [Bool.and_eq_true, List.all_eq_true] at h
    obtain ⟨⟨h1, h2⟩, h3⟩ := h
    refine ⟨m, nearActs_run hr, ⟨?_, fun g hg => ?_⟩, h3⟩
    · split at h1
      · rename_i k hk
        simp only [Bool.and_eq_true, List.isEmpty_iff, beq_iff_eq] at h1
        exact ⟨k, hk, h1.1.1.1, h1.1.1.2, h1.1.2, h1.2⟩
      · cases h1
    · obtain ⟨a, b⟩ := h2 g hg
      refine ⟨List.isEmpty_iff.1 a, ?_⟩
      cases hw : g.way with
      | idle => rfl
      | below => rw [hw] at b; cases b
      | above => rw [hw] at b; cases b
  · cases h

/-- An element is on both sides: it is below, the neighbours below are collected, it moves to the top, and the
neighbours above are collected. Both times the list has it only once. -/
theorem C95_both_sides : ∃ st n r x y, ListOK st ∧ NearRun 10 (nearStart st) n ∧ n.Returned [9] ∧ n.Loaded ∧ r ∈ n.result ∧
    x ∈ r.below ∧ y ∈ r.above ∧ x.id = y.id ∧ ∀ s ∈ n.w.hist, DistinctIDs s.content := by
  obtain ⟨n, h1, h2, h3⟩ := nearAfter_run (radius := 10) (ids := [9])
    (as := [.call [9], .readIndex 0, .offsets, .read 0, .next 0, .load 0, .next 0] ++
      (updateActs ⟨95, 4, [], 0, 0⟩).map .world ++ [.load 0, .next 0])
    (n := nearStart Props.exList)
    (p := fun n => n.gos.all (fun g => !g.failed) && n.result.any fun r => r.below.any fun x => r.above.any fun y => x.id == y.id)
    (by decide +kernel)
  simp only [Bool.and_eq_true, List.any_eq_true, List.all_eq_true, Bool.not_eq_true', beq_iff_eq] at h3
  obtain ⟨h3, r, hr, x, hx, y, hy, hxy⟩ := h3
  exact ⟨_, n, r, x, y, Props.exList_ok, h1, h2, h3, hr, hx, hy, hxy, fun s hs =>
    ((near_run h1 (near_start_all Props.exList_ok 10)).1.world.hist s hs).1.scores.distinct⟩

/-- An element is on neither side, although there are fewer elements than were asked for: it was above when those below
were collected, and is below when those above are. -/
theorem C95_neither_side : ∃ st n r, ListOK st ∧ NearRun 10 (nearStart st) n ∧ n.Returned [9] ∧ n.Loaded ∧ r ∈ n.result ∧
    (∀ s ∈ n.w.hist, s.content.length < 10 ∧ ∃ x ∈ s.content, x.id = 6) ∧ r.elem.id ≠ 6 ∧
    (∀ x ∈ r.below, x.id ≠ 6) ∧ ∀ x ∈ r.above, x.id ≠ 6 := by
  obtain ⟨n, h1, h2, h3⟩ := nearAfter_run (radius := 10) (ids := [9])
    (as := [.call [9], .readIndex 0, .offsets, .read 0, .next 0, .load 0, .next 0] ++
      (updateActs ⟨12, 6, [], 0, 0⟩).map .world ++ [.load 0, .next 0])
    (n := nearStart Props.exList)
    (p := fun n => n.gos.all (fun g => !g.failed) && n.w.hist.all (fun s => decide (s.content.length < 10) && s.content.any (·.id == 6)) &&
      n.result.any fun r => r.elem.id != 6 && r.below.all (·.id != 6) && r.above.all (·.id != 6))
    (by decide +kernel)
  simp only [Bool.and_eq_true, List.any_eq_true, List.all_eq_true, Bool.not_eq_true', beq_iff_eq, bne_iff_ne, decide_eq_true_eq] at h3
  obtain ⟨⟨h3, h4⟩, r, hr, ⟨hx, hy⟩, hz⟩ := h3
  exact ⟨_, n, r, Props.exList_ok, h1, h2, h3, hr, h4, hx, hy, hz⟩

/-- The theorems apply to lookups during which the list changes: here the update takes place before the last segment
is locked, and the neighbours of element 5 below are those after it. -/
example : ∃ n, NearRun 2 (nearStart Props.exList) n ∧ n.Returned [5, 77] ∧ n.Loaded ∧ n.w.hist.length = 2 ∧
    n.result.map (fun r => (r.elem.id, r.above.map (·.id), r.below.map (·.id))) = [(5, [9, 2], [8, 7])] := by
  obtain ⟨n, h1, h2, h3⟩ := nearAfter_run (radius := 2) (ids := [5, 77])
    (as := [.call [5, 77], .readIndex 1, .readIndex 0, .offsets] ++ (updateActs ⟨60, 4, [], 0, 0⟩).map .world ++
      [.read 0, .next 0, .load 0, .next 0, .next 0])
    (n := nearStart Props.exList)
    (p := fun n => n.gos.all (fun g => !g.failed) && n.w.hist.length == 2 &&
      n.result.map (fun r => (r.elem.id, r.above.map (·.id), r.below.map (·.id))) == [(5, [9, 2], [8, 7])])
    (by decide +kernel)
  simp only [Bool.and_eq_true, List.all_eq_true, Bool.not_eq_true', beq_iff_eq] at h3
  exact ⟨n, h1, h2, h3.1.1, h3.1.2, h3.2⟩

/-- And to lookups that an update does not disturb: it has locked segments, but not changed them. -/
example : ∃ n, NearRun 2 (nearCall Props.exList [5]) n ∧ n.Returned [5] ∧ n.Loaded ∧ n.w.hist = [Props.exList] ∧
    n.result.map (fun r => (r.elem.id, r.fromTop, r.above.map (·.id), r.below.map (·.id))) = [(5, 5, [9, 2], [8, 7])] := by
  obtain ⟨n, h1, h2, h3⟩ := nearAfter_run (radius := 2) (ids := [5])
    (as := [.world (.begin 200 [⟨60, 4, [], 0, 0⟩]), .readIndex 0, .world (.lockScores 0), .offsets,
      .read 0, .next 0, .load 0, .next 0, .next 0])
    (n := nearCall Props.exList [5])
    (p := fun n => n.gos.all (fun g => !g.failed) && decide (n.w.hist = [Props.exList]) &&
      n.result.map (fun r => (r.elem.id, r.fromTop, r.above.map (·.id), r.below.map (·.id))) == [(5, 5, [9, 2], [8, 7])])
    (by decide +kernel)
  simp only [Bool.and_eq_true, List.all_eq_true, Bool.not_eq_true', beq_iff_eq, decide_eq_true_eq] at h3
  exact ⟨n, h1, h2, h3.1.1, h3.1.2, h3.2⟩

/-- And to lookups in which a segment cannot be loaded: the neighbour in it is missing. -/
example : ∃ n, NearRun 2 (nearCall Props.exList [5]) n ∧ n.Returned [5] ∧
    n.result.map (fun r => (r.elem.id, r.above.map (·.id), r.below.map (·.id))) = [(5, [9, 2], [8])] := by
  obtain ⟨n, h1, h2, h3⟩ := nearAfter_run (radius := 2) (ids := [5])
    (as := [.readIndex 0, .offsets, .read 0, .next 0, .fail 0, .next 0])
    (n := nearCall Props.exList [5])
    (p := fun n => n.result.map (fun r => (r.elem.id, r.above.map (·.id), r.below.map (·.id))) == [(5, [9, 2], [8])])
    (by decide +kernel)
  exact ⟨n, h1, h2, beq_iff_eq.1 h3⟩

end RankDB.Props

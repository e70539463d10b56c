import Verif.Proofs.Percent
import Verif.Props.Near
import Verif.Props.Queries
/-
Property C104: the element at a percentile, looked up while updates of the same list are in progress.

As in C54, `hist` are the lists in effect from the beginning of the call to its end. The percentile is `m / 2 ^ e`.
-/
namespace RankDB.Props
open Concurrent
open Segments Spec Lists

theorem pct_start_ok {st : ListState} (h : ListOK st) {m e radius : Nat} {w : World} {p : Option Pct}
    (hr : PctRun m e radius (⟨st, .idle, [st]⟩, none) (w, p)) : WorldOK w ∧ ∀ q, p = some q → PctOK w radius q :=
  pct_run hr (start_ok h) (fun _ hx => nomatch hx)

/-! ### The theorems -/

/-- Whatever updates do meanwhile: the element that is returned was in the list at some time during the call, as it
was then, and its neighbours below are exactly those right below it in one list in effect, and so are those above. -/
theorem C104_element {st : ListState} (h : ListOK st) {m e radius : Nat} {w : World} {p : Pct}
    (hr : PctRun m e radius (⟨st, .idle, [st]⟩, none) (w, some p)) {r : Ranked} (hret : p.Returned r false) :
    (∃ s ∈ w.hist, r.elem ∈ s.content ∧ r.below = rightBelow s.content r.elem radius) ∧
      ∃ s ∈ w.hist, r.elem ∈ s.content ∧ r.above = rightAbove s.content r.elem radius := by
  obtain ⟨g, rfl, -, -, h3, h4⟩ := hret
  obtain ⟨g1, -, g3, -⟩ := (pct_start_ok h hr).2 _ rfl
  obtain ⟨⟨s, a1, a2, -, a4⟩, t, b1, b2, -, b4⟩ := g1.res r (by rw [h3]; simp)
  rw [g3] at a4 b4
  exact ⟨⟨s, a1, a2, a4 h4⟩, t, b1, b2, b4 h4⟩

/-- A call that is through with all its segments has a result. -/
theorem C104_returns {st : ListState} (h : ListOK st) {m e radius : Nat} {w : World} {g : Goro}
    (hr : PctRun m e radius (⟨st, .idle, [st]⟩, none) (w, some (.reading g))) (hids : g.ids = []) (hway : g.way = .idle) :
    ∃ r, Pct.Returned (.reading g) r g.failed := by
  obtain ⟨r, hr⟩ := pct_result ((pct_start_ok h hr).2 _ rfl) hids hway
  exact ⟨r, g, rfl, hids, hway, hr, rfl⟩

/-- The call does not panic as long as no segment of the list becomes empty. Partial: see `C104_panics`. -/
theorem C104_no_panic_partial {st : ListState} (h : ListOK st) {m e radius : Nat} {w : World} {p : Pct}
    (hr : PctRun m e radius (⟨st, .idle, [st]⟩, none) (w, some p))
    (hne : ∀ s ∈ w.hist, ∀ g ∈ s.scores.segs, g.elems ≠ []) : p ≠ .panicked := by
  rintro rfl
  obtain ⟨s, h1, g, h2, h3⟩ := (pct_start_ok h hr).2 _ rfl
  exact hne s h1 g h2 h3

/-- If no update changes the list during the call, then for every percentile below 100 % of a list with elements the
call does not panic, and what it returns is the element at the percentile (or for more than 2^53 elements sometimes the
next one, as in C25) with its true ranks and neighbours, whatever an update locks meanwhile. -/
theorem C104_no_change_partial {st : ListState} (h : ListOK st) {m e radius : Nat} {w : World} {p : Pct}
    (hr : PctRun m e radius (⟨st, .idle, [st]⟩, some (.locate st.scores.segs m e)) (w, some p)) (hq : w.hist = [st])
    (hm : m < 2 ^ e) (hm' : m < 2 ^ 53) (hlen : st.content.length < 2 ^ 63) (hne : st.content ≠ []) :
    p ≠ .panicked ∧ ∀ r, p.Returned r false →
      (st.content[st.content.length * m / 2 ^ e]? = some r.elem ∨
        2 ^ 64 ≤ st.content.length * m ∧ st.content[st.content.length * m / 2 ^ e + 1]? = some r.elem) ∧
      r.fromTop = rankFromTop st.content r.elem ∧ r.fromBottom = rankFromBottom st.content r.elem ∧
      r.above = rightAbove st.content r.elem radius ∧ r.below = rightBelow st.content r.elem radius := by
  have hpos : 0 < st.content.length := List.length_pos_iff.2 hne
  have hif : (if m > 2 ^ e then 2 ^ e else m) = m := if_neg (by omega)
  obtain ⟨-, o2, o3, o4⟩ := C25_offset _ m e hlen (Nat.le_of_lt hm)
  have hlt := C25_offset_inside _ m e hlen hpos hm hm'
  obtain ⟨q1, q2⟩ := pct_quiet h (m := m) (e := e) rfl (by rw [hif]; exact hlt) hr hq
  refine ⟨q1, fun r hret => ?_⟩
  obtain ⟨r1, r2, r3⟩ := q2 r false hret
  rw [hif] at r1
  refine ⟨?_, r2, r3, ?_⟩
  · rcases Nat.lt_or_ge (st.content.length * m) (2 ^ 64) with hb | hb
    · left; rw [← o4 hb]; exact r1
    · rcases Nat.lt_or_eq_of_le o3 with h3 | h3
      · left
        rwa [show percentileOffset st.content.length m e = st.content.length * m / 2 ^ e by omega] at r1
      · right; rw [← h3]; exact ⟨hb, r1⟩
  · obtain ⟨g, rfl, -, -, h3, h4⟩ := hret
    have hok : ∀ q, some (Pct.locate st.scores.segs m e) = some q → PctOK ⟨st, .idle, [st]⟩ radius q := by
      intro q hq
      cases hq
      obtain ⟨i, k, o, t, l1, l2⟩ := locate_bound (tiles_ne_nil h.scores.tiles) m e
      rw [l1]
      exact l2
    obtain ⟨g1, -, g3, -⟩ := (pct_run hr (start_ok h) hok).2 _ rfl
    obtain ⟨⟨s, a1, a2, -, a4⟩, t, b1, b2, -, b4⟩ := g1.res r (by rw [h3]; simp)
    rw [g3] at a4 b4
    rw [hq, List.mem_singleton] at a1 b1
    subst a1
    subst b1
    exact ⟨b4 h4, a4 h4⟩

/-! ### Schedules -/

/-- The choices of a schedule. -/
inductive PctAct
  | world (a : Act)
  | call
  | read
  | next
  | load

/-- The step, if it is possible. -/
def pctAct (m e radius : Nat) : PctAct → World × Option Pct → Option (World × Option Pct)
  | .world a, (w, p) =>
    match act a (w, none) with
    | some (w', none) => if ∀ q ∈ p.toList, ∀ x ∈ q.held, x.1 ∉ lockedScores w' then some (w', p) else none
    | _ => none
  | .call, (w, none) => some ({ w with hist := w.hist.take 1 }, some (.locate (table w) m e))
  | .read, (w, some (.located i k off total)) =>
    match seeScores w i with
    | none => none
    | some [] => some (w, some .panicked)
    | some (a :: l) =>
      match (a :: l)[min k ((a :: l).length - 1)]? with
      | none => none
      | some x => some (w, some (.reading ⟨i, radius, off, total, a :: l, [x.id], [x.id], .idle, false, []⟩))
  | .next, (w, some (.reading g)) => (goroNext w g).map fun g' => (w, some (.reading g'))
  | .load, (w, some (.reading g)) => (goroLoad w g).map fun g' => (w, some (.reading g'))
  | _, _ => none

theorem pctAct_step {m e radius : Nat} {a : PctAct} {x y : World × Option Pct} (h : pctAct m e radius a x = some y) :
    PctStep m e radius x y := by
  unfold pctAct at h
  split at h
  · split at h
    · split at h
      · cases h
        rename_i hh
        exact .update (act_step ‹_›) fun q hq => hh q (by rw [hq]; simp)
      · cases h
    · cases h
  · cases h; exact .call
  · split at h
    · cases h
    · cases h; exact .panic ‹_›
    · split at h
      · cases h
      · cases h; exact .read ‹_› ‹_›
  · obtain ⟨g', hg, rfl⟩ := Option.map_eq_some_iff.1 h
    exact .go (goroNext_step hg)
  · obtain ⟨g', hg, rfl⟩ := Option.map_eq_some_iff.1 h
    exact .go (goroLoad_step hg)
  · cases h

def pctActs (m e radius : Nat) : List PctAct → World × Option Pct → Option (World × Option Pct)
  | [], x => some x
  | a :: as, x => (pctAct m e radius a x).bind (pctActs m e radius as)

theorem pctActs_run {m e radius : Nat} {as : List PctAct} {x y : World × Option Pct} (h : pctActs m e radius as x = some y) :
    PctRun m e radius x y := by
  have : ∀ {as : List PctAct} {z x y : World × Option Pct}, PctRun m e radius z x → pctActs m e radius as x = some y →
      PctRun m e radius z y := by
    intro as
    induction as with
    | nil => intro z x y hr h; cases h; exact hr
    | cons a as ih =>
      intro z x y hr h
      cases ha : pctAct m e radius a x with
      | none => simp [pctActs, ha] at h
      | some x' =>
        rw [pctActs, ha] at h
        exact ih (.step hr (pctAct_step ha)) h
  exact this (.refl _) h

/-- The call has returned and the condition holds of the lists in effect and the result. -/
def pctAfter (m e radius : Nat) (as : List PctAct) (x : World × Option Pct) (f : List ListState → Ranked → Bool) : Bool :=
  match pctActs m e radius as x with
  | some (w, some (.reading g)) =>
    match g.res with
    | [r] => g.ids.isEmpty && wayIdle g.way && !g.failed && f w.hist r
    | _ => false
  | _ => false

theorem pctAfter_run {m e radius : Nat} {as : List PctAct} {x : World × Option Pct} {f : List ListState → Ranked → Bool}
    (h : pctAfter m e radius as x f = true) :
    ∃ w p r, PctRun m e radius x (w, some p) ∧ p.Returned r false ∧ f w.hist r = true := by
  unfold pctAfter at h
  split at h
  · rename_i w g hr
    split at h
    · rename_i r hres
      simp only [Bool.and_eq_true, List.isEmpty_iff, Bool.not_eq_true'] at h
      obtain ⟨⟨⟨h1, h2⟩, h3⟩, h4⟩ := h
      refine ⟨w, .reading g, r, pctActs_run hr, ⟨g, rfl, h1, ?_, hres, h3⟩, h4⟩
      cases hw : g.way with
      | idle => rfl
      | below => rw [hw] at h2; cases h2
      | above => rw [hw] at h2; cases h2
    · cases h
  · cases h

/-- An update of several elements of the example, from its beginning to its end. -/
def updateAllActs (es : List Element) : List PctAct :=
  let acts : List Act := [.begin 200 es] ++ (loadedIndex Props.exList es).map .lockIndex ++ (loadedScores Props.exList es).map .lockScores ++
    [.change] ++ (loadedIndex Props.exList es).map .storeIndex ++ (loadedScores Props.exList es).map .setCount ++
    (loadedScores Props.exList es).map .storeScores ++ [.finish]
  acts.map .world

/-- The call panics, although the list has nine elements all the time and the percentile is 87.5 %: the segment is
located before the update, and has no elements after it. -/
theorem C104_panics : ∃ st w, ListOK st ∧ PctRun 7 3 0 (⟨st, .idle, [st]⟩, none) (w, some .panicked) ∧
    ∀ s ∈ w.hist, s.content.length = 9 := by
  have key : (match pctActs 7 3 0 ([.call] ++ updateAllActs [⟨95, 4, [], 0, 0⟩, ⟨94, 7, [], 0, 0⟩] ++ [.read])
        (⟨Props.exList, .idle, [Props.exList]⟩, none) with
      | some (w, some .panicked) => w.hist.all fun s => decide (s.content.length = 9)
      | _ => false) = true := by decide +kernel
  split at key
  · rename_i w hr
    refine ⟨_, w, Props.exList_ok, pctActs_run hr, ?_⟩
    simpa only [List.all_eq_true, decide_eq_true_eq] using key
  · cases key

/-- An element is returned for 50 % that is in the middle of none of the lists in effect: the place in the segment is
from before the update, and the segment is read after it. -/
theorem C104_wrong_element : ∃ st w p r, ListOK st ∧ PctRun 1 1 0 (⟨st, .idle, [st]⟩, none) (w, some p) ∧
    p.Returned r false ∧ ∀ s ∈ w.hist, s.content.length = 9 ∧ s.content[4]? ≠ some r.elem := by
  obtain ⟨w, p, r, h1, h2, h3⟩ := pctAfter_run (m := 1) (e := 1) (radius := 0)
    (as := [.call] ++ updateAllActs [⟨49, 6, [], 0, 0⟩] ++ [.read, .next, .next, .next])
    (x := (⟨Props.exList, .idle, [Props.exList]⟩, none))
    (f := fun hist r => hist.all fun s => decide (s.content.length = 9) && decide (s.content[4]? ≠ some r.elem))
    (by decide +kernel)
  simp only [List.all_eq_true, Bool.and_eq_true, decide_eq_true_eq] at h3
  exact ⟨_, w, p, r, Props.exList_ok, h1, h2, h3⟩

/-! ### The theorems apply -/

/-- To a lookup during which an update takes place, with neighbours in two segments. -/
example : ∃ w p r, PctRun 1 1 2 (⟨Props.exList, .idle, [Props.exList]⟩, none) (w, some p) ∧ p.Returned r false ∧
    w.hist.length = 2 ∧ (r.elem.id, r.above.map (·.id), r.below.map (·.id)) = (9, [2, 1], [5, 8]) := by
  obtain ⟨w, p, r, h1, h2, h3⟩ := pctAfter_run (m := 1) (e := 1) (radius := 2)
    (as := [.call, .read] ++ updateAllActs [⟨12, 4, [], 0, 0⟩] ++ [.next, .next, .load, .next])
    (x := (⟨Props.exList, .idle, [Props.exList]⟩, none))
    (f := fun hist r => hist.length == 2 && (r.elem.id, r.above.map (·.id), r.below.map (·.id)) == (9, [2, 1], [5, 8]))
    (by decide +kernel)
  simp only [Bool.and_eq_true, beq_iff_eq] at h3
  exact ⟨w, p, r, h1, h2, h3⟩

/-- To a lookup that an update does not disturb: it has locked a segment, but not changed it. -/
example : ∃ w p r, PctRun 1 1 2 (⟨Props.exList, .idle, [Props.exList]⟩, some (.locate Props.exList.scores.segs 1 1)) (w, some p) ∧
    p.Returned r false ∧ w.hist = [Props.exList] ∧
    (r.elem.id, r.fromTop, r.above.map (·.id), r.below.map (·.id)) = (9, 4, [2, 1], [5, 8]) := by
  obtain ⟨w, p, r, h1, h2, h3⟩ := pctAfter_run (m := 1) (e := 1) (radius := 2)
    (as := [.world (.begin 200 [⟨60, 4, [], 0, 0⟩]), .read, .world (.lockScores 2), .next, .next, .load, .next])
    (x := (⟨Props.exList, .idle, [Props.exList]⟩, some (.locate Props.exList.scores.segs 1 1)))
    (f := fun hist r => decide (hist = [Props.exList]) &&
      (r.elem.id, r.fromTop, r.above.map (·.id), r.below.map (·.id)) == (9, 4, [2, 1], [5, 8]))
    (by decide +kernel)
  simp only [Bool.and_eq_true, beq_iff_eq, decide_eq_true_eq] at h3
  exact ⟨w, p, r, h1, h2, h3⟩

/-- To lists whose segments all keep elements. -/
example : ∃ w p, PctRun 7 3 0 (⟨Props.exList, .idle, [Props.exList]⟩, none) (w, some p) ∧ w.hist.length = 2 ∧
    ∀ s ∈ w.hist, ∀ g ∈ s.scores.segs, g.elems ≠ [] := by
  have key : (match pctActs 7 3 0 ([.call] ++ updateAllActs [⟨95, 4, [], 0, 0⟩] ++ [.read])
        (⟨Props.exList, .idle, [Props.exList]⟩, none) with
      | some (w, some _) => w.hist.length == 2 && w.hist.all fun s => s.scores.segs.all fun g => decide (g.elems ≠ [])
      | _ => false) = true := by decide +kernel
  split at key
  · rename_i w p hr
    simp only [Bool.and_eq_true, List.all_eq_true, decide_eq_true_eq, beq_iff_eq] at key
    exact ⟨w, p, pctActs_run hr, key.1, key.2⟩
  · cases key

end RankDB.Props

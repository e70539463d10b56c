import Verif.Proofs.Concurrent
import Verif.Props.Example
/-
Property C54: a lookup (`GetElements` without neighbours) while updates of the same list are in progress.

The model keeps the lists in effect from the beginning of the lookup to its end in `hist`, so that "old or new"
means: as in one of them.
-/
namespace RankDB.Props
open Concurrent
open Segments Spec Lists

theorem start_ok {st : ListState} (h : ListOK st) : WorldOK (start st).1 :=
  ⟨h, trivial, rfl, fun s hs => by
    cases List.mem_singleton.1 hs
    exact ⟨h, Same.refl _⟩⟩

theorem run_start {st : ListState} (h : ListOK st) {w : World} {k : Option Look} (hr : Run (start st) (w, k)) :
    WorldOK w ∧ ∀ x, k = some x → LookOK w x := run_ok hr (start_ok h) (fun _ hx => nomatch hx)

/-! ### The theorems -/

/-- Whatever updates do meanwhile: a lookup that returns has found only requested elements, each of them at most
once and each as it was in some list in effect during the lookup. -/
theorem C54_old_or_new {st : ListState} (h : ListOK st) {w : World} {k : Look} (hr : Run (start st) (w, some k))
    (hret : k.Returned) (hid : ∀ v ∈ k.ids, v < 2 ^ 64) :
    (k.res.map (·.elem.id)).Nodup ∧ ∀ r ∈ k.res, r.elem.id ∈ k.ids ∧ ∃ s ∈ w.hist, r.elem ∈ s.content := by
  obtain ⟨h1, h2⟩ := run_start h hr
  obtain ⟨h3, h4, -⟩ := look_result h1 (h2 k rfl) hret hid
  exact ⟨h3, h4⟩

/-- An element that stays in the same segment is found. Missing for C54: an update can move an element to
another segment, and then it can be reported as missing, see `C54_missing`. -/
theorem C54_found_partial {st : ListState} (h : ListOK st) {w : World} {k : Look} (hr : Run (start st) (w, some k))
    (hret : k.Returned) (hid : ∀ v ∈ k.ids, v < 2 ^ 64) {id seg : Nat} (hin : id ∈ k.ids)
    (hall : ∀ s ∈ w.hist, ∃ g ∈ s.scores.segs, g.id = seg ∧ ∃ e ∈ g.elems, e.id = id) :
    ∃ r ∈ k.res, r.elem.id = id := by
  obtain ⟨h1, h2⟩ := run_start h hr
  exact (look_result h1 (h2 k rfl) hret hid).2.2 id hin seg fun s hs => mem_placement.2 (hall s hs)

/-- An element that is not changed meanwhile is found as it is, no matter how other elements are updated. -/
theorem C54_unchanged {st : ListState} (h : ListOK st) {w : World} {k : Look} (hr : Run (start st) (w, some k))
    (hret : k.Returned) (hid : ∀ v ∈ k.ids, v < 2 ^ 64) {e : Element} (hin : e.id ∈ k.ids)
    (hall : ∀ s ∈ w.hist, e ∈ s.content) : ∃ r ∈ k.res, r.elem = e := by
  obtain ⟨h1, h2⟩ := run_start h hr
  obtain ⟨-, h4, h5⟩ := look_result h1 (h2 k rfl) hret hid
  obtain ⟨g, hg, heg⟩ := mem_allElems.1 (hall _ (logical_mem h1))
  have hlog := h1.hist _ (logical_mem h1)
  obtain ⟨i, hi⟩ := List.mem_iff_getElem?.1 hg
  obtain ⟨r, hr1, hr2⟩ := h5 e.id hin g.id fun s hs => by
    have hok := h1.hist s hs
    rcases sameRanges_getElem? (hlog.2.trans hok.2.symm).1 i with ⟨h, _⟩ | ⟨a, b, h5, h6, h7⟩
    · rw [h] at hi; cases hi
    rw [hi] at h5
    cases h5
    obtain ⟨g2, hg2, heg2⟩ := mem_allElems.1 (hall s hs)
    have hb : InRange b e := (h7.inRange e).1 (hlog.1.scores.inRange g hg e heg)
    have := tiles_unique hok.1.scores.tiles (List.mem_of_getElem? h6) hg2 hb (hok.1.scores.inRange g2 hg2 e heg2)
    subst this
    refine mem_placement.2 ⟨b, hg2, ?_, e, heg2, rfl⟩
    exact h7.1.symm
  obtain ⟨-, s, hs, hrs⟩ := h4 r hr1
  exact ⟨r, hr1, (h1.hist s hs).1.scores.distinct.eq_of_id hrs (hall s hs) hr2⟩

/-- If no update changes the list between the beginning and the end of the lookup, the result is the correct
one: every requested element of the list, with its true ranks, however the goroutines are scheduled and
whatever an update locks meanwhile. -/
theorem C54_no_change {st : ListState} (h : ListOK st) {ids : List Nat} {w : World} {k : Look}
    (hr : Run (⟨st, .idle, [st]⟩, some (Look.start ⟨st, .idle, [st]⟩ ids)) (w, some k))
    (hret : k.Returned) (hid : ∀ v ∈ ids, v < 2 ^ 64) (hq : w.hist = [st]) :
    (k.res.map (·.elem.id)).Nodup ∧
    (∀ r ∈ k.res, r.elem.id ∈ ids ∧ r.elem ∈ st.content ∧ r.fromTop = rankFromTop st.content r.elem ∧
      r.fromBottom = rankFromBottom st.content r.elem) ∧
    ∀ e ∈ st.content, e.id ∈ ids → ∃ r ∈ k.res, r.elem = e := by
  have hids : k.ids = ids := by
    have : ∀ {x y : World × Option Look}, Run x y → (∀ a, x.2 = some a → a.ids = ids) → x.2.isSome →
        y.2.isSome ∧ ∀ a, y.2 = some a → a.ids = ids := by
      intro x y hr h1 h2
      induction hr with
      | refl => exact ⟨h2, h1⟩
      | @step y z _ hs ih =>
        obtain ⟨i1, i2⟩ := ih
        refine ⟨step_look hs i1, ?_⟩
        cases hs with
        | call => cases i1
        | @readIndex _ k => intro a ha; cases ha; exact i2 k rfl
        | @offsets _ k => intro a ha; cases ha; exact i2 k rfl
        | @readScores _ k => intro a ha; cases ha; exact i2 k rfl
        | _ => exact i2
    exact (this hr (fun a ha => by cases ha; rfl) rfl).2 k rfl
  have hrun : Run (start st) (w, some k) := by
    have : ∀ {x y z : World × Option Look}, Run x y → Run y z → Run x z := by
      intro x y z h1 h2
      induction h2 with
      | refl => exact h1
      | step _ hs ih => exact .step ih hs
    exact this (.step (.refl _) (.call ids)) hr
  obtain ⟨h1, h2⟩ := run_start h hrun
  have hqt := (run_quiet (st := st) hr rfl fun k hk => by
    cases hk
    exact ⟨⟨[], rfl⟩, fun _ => rfl, fun _ _ _ _ _ => nofun, fun _ _ _ => nofun⟩).2 k rfl
  have hid' : ∀ v ∈ k.ids, v < 2 ^ 64 := by rw [hids]; exact hid
  obtain ⟨h3, h4, -⟩ := look_result h1 (h2 k rfl) hret hid'
  refine ⟨h3, fun r hr => ?_, fun e he hein => ?_⟩
  · obtain ⟨⟨o, t⟩, ho⟩ := Option.isSome_iff_exists.1 hret.2.1
    obtain ⟨-, d, -, d2, d3⟩ := (h2 k rfl).after o t ho
    obtain ⟨rfl, rfl⟩ := hqt.offs hq o t ho
    have hr' := hr
    rw [d3] at hr
    obtain ⟨x, hx, hr⟩ := List.mem_flatMap.1 hr
    have hxs : x.2 = st := by
      have := d2 x hx
      rw [hq] at this
      exact List.mem_singleton.1 this
    rw [hxs] at hr
    have := findIn_ok h.scores h.scoresCount hr
    exact ⟨by rw [← hids]; exact (h4 r hr').1, this.mem, this.top, this.bottom⟩
  · refine C54_unchanged h hrun hret hid' (by rw [hids]; exact hein) fun s hs => ?_
    rw [hq] at hs
    rw [List.mem_singleton.1 hs]
    exact he

/-! ### Schedules -/

/-- The choices of a schedule. -/
inductive Act
  | begin (now : Nat) (es : List Element)
  | lockIndex (i : Nat)
  | lockScores (i : Nat)
  | change
  | storeIndex (i : Nat)
  | setCount (i : Nat)
  | storeScores (i : Nat)
  | finish
  | call (ids : List Nat)
  | readIndex (n : Nat)
  | offsets
  | readScores (n : Nat)

instance (now : Nat) (es : List Element) : Decidable (Fine now es) := by unfold Fine; infer_instance

/-- The step, if it is possible. -/
def act : Act → World × Option Look → Option (World × Option Look)
  | .begin now es, (⟨cur, .idle, hist⟩, k) =>
    if Fine now es then
      some (⟨cur, .locking ⟨updateElements now .inOrder cur es, loadedIndex cur es, loadedScores cur es⟩ [] [], hist⟩, k)
    else none
  | .lockIndex i, (⟨cur, .locking u gi gs, hist⟩, k) =>
    if i ∈ u.idx then some (⟨cur, .locking u (i :: gi) gs, hist⟩, k) else none
  | .lockScores i, (⟨cur, .locking u gi gs, hist⟩, k) =>
    if i ∈ u.scr then some (⟨cur, .locking u gi (i :: gs), hist⟩, k) else none
  | .change, (⟨cur, .locking u gi gs, hist⟩, k) =>
    if (∀ i ∈ u.idx, i ∈ gi) ∧ ∀ i ∈ u.scr, i ∈ gs then some (⟨cur, .storing u [] [] [], u.next :: hist⟩, k) else none
  | .storeIndex i, (⟨cur, .storing u oi cs os, hist⟩, k) =>
    if i ∈ u.idx then some (⟨cur, .storing u (i :: oi) cs os, hist⟩, k) else none
  | .setCount i, (⟨cur, .storing u oi cs os, hist⟩, k) =>
    if i ∈ u.scr ∧ ∀ j ∈ u.idx, j ∈ oi then some (⟨cur, .storing u oi (i :: cs) os, hist⟩, k) else none
  | .storeScores i, (⟨cur, .storing u oi cs os, hist⟩, k) =>
    if i ∈ cs then some (⟨cur, .storing u oi cs (i :: os), hist⟩, k) else none
  | .finish, (⟨_, .storing u oi _ os, hist⟩, k) =>
    if (∀ i ∈ u.idx, i ∈ oi) ∧ ∀ i ∈ u.scr, i ∈ os then some (⟨u.next, .idle, hist⟩, k) else none
  | .call ids, (w, none) => some ({ w with hist := w.hist.take 1 }, some (Look.start w ids))
  | .readIndex n, (w, some k) =>
    match k.todo.drop n with
    | [] => none
    | (i, ids) :: b =>
      (seeIndex w i).map fun l =>
        (w, some { k with todo := k.todo.take n ++ b, got := k.got ++ Elements.firstWithScore l ids })
  | .offsets, (w, some k) =>
    if k.todo.isEmpty ∧ k.offs.isNone then
      some (w, some { k with offs := some (topOffsets (table w) 0, count (table w)), rest := places (table w) k.found })
    else none
  | .readScores n, (w, some k) =>
    match k.offs, k.rest.drop n with
    | some (offs, total), (i, ids) :: b =>
      (seeScores w i).map fun l =>
        (w, some { k with rest := k.rest.take n ++ b, res := k.res ++ Concurrent.findIn l (offs.getD i 0) total ids })
    | _, _ => none
  | _, _ => none

theorem act_step {a : Act} {x y : World × Option Look} (h : act a x = some y) : Step x y := by
  unfold act at h
  split at h
  · split at h
    · cases h; exact .begin _ _ _ ‹_›
    · cases h
  · split at h
    · cases h; exact .lockIndex _ ‹_›
    · cases h
  · split at h
    · cases h; exact .lockScores _ ‹_›
    · cases h
  · split at h
    · cases h; exact .change (‹_ ∧ _›).1 (‹_ ∧ _›).2
    · cases h
  · split at h
    · cases h; exact .storeIndex _ ‹_›
    · cases h
  · split at h
    · cases h; exact .setCount _ (‹_ ∧ _›).1 (‹_ ∧ _›).2
    · cases h
  · split at h
    · cases h; exact .storeScores _ ‹_›
    · cases h
  · split at h
    · cases h; exact .finish (‹_ ∧ _›).1 (‹_ ∧ _›).2
    · cases h
  · cases h; exact .call _
  · rename_i n w k
    split at h
    · cases h
    · rename_i i ids b hd
      obtain ⟨l, hl, rfl⟩ := Option.map_eq_some_iff.1 h
      exact .readIndex (by conv => lhs; rw [← List.take_append_drop n k.todo, hd]) hl
  · split at h
    · cases h
      rename_i hc
      exact .offsets (List.isEmpty_iff.1 hc.1) (Option.isNone_iff_eq_none.1 hc.2)
    · cases h
  · rename_i n w k
    split at h
    · rename_i offs total i ids b ho hd
      obtain ⟨l, hl, rfl⟩ := Option.map_eq_some_iff.1 h
      exact .readScores ho (by conv => lhs; rw [← List.take_append_drop n k.rest, hd]) hl
    · cases h
  · cases h

def acts : List Act → World × Option Look → Option (World × Option Look)
  | [], x => some x
  | a :: as, x => (act a x).bind (acts as)

theorem acts_run {as : List Act} {x y : World × Option Look} (h : acts as x = some y) : Run x y := by
  have : ∀ {as : List Act} {z x y : World × Option Look}, Run z x → acts as x = some y → Run z y := by
    intro as
    induction as with
    | nil => intro z x y hr h; cases h; exact hr
    | cons a as ih =>
      intro z x y hr h
      cases ha : act a x with
      | none => simp [acts, ha] at h
      | some x' =>
        rw [acts, ha] at h
        exact ih (.step hr (act_step ha)) h
  exact this (.refl _) h

/-- What a schedule leads to. -/
def after (as : List Act) (st : ListState) (p : World → Look → Bool) : Bool :=
  match acts as (start st) with
  | some (w, some k) => k.todo.isEmpty && k.offs.isSome && k.rest.isEmpty && p w k
  | _ => false

theorem after_run {as : List Act} {st : ListState} {p : World → Look → Bool} (h : after as st p = true) :
    ∃ w k, Run (start st) (w, some k) ∧ k.Returned ∧ p w k = true := by
  unfold after at h
  split at h
  · rename_i w k hr
    simp only [Bool.and_eq_true, List.isEmpty_iff] at h
    exact ⟨w, k, acts_run hr, ⟨h.1.1.1, h.1.1.2, h.1.2⟩, h.2⟩
  · cases h

/-- An update of an element of the example, from its beginning to its end. -/
def updateActs (e : Element) : List Act :=
  [.begin 200 [e]] ++ (loadedIndex Props.exList [e]).map .lockIndex ++ (loadedScores Props.exList [e]).map .lockScores ++
    [.change] ++ (loadedIndex Props.exList [e]).map .storeIndex ++ (loadedScores Props.exList [e]).map .setCount ++
    (loadedScores Props.exList [e]).map .storeScores ++ [.finish]

/-- An element is in the list before and after the update, and the lookup does not find it: the index was read
before the update, the segment in which the element was then was read after it. -/
theorem C54_missing : ∃ st w k, ListOK st ∧ Run (start st) (w, some k) ∧ k.Returned ∧ k.ids = [4] ∧
    (∀ s ∈ w.hist, ∃ e ∈ s.content, e.id = 4) ∧ k.res = [] := by
  obtain ⟨w, k, h1, h2, h3⟩ := after_run
    (as := [.call [4], .readIndex 0] ++ updateActs ⟨60, 4, [], 0, 0⟩ ++ [.offsets, .readScores 0]) (st := Props.exList)
    (p := fun w k => k.ids == [4] && w.hist.all (fun s => s.content.any (·.id == 4)) && k.res.isEmpty)
    (by decide +kernel)
  simp only [Bool.and_eq_true, beq_iff_eq, List.isEmpty_iff, List.all_eq_true, List.any_eq_true] at h3
  exact ⟨_, w, k, Props.exList_ok, h1, h2, h3.1.1, h3.1.2, h3.2⟩

/-- The rank of an element that is not changed can be one that it never had: the offsets were read before
the update and the segment after it. -/
theorem C54_wrong_rank : ∃ st w k, ListOK st ∧ Run (start st) (w, some k) ∧ k.Returned ∧ k.ids = [7] ∧
    ∃ r ∈ k.res, ∀ s ∈ w.hist, r.elem ∈ s.content ∧ r.fromTop ≠ rankFromTop s.content r.elem := by
  obtain ⟨w, k, h1, h2, h3⟩ := after_run
    (as := [.call [7], .readIndex 0, .offsets] ++ updateActs ⟨18, 6, [], 0, 0⟩ ++ [.readScores 0]) (st := Props.exList)
    (p := fun w k => k.ids == [7] && k.res.any fun r =>
      decide (∀ s ∈ w.hist, r.elem ∈ s.content ∧ r.fromTop ≠ rankFromTop s.content r.elem))
    (by decide +kernel)
  simp only [Bool.and_eq_true, beq_iff_eq, List.any_eq_true, decide_eq_true_eq] at h3
  exact ⟨_, w, k, Props.exList_ok, h1, h2, h3.1, h3.2⟩

/-- The theorems apply to lookups during which the list changes: here an update takes place between the reads of
the two segments; the lookup finds element 4 as it was before and element 9. -/
example : ∃ w k, Run (start Props.exList) (w, some k) ∧ k.Returned ∧ k.ids = [4, 9, 77] ∧ w.hist.length = 2 ∧
    k.res.map (fun r => (r.elem.id, r.elem.score)) = [(4, 10), (9, 33)] := by
  obtain ⟨w, k, h1, h2, h3⟩ := after_run
    (as := [.call [4, 9, 77], .readIndex 1, .readIndex 0, .offsets, .readScores 1] ++
      updateActs ⟨60, 4, [], 0, 0⟩ ++ [.readScores 0]) (st := Props.exList)
    (p := fun w k => k.ids == [4, 9, 77] && w.hist.length == 2 &&
      k.res.map (fun r => (r.elem.id, r.elem.score)) == [(4, 10), (9, 33)])
    (by decide +kernel)
  simp only [Bool.and_eq_true, beq_iff_eq] at h3
  exact ⟨w, k, h1, h2, h3.1.1, h3.1.2, h3.2⟩

/-- And to lookups that an update does not disturb: it has locked its segments but not changed them. -/
example : ∃ w k, Run (⟨Props.exList, .idle, [Props.exList]⟩, some (Look.start ⟨Props.exList, .idle, [Props.exList]⟩ [9]))
      (w, some k) ∧ k.Returned ∧ w.hist = [Props.exList] ∧
    k.res.map (fun r => (r.elem.id, r.fromTop, r.fromBottom)) = [(9, 4, 4)] := by
  have : ∃ x, acts [.begin 200 [⟨60, 4, [], 0, 0⟩], .lockIndex 1, .readIndex 0, .lockScores 2, .offsets, .readScores 0]
      (⟨Props.exList, .idle, [Props.exList]⟩, some (Look.start ⟨Props.exList, .idle, [Props.exList]⟩ [9])) = some x ∧
      (match x with
        | (w, some k) => k.todo.isEmpty && k.offs.isSome && k.rest.isEmpty && decide (w.hist = [Props.exList]) &&
          k.res.map (fun r => (r.elem.id, r.fromTop, r.fromBottom)) == [(9, 4, 4)]
        | _ => false) = true := by decide +kernel
  obtain ⟨⟨w, k⟩, h1, h2⟩ := this
  cases k with
  | none => cases h2
  | some k =>
    simp only [Bool.and_eq_true, beq_iff_eq, List.isEmpty_iff, decide_eq_true_eq] at h2
    exact ⟨w, k, acts_run h1, ⟨h2.1.1.1.1, h2.1.1.1.2, h2.1.1.2⟩, h2.1.2, h2.2⟩

end RankDB.Props

import Verif.Proofs.FromScore
import Verif.Props.Scan
import Verif.Props.Queries
/-
Property C105: the elements from a score on, looked up while updates of the same list are in progress; and what
ranges leave out (C76).

As in C54, `hist` are the lists in effect from the beginning of the call to its end.
-/
namespace RankDB.Props
open Concurrent
open Segments Spec Lists

theorem desc_start_ok {st : ListState} (h : ListOK st) {score n : Nat} {w : World} {d : Desc}
    (hr : DescRun score n (World.idle st, none) (w, some d)) : WorldOK w ∧ DescOK w score n d :=
  let ⟨h1, h2⟩ := desc_run hr (idle_ok h) nofun
  ⟨h1, h2 d rfl⟩

theorem rankFrom_elems (total above first : Nat) (l : List Element) : (rankFrom total above first l).map (·.1) = l :=
  rankFrom_spec.1

/-! ### The theorems -/

/-- Whatever updates do meanwhile: at most `n` elements are returned, none above the score, strictly in the order of
the ranking, each as it was in the list at some time during the call; and their ranks are consecutive. -/
theorem C105_old_or_new {st : ListState} (h : ListOK st) {score n : Nat} {w : World} {d : Desc}
    (hr : DescRun score n (World.idle st, none) (w, some d)) {r : List (Element × Int × Int)} (hret : d.Returned w r) :
    r.length ≤ n ∧ (r.map (·.1)).Pairwise RanksAbove ∧
      (∀ x ∈ r, x.1.score ≤ score ∧ ∃ t ∈ w.hist, x.1 ∈ t.content) ∧
      ∃ first total : Int, ∀ (i : Nat) x, r[i]? = some x → x.2.1 = first + i ∧ x.2.2 = total - 1 - x.2.1 := by
  obtain ⟨hw, hd⟩ := desc_start_ok h hr
  obtain ⟨i, l, f, a, t, s, rfl, -, rfl⟩ := hret
  obtain ⟨p, reads, first, h1, h2, -, -⟩ := desc_read hw hd
  have hmap := rankFrom_elems t a f s.res
  have hmem : ∀ x ∈ rankFrom t a f s.res, x.1 ∈ s.res := fun x hx => by rw [← hmap]; exact List.mem_map_of_mem hx
  refine ⟨?_, ?_, fun x hx => ⟨?_, ?_⟩, (a : Int) + f, t, fun i x hx => ?_⟩
  · have := congrArg List.length hmap
    rw [List.length_map] at this
    rw [this, h1.res, List.length_take]
    omega
  · rw [hmap, h1.res]
    exact ((glued_ok hw h1.hist p).sublist ((List.take_sublist _ _).trans (List.drop_sublist _ _)))
  · have := hmem x hx
    rw [h1.res] at this
    exact h2 _ (List.mem_of_mem_take this)
  · have := hmem x hx
    rw [h1.res] at this
    obtain ⟨j, u, h3, h4⟩ := mem_glued (List.mem_of_mem_drop (List.mem_of_mem_take this))
    obtain ⟨g, h5, h6⟩ := elemsAt_mem h4
    exact ⟨u, h1.hist u (List.mem_of_getElem? h3), mem_allElems.2 ⟨g, List.mem_of_getElem? h5, h6⟩⟩
  · obtain ⟨e1, e2⟩ := (rankFrom_spec (total := t) (above := a) (first := f) (l := s.res)).2 i x hx
    omega

/-- An element that is not changed during the call and is not above the score is returned, if fewer elements are
returned than were wanted, or if it ranks above one that is returned. -/
theorem C105_unchanged_partial {st : ListState} (h : ListOK st) {score n : Nat} {w : World} {d : Desc}
    (hr : DescRun score n (World.idle st, none) (w, some d)) {r : List (Element × Int × Int)} (hret : d.Returned w r)
    {e : Element} (hall : ∀ t ∈ w.hist, e ∈ t.content) (he : e.score ≤ score)
    (hfew : r.length < n ∨ ∃ x ∈ r, RanksAbove e x.1) : e ∈ r.map (·.1) := by
  obtain ⟨hw, hd⟩ := desc_start_ok h hr
  obtain ⟨i, l, f, a, t, s, rfl, hdone, rfl⟩ := hret
  obtain ⟨p, reads, first, h1, h2, h3, h4⟩ := desc_read hw hd
  obtain ⟨j, hjl, hj⟩ := same_place hw hall
  have hpj := h4 e he hall j hj
  have hmap := rankFrom_elems t a f s.res
  rw [hmap]
  have hfew' : s.res.length < n ∨ ∃ x ∈ s.res, RanksAbove e x := by
    rcases hfew with hf | ⟨x, hx, hex⟩
    · left
      have := congrArg List.length hmap
      rw [List.length_map] at this
      omega
    · exact .inr ⟨x.1, by rw [← hmap]; exact List.mem_map_of_mem hx, hex⟩
  have hG := glued_ok hw h1.hist p
  -- the element was read
  have hin : e ∈ glued p reads := by
    rcases Nat.lt_or_ge j (p + reads.length) with hlt | hge
    · exact place_glued h1.hist hj hpj hlt
    · exfalso
      have hleft : s.left = some 0 := by
        refine Classical.byContradiction fun hne => hdone ⟨?_, hne⟩
        rw [h1.pos hne]
        omega
      rcases hfew' with hf | ⟨x, hx, hex⟩
      · rw [h1.left] at hleft
        rw [h1.res, List.length_take, List.length_drop] at hf
        have := Option.some.inj hleft
        omega
      · rw [h1.res] at hx
        exact above_asymm hex (glued_above hw h1.hist hj hge (List.mem_of_mem_drop (List.mem_of_mem_take hx)))
  rw [← List.take_append_drop first (glued p reads)] at hin hG
  rw [List.pairwise_append] at hG
  rcases List.mem_append.1 hin with hin | hin
  · have := h3 e hin; omega
  · rw [h1.res]
    have hG2 := hG.2.1
    rw [← List.take_append_drop n ((glued p reads).drop first)] at hin hG2
    rw [List.pairwise_append] at hG2
    rcases List.mem_append.1 hin with hin | hin
    · exact hin
    · exfalso
      rcases hfew' with hf | ⟨x, hx, hex⟩
      · rw [h1.res, List.length_take] at hf
        rw [List.drop_eq_nil_of_le (by omega)] at hin
        cases hin
      · rw [h1.res] at hx
        exact above_asymm hex (hG2.2.2 x hx e hin)

/-- If no update changes the list during the call, it returns the first `n` elements at or below the score, with their
true ranks, whatever an update locks meanwhile. -/
theorem C105_no_change {st : ListState} (h : ListOK st) {score n : Nat} (hs : score < 2 ^ 64) {w : World} {d0 d : Desc}
    (h0 : Desc.locate st.scores.segs score = some d0) (hr : DescRun score n (World.idle st, some d0) (w, some d))
    (hq : w.hist = [st]) {r : List (Element × Int × Int)} (hret : d.Returned w r) :
    r.map (·.1) = (st.content.filter fun e => decide (e.score ≤ score)).take n ∧
      ∀ x ∈ r, x.2.1 = rankFromTop st.content x.1 ∧ x.2.2 = rankFromBottom st.content x.1 := by
  obtain ⟨⟨i0, a0⟩, hl0, rfl⟩ := Option.map_eq_some_iff.1 h0
  have hdiv : Divides (World.idle st) score i0 := locate_divides (idle_ok h) (w := World.idle st) hl0
  have ho : ∀ d, some (Desc.located i0 a0 (count st.scores.segs)) = some d → DescOK (World.idle st) score n d := by
    intro d hd; cases hd; exact hdiv
  have hw := (desc_run hr (idle_ok h) ho).1
  obtain ⟨-, q2, q3⟩ := desc_quiet (st := st) hr (idle_ok h) ho (fun _ => ⟨rfl, nofun⟩) rfl
    (by intro d hd; cases hd; exact h0)
  obtain ⟨i, l, f, a, t, s, rfl, hdone, rfl⟩ := hret
  obtain ⟨t1, t2⟩ := q3 hq _ rfl
  obtain ⟨r, c1, c2, c3⟩ := C24_rank_score st score n h hs
  unfold Desc.locate at t1
  rw [hl0] at t1
  injection t1 with t1
  injection t1 with t1 t3 t4
  subst t1 t3 t4
  unfold getRankScoreDesc at c1
  rw [hl0] at c1
  simp only [t2, Option.map_some, Option.some.injEq] at c1
  have hrest : Scan.rest st.scores.segs s = s.res := by
    refine rest_done (Classical.byContradiction fun hc => hdone ?_)
    rw [not_or] at hc
    exact ⟨by rw [(q2 hq).1]; omega, hc.2⟩
  rw [hrest] at c1
  rw [c1]
  exact ⟨c2, c3⟩

/-- The segment is always found. -/
theorem C105_located {st : ListState} (h : ListOK st) {score : Nat} (hs : score < 2 ^ 64) :
    ∃ d, Desc.locate st.scores.segs score = some d := by
  obtain ⟨r, h1, -, -⟩ := C24_rank_score st score 0 h hs
  unfold getRankScoreDesc at h1
  cases hl : segIdxScore score st.scores.segs 0 0 with
  | none => rw [hl] at h1; cases h1
  | some p => exact ⟨_, by unfold Desc.locate; rw [hl]; rfl⟩

/-! ### Schedules -/

/-- The choices of a schedule. -/
inductive DescAct
  | world (a : Act)
  | call
  | lock
  | read

/-- The step, if it is possible. -/
def descAct (score n : Nat) : DescAct → World × Option Desc → Option (World × Option Desc)
  | .world a, (w, d) =>
    match act a (w, none) with
    | some (w', none) => if ∀ q ∈ d.toList, ∀ i ∈ q.held, i ∉ lockedScores w' then some (w', d) else none
    | _ => none
  | .call, (w, none) => (Desc.locate (table w) score).map fun d => ({ w with hist := w.hist.take 1 }, some d)
  | .lock, (w, some (.located i a t)) =>
    (seeScores w i).map fun l => (w, some (.reading i l (Desc.begin w score n i l).1 a t (Desc.begin w score n i l).2))
  | .read, (w, some (.reading i e f a t s)) =>
    if s.pos < w.cur.scores.segs.length ∧ s.left ≠ some 0 then
      (seeScores w s.pos).map fun l => (w, some (.reading i e f a t (s.read l)))
    else none
  | _, _ => none

theorem descAct_step {score n : Nat} {a : DescAct} {x y : World × Option Desc} (h : descAct score n a x = some y) :
    DescStep score n x y := by
  unfold descAct at h
  split at h
  · split at h
    · split at h
      · cases h
        rename_i hh
        exact .update (act_step ‹_›) fun q hq => hh q (by rw [hq]; simp)
      · cases h
    · cases h
  · obtain ⟨d, hd, rfl⟩ := Option.map_eq_some_iff.1 h
    exact .call hd
  · obtain ⟨l, hl, rfl⟩ := Option.map_eq_some_iff.1 h
    exact .lock hl
  · split at h
    · obtain ⟨l, hl, rfl⟩ := Option.map_eq_some_iff.1 h
      exact .read ‹_› hl
    · cases h
  · cases h

def descActs (score n : Nat) : List DescAct → World × Option Desc → Option (World × Option Desc)
  | [], x => some x
  | a :: as, x => (descAct score n a x).bind (descActs score n as)

theorem descActs_run {score n : Nat} {as : List DescAct} {x y : World × Option Desc} (h : descActs score n as x = some y) :
    DescRun score n x y := by
  have : ∀ {as : List DescAct} {z x y : World × Option Desc}, DescRun score n z x → descActs score n as x = some y →
      DescRun score n z y := by
    intro as
    induction as with
    | nil => intro z x y hr h; cases h; exact hr
    | cons a as ih =>
      intro z x y hr h
      cases ha : descAct score n a x with
      | none => simp [descActs, ha] at h
      | some x' =>
        rw [descActs, ha] at h
        exact ih (.step hr (descAct_step ha)) h
  exact this (.refl _) h

/-- The call has returned and the condition holds of the lists in effect and the result. -/
def descAfter (score n : Nat) (as : List DescAct) (x : World × Option Desc)
    (f : List ListState → List (Element × Int × Int) → Bool) : Bool :=
  match descActs score n as x with
  | some (w, some (.reading _ _ first a t s)) =>
    !decide (s.pos < w.cur.scores.segs.length ∧ s.left ≠ some 0) && f w.hist (rankFrom t a first s.res)
  | _ => false

theorem descAfter_run {score n : Nat} {as : List DescAct} {x : World × Option Desc}
    {f : List ListState → List (Element × Int × Int) → Bool} (h : descAfter score n as x f = true) :
    ∃ w d r, DescRun score n x (w, some d) ∧ d.Returned w r ∧ f w.hist r = true := by
  unfold descAfter at h
  split at h
  · rename_i w i l first a t s hr
    simp only [Bool.and_eq_true, Bool.not_eq_true', decide_eq_false_iff_not] at h
    exact ⟨w, _, _, descActs_run hr, ⟨_, _, _, _, _, _, rfl, h.1, rfl⟩, h.2⟩
  · cases h

/-- An update of several elements of the example, from its beginning to its end. -/
def descUpdate (es : List Element) : List DescAct :=
  let acts : List Act := [.begin 200 es] ++ (loadedIndex exList es).map .lockIndex ++ (loadedScores exList es).map .lockScores ++
    [.change] ++ (loadedIndex exList es).map .storeIndex ++ (loadedScores exList es).map .setCount ++
    (loadedScores exList es).map .storeScores ++ [.finish]
  acts.map .world

/-- An element is returned twice, although no list in effect has it twice: it is moved down between the reading of
two segments. -/
theorem C105_twice : ∃ st w d r, ListOK st ∧ DescRun 100 20 (World.idle st, none) (w, some d) ∧ d.Returned w r ∧
    (∀ t ∈ w.hist, DistinctIDs t.content) ∧ (r.filter fun x => x.1.id == 9).map (·.1.score) = [33, 1] := by
  obtain ⟨w, d, r, h1, h2, h3⟩ := descAfter_run (score := 100) (n := 20)
    (as := [.call, .lock, .read, .read] ++ descUpdate [⟨1, 9, [], 0, 0⟩] ++ [.read]) (x := (World.idle exList, none))
    (f := fun hist r => hist.all (fun t => decide (DistinctIDs t.content)) && (r.filter fun x => x.1.id == 9).map (·.1.score) == [33, 1])
    (by decide +kernel)
  simp only [Bool.and_eq_true, List.all_eq_true, decide_eq_true_eq, beq_iff_eq] at h3
  exact ⟨_, w, d, r, exList_ok, h1, h2, h3.1, h3.2⟩

/-- The rank of an element that does not change is that of none of the lists in effect: the number of elements above
the segment is from before the update, and the position in the segment from after it. -/
theorem C105_wrong_rank : ∃ st w d e rank bottom, ListOK st ∧ DescRun 40 1 (World.idle st, none) (w, some d) ∧
    d.Returned w [(e, rank, bottom)] ∧ ∀ t ∈ w.hist, e ∈ t.content ∧ rank ≠ rankFromTop t.content e := by
  obtain ⟨w, d, r, h1, h2, h3⟩ := descAfter_run (score := 40) (n := 1)
    (as := [.call] ++ descUpdate [⟨95, 4, [], 0, 0⟩, ⟨51, 9, [], 0, 0⟩] ++ [.lock, .read]) (x := (World.idle exList, none))
    (f := fun hist r => match r with
      | [(e, rank, _)] => hist.all fun t => decide (e ∈ t.content) && decide (rank ≠ rankFromTop t.content e)
      | _ => false)
    (by decide +kernel)
  split at h3
  · rename_i e rank bottom
    simp only [Bool.and_eq_true, List.all_eq_true, decide_eq_true_eq] at h3
    exact ⟨_, w, d, e, rank, bottom, exList_ok, h1, h2, h3⟩
  · cases h3

/-! ### Ranges (C76) -/

/-- A range is a piece of the segments glued together. -/
theorem range_piece {x y : World × Option Scan} (hr : ScanRun x y) (hw : WorldOK x.1)
    (h : ∀ s, x.2 = some s → s.left = none ∨ ∃ p r f n, ScanEx x.1 s p r f n) :
    WorldOK y.1 ∧ ∀ s, y.2 = some s → s.left = none ∨ ∃ p r f n, ScanEx y.1 s p r f n := by
  induction hr with
  | refl => exact ⟨hw, h⟩
  | @step y z _ hs ih =>
    obtain ⟨i1, i2⟩ := ih
    cases hs with
    | update hs =>
      refine ⟨world_step i1 hs, fun s hk => ?_⟩
      rcases i2 s hk with h | ⟨p, r, f, n, h⟩
      · exact .inl h
      · obtain ⟨h1, h2⟩ := step_same i1 hs
        exact .inr ⟨p, r, f, n, h.mono h1.1.length h2⟩
    | clone => exact ⟨restart_ok i1, fun s hk => by cases hk; exact .inl rfl⟩
    | @fromTop w s o n hf =>
      refine ⟨restart_ok i1, fun s' hk => .inr ?_⟩
      cases hk
      obtain ⟨⟨i, f⟩, hi, rfl⟩ := Option.map_eq_some_iff.1 hf
      have := segIdxTop_bound hi
      rw [(table_same i1).length] at this
      dsimp only at this
      exact ⟨_, _, _, _, scanEx_start (by dsimp only; omega)⟩
    | @fromBottom w s o n hf =>
      refine ⟨restart_ok i1, fun s' hk => .inr ?_⟩
      cases hk
      obtain ⟨⟨i, f⟩, hi, rfl⟩ := Option.map_eq_some_iff.1 hf
      have := segIdxBottomLoop_bound hi
      rw [(table_same i1).length] at this
      dsimp only at this
      exact ⟨_, _, _, _, scanEx_start (by dsimp only; omega)⟩
    | @read w s l hm hl =>
      refine ⟨i1, fun s' hk => ?_⟩
      cases hk
      rcases i2 s rfl with h | ⟨p, r, f, n, h⟩
      · left
        unfold Scan.read
        rw [h]
      · exact .inr ⟨_, _, _, _, scanEx_read i1 h hm hl⟩

/-- A range has no gaps: an element that is not changed during the call and that ranks between two elements of the
range is in the range. -/
theorem C76_range_no_gap {st : ListState} (h : ListOK st) {w : World} {s : Scan}
    (hr : ScanRun (World.idle st, none) (w, some s)) (hc : s.left ≠ none) {e a b : Element}
    (hall : ∀ t ∈ w.hist, e ∈ t.content) (ha : a ∈ s.res) (hb : b ∈ s.res) (hae : RanksAbove a e) (heb : RanksAbove e b) :
    e ∈ s.res := by
  obtain ⟨hw, hs⟩ := range_piece hr (idle_ok h) nofun
  rcases hs s rfl with h1 | ⟨p, r, f, n, h1⟩
  · exact (hc h1).elim
  · exact scanEx_between hw h1 hall ha hb hae heb

/-! ### The theorems apply -/

/-- To a call during which the list changes: element 9 is moved, the others are not. -/
example : ∃ w d r, DescRun 60 5 (World.idle exList, none) (w, some d) ∧ d.Returned w r ∧ w.hist.length = 2 ∧
    r.map (·.1.id) = [1, 2, 9, 5, 8] := by
  obtain ⟨w, d, r, h1, h2, h3⟩ := descAfter_run (score := 60) (n := 5)
    (as := [.call, .lock, .read] ++ descUpdate [⟨34, 9, [], 0, 0⟩] ++ [.read]) (x := (World.idle exList, none))
    (f := fun hist r => hist.length == 2 && r.map (·.1.id) == [1, 2, 9, 5, 8])
    (by decide +kernel)
  simp only [Bool.and_eq_true, beq_iff_eq] at h3
  exact ⟨w, d, r, h1, h2, h3⟩

/-- To a call that an update does not disturb: it has locked a segment, but not changed it. -/
example : ∃ d0 w d r, Desc.locate exList.scores.segs 40 = some d0 ∧ DescRun 40 3 (World.idle exList, some d0) (w, some d) ∧
    w.hist = [exList] ∧ d.Returned w r ∧ r.map (fun x => (x.1.id, x.2)) = [(9, 4, 4), (5, 5, 3), (8, 6, 2)] := by
  obtain ⟨w, d, r, h1, h2, h3⟩ := descAfter_run (score := 40) (n := 3)
    (as := [.world (.begin 200 [⟨60, 4, [], 0, 0⟩]), .world (.lockScores 2), .lock, .read])
    (x := (World.idle exList, some (.located 1 3 9)))
    (f := fun hist r => decide (hist = [exList]) && r.map (fun x => (x.1.id, x.2)) == [(9, 4, 4), (5, 5, 3), (8, 6, 2)])
    (by decide +kernel)
  simp only [Bool.and_eq_true, beq_iff_eq, decide_eq_true_eq] at h3
  exact ⟨.located 1 3 9, w, d, r, rfl, h1, h3.1, h2, h3.2⟩

end RankDB.Props

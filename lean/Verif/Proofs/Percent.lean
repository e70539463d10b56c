import Verif.Model.Percent
import Verif.Proofs.Near
/-
What a call of `GetPercentile` sees while updates are in progress.
-/
namespace RankDB.Concurrent
open Segments Spec Lists

/-- A segment without elements was seen. -/
def SeenEmpty (hist : List ListState) : Prop := ∃ s ∈ hist, ∃ g ∈ s.scores.segs, g.elems = []

def PctOK (w : World) (radius : Nat) : Pct → Prop
  | .located i _ _ _ => i < w.cur.scores.segs.length
  | .reading g => GoroOK w g ∧ g.Sum ∧ g.radius = radius ∧ ∃ x ∈ g.elems, g.given = [x.id]
  | .panicked => SeenEmpty w.hist

theorem locate_bound {segs : List Seg} (h : segs ≠ []) (m e : Nat) :
    ∃ i k o t, Pct.locate segs m e = .located i k o t ∧ i < segs.length := by
  obtain ⟨i, s, h1, h2, -, -⟩ := percentileSeg_spec (segs := segs)
    (want := percentileOffset (count segs) (if m > 2 ^ e then 2 ^ e else m) e) (k := 0) (p := 0) h (by omega)
  refine ⟨_, _, _, _, rfl, ?_⟩
  rw [h1, Nat.zero_add]
  exact (List.getElem?_eq_some_iff.1 h2).1

theorem goro_kept {w : World} {g g' : Goro} (hs : GoroStep w g g') :
    g'.seg = g.seg ∧ g'.off = g.off ∧ g'.total = g.total ∧ g'.elems = g.elems ∧ g'.given = g.given := by
  cases hs <;> exact ⟨rfl, rfl, rfl, rfl, rfl⟩

theorem pct_step {m e radius : Nat} {x y : World × Option Pct} (hw : WorldOK x.1) (h : ∀ p, x.2 = some p → PctOK x.1 radius p)
    (hs : PctStep m e radius x y) : WorldOK y.1 ∧ ∀ p, y.2 = some p → PctOK y.1 radius p := by
  cases hs with
  | @update w w' p hs hl =>
    refine ⟨world_step hw hs, fun p hp => ?_⟩
    have hp' := h p hp
    cases p with
    | located i k o t =>
      show i < w'.cur.scores.segs.length
      rw [sizes_kept hw hs]
      exact hp'
    | reading g => exact ⟨goro_world hw hp'.1 hs (hl _ hp), hp'.2⟩
    | panicked =>
      obtain ⟨s, h1, h2⟩ := hp'
      exact ⟨s, hist_kept hs s h1, h2⟩
  | @call w =>
    refine ⟨restart_world hw, fun p hp => ?_⟩
    cases hp
    have hne : table w ≠ [] := by
      intro h0
      have h1 := (table_same hw).length
      have h2 := logical_size hw
      have h3 := tiles_ne_nil (logical_ok hw).scores.tiles
      rw [h0] at h1
      rw [← h1] at h2
      exact h3 (List.length_eq_zero_iff.1 h2)
    obtain ⟨i, k, o, t, h1, h2⟩ := locate_bound hne m e
    rw [h1]
    show i < w.cur.scores.segs.length
    rw [← (table_same hw).length]
    exact h2
  | @read w i k off total l x hl hx =>
    refine ⟨hw, fun p hp => ?_⟩
    cases hp
    refine ⟨⟨?_, nofun, nofun, nofun, nofun, nofun, nofun⟩, rfl, rfl, x, List.mem_of_getElem? hx, rfl⟩
    intro y hy
    simp only [Goro.held, List.mem_singleton] at hy
    subst hy
    exact ⟨see_unlocked hl, seeScores_logical hw hl⟩
  | @panic w i k off total hl =>
    refine ⟨hw, fun p hp => ?_⟩
    cases hp
    have hi : i < w.cur.scores.segs.length := h _ rfl
    have hlog := seeScores_logical hw hl
    rw [← logical_size hw] at hi
    refine ⟨logical w, logical_mem hw, (logical w).scores.segs[i], List.getElem_mem hi, ?_⟩
    unfold elemsAt at hlog
    rw [List.getElem?_eq_getElem hi] at hlog
    exact hlog.symm
  | @go w g g' hs =>
    refine ⟨hw, fun p hp => ?_⟩
    cases hp
    obtain ⟨h1, h2, h3, h4⟩ := h _ rfl
    have h5 := sum_step h2 hs
    obtain ⟨k1, k2, k3, k4, k5⟩ := goro_kept hs
    exact ⟨goro_step hw h1 hs, h5.1, h5.2.2.trans h3, by rw [k4, k5]; exact h4⟩
where
  restart_world {w : World} (h : WorldOK w) : WorldOK { w with hist := w.hist.take 1 } := world_step (k := none) h (.call [])

theorem pct_run {m e radius : Nat} {x y : World × Option Pct} (hr : PctRun m e radius x y) (hw : WorldOK x.1)
    (h : ∀ p, x.2 = some p → PctOK x.1 radius p) : WorldOK y.1 ∧ ∀ p, y.2 = some p → PctOK y.1 radius p := by
  induction hr with
  | refl => exact ⟨hw, h⟩
  | step _ hs ih => exact pct_step ih.1 ih.2 hs

/-- A call that can return has one result. -/
theorem pct_result {w : World} {radius : Nat} {g : Goro} (h : PctOK w radius (.reading g)) (h1 : g.ids = []) (h2 : g.way = .idle) :
    ∃ r, g.res = [r] := by
  obtain ⟨-, hsum, -, x, hx, hg⟩ := h
  unfold Goro.Sum Goro.finds at hsum
  rw [hg, h1, Goro.now, h2] at hsum
  have hlen : (findIn g.elems g.off g.total [x.id]).length = 1 := by
    cases hf : Elements.findIdx g.elems x.id with
    | none => exact absurd rfl (Elements.findIdx_none hf x hx)
    | some j => simp [findIn, hf]
  rw [hsum] at hlen
  simp only [findIn, List.append_nil, List.length_map, List.filterMap_nil] at hlen
  exact List.length_eq_one_iff.1 hlen

/-! ### No change meanwhile -/

/-- What the call has taken from the list at its beginning. -/
def PctTrace (st : ListState) (hist : List ListState) (m e : Nat) : Pct → Prop
  | .located i k o t => Pct.locate st.scores.segs m e = .located i k o t
  | .reading g => ∃ k x, Pct.locate st.scores.segs m e = .located g.seg k g.off g.total ∧
      g.elems[min k (g.elems.length - 1)]? = some x ∧ g.given = [x.id]
  | .panicked => ∃ i k o t, Pct.locate st.scores.segs m e = .located i k o t ∧ ∃ s ∈ hist, elemsAt s.scores.segs i = []

theorem trace_step {st : ListState} {m e radius : Nat} {x y : World × Option Pct} (hx : x.2.isSome) (hw : WorldOK x.1)
    (h : ∀ p, x.2 = some p → PctTrace st x.1.hist m e p) (hs : PctStep m e radius x y) :
    y.2.isSome ∧ ∀ p, y.2 = some p → PctTrace st y.1.hist m e p := by
  cases hs with
  | update hs hl =>
    refine ⟨hx, fun p hp => ?_⟩
    have hp' := h p hp
    cases p with
    | located => exact hp'
    | reading => exact hp'
    | panicked =>
      obtain ⟨i, k, o, t, h1, s, h2, h3⟩ := hp'
      exact ⟨i, k, o, t, h1, s, hist_kept hs s h2, h3⟩
  | call => cases hx
  | read hl hxe =>
    refine ⟨rfl, fun p hp => ?_⟩
    cases hp
    exact ⟨_, _, h _ rfl, hxe, rfl⟩
  | panic hl =>
    refine ⟨rfl, fun p hp => ?_⟩
    cases hp
    exact ⟨_, _, _, _, h _ rfl, _, logical_mem hw, (seeScores_logical hw hl).symm⟩
  | go hs =>
    refine ⟨rfl, fun p hp => ?_⟩
    cases hp
    obtain ⟨k, x, h1, h2, h3⟩ := h _ rfl
    obtain ⟨k1, k2, k3, k4, k5⟩ := goro_kept hs
    exact ⟨k, x, by rw [k1, k2, k3]; exact h1, by rw [k4]; exact h2, by rw [k5]; exact h3⟩

theorem trace_run {st : ListState} {m e radius : Nat} {x y : World × Option Pct} (hr : PctRun m e radius x y)
    (hx : x.2.isSome) (hw : WorldOK x.1) (ho : ∀ p, x.2 = some p → PctOK x.1 radius p)
    (h : ∀ p, x.2 = some p → PctTrace st x.1.hist m e p) :
    y.2.isSome ∧ ∀ p, y.2 = some p → PctTrace st y.1.hist m e p := by
  induction hr with
  | refl => exact ⟨hx, h⟩
  | @step y z hr hs ih => exact trace_step ih.1 (pct_run hr hw ho).1 ih.2 hs

/-- The position within the segment that is located. -/
theorem locate_inside {st : ListState} (h : ListOK st) {m e want : Nat}
    (hwant : want = percentileOffset st.content.length (if m > 2 ^ e then 2 ^ e else m) e) (hlt : want < st.content.length) :
    ∃ i s, Pct.locate st.scores.segs m e =
        .located i (want - count (st.scores.segs.take i)) ((topOffsets st.scores.segs 0).getD i 0) (count st.scores.segs) ∧
      st.scores.segs[i]? = some s ∧ want - count (st.scores.segs.take i) < s.elems.length ∧
      st.content[want]? = s.elems[want - count (st.scores.segs.take i)]? := by
  obtain ⟨i, s, h1, h2, h3, h4⟩ := percentileSeg_spec (want := want) (k := 0) (p := 0) (tiles_ne_nil h.scores.tiles) (by omega)
  rw [Nat.zero_add] at h1 h3
  have hi : i < st.scores.segs.length := (List.getElem?_eq_some_iff.1 h2).1
  have hc := h.scoresCount
  have hs : s.n = s.elems.length := hc s (List.mem_of_getElem? h2)
  have hcnt : count st.scores.segs = st.content.length := count_eq hc
  have hin : want - count (st.scores.segs.take i) < s.elems.length := by
    rcases h4 with h4 | h4 <;> omega
  refine ⟨i, s, ?_, h2, hin, ?_⟩
  · unfold Pct.locate
    simp only []
    rw [hcnt, ← hwant, h1, topOffsets_getD _ hi, Nat.zero_add]
  · have he := List.getElem?_eq_getElem hin
    have := posOf_spec h2 he
    unfold posOf at this
    rw [← count_eq (counted_take hc i)] at this
    have e2 : count (st.scores.segs.take i) + (want - count (st.scores.segs.take i)) = want := by omega
    rw [e2] at this
    rw [he]; exact this

/-- A call during which the list does not change. -/
theorem pct_quiet {st : ListState} (h : ListOK st) {m e radius want : Nat}
    (hwant : want = percentileOffset st.content.length (if m > 2 ^ e then 2 ^ e else m) e) (hlt : want < st.content.length)
    {w : World} {p : Pct} (hr : PctRun m e radius (⟨st, .idle, [st]⟩, some (.locate st.scores.segs m e)) (w, some p))
    (hq : w.hist = [st]) :
    p ≠ .panicked ∧ ∀ r failed, p.Returned r failed → st.content[want]? = some r.elem ∧
      r.fromTop = rankFromTop st.content r.elem ∧ r.fromBottom = rankFromBottom st.content r.elem := by
  obtain ⟨i, s, hloc, hs, hin, hel⟩ := locate_inside h hwant hlt
  have hw0 : WorldOK ⟨st, .idle, [st]⟩ :=
    ⟨h, trivial, rfl, by intro s hs; rw [List.mem_singleton.1 hs]; exact ⟨h, Same.refl _⟩⟩
  have ho0 : ∀ p, some (Pct.locate st.scores.segs m e) = some p → PctOK ⟨st, .idle, [st]⟩ radius p := by
    intro p hp
    cases hp
    rw [hloc]
    exact (List.getElem?_eq_some_iff.1 hs).1
  have ht0 : ∀ p, some (Pct.locate st.scores.segs m e) = some p → PctTrace st [st] m e p := by
    intro p hp
    cases hp
    rw [hloc]
    exact hloc
  obtain ⟨hw, ho⟩ := pct_run hr hw0 ho0
  have ht := (trace_run hr rfl hw0 ho0 ht0).2 p rfl
  have ho := ho p rfl
  have hseg : elemsAt st.scores.segs i = s.elems := by unfold elemsAt; rw [hs]; rfl
  refine ⟨?_, ?_⟩
  · rintro rfl
    obtain ⟨i', k', o', t', h1, s', h2, h3⟩ := ht
    rw [hloc] at h1
    cases h1
    rw [hq, List.mem_singleton] at h2
    subst h2
    rw [hseg] at h3
    rw [h3] at hin
    cases hin
  · rintro r failed ⟨g, rfl, h1, h2, h3, -⟩
    obtain ⟨k, x, t1, t2, t3⟩ := ht
    rw [hloc] at t1
    injection t1 with t1 t4 t5 t6
    obtain ⟨g1, g2, g3, -⟩ := ho
    have hlog : logical w = st := by
      have := logical_mem hw
      rw [hq] at this
      exact List.mem_singleton.1 this
    have hge : g.elems = s.elems := by
      rw [(held_base g1).2, hlog, ← t1, hseg]
    have hx : s.elems[want - count (st.scores.segs.take i)]? = some x := by
      rw [hge, ← t4] at t2
      rwa [show min (want - count (st.scores.segs.take i)) (s.elems.length - 1) = want - count (st.scores.segs.take i) by omega] at t2
    unfold Goro.Sum Goro.finds at g2
    rw [t3, h1, Goro.now, h2, h3] at g2
    have hmem : strip r ∈ findIn (elemsAt st.scores.segs i) ((topOffsets st.scores.segs 0).getD i 0) (count st.scores.segs) [x.id] := by
      rw [hseg, ← hge, t5, t6, g2]
      simp
    have hok := findIn_ok h.scores h.scoresCount hmem
    have hid : (strip r).elem.id = x.id := by
      have := (mem_findIn hmem).2
      simpa using this
    have hxm : x ∈ st.content := by
      rw [hx] at hel
      exact List.mem_of_getElem? hel
    have : r.elem = x := h.scores.distinct.eq_of_id (a := (strip r).elem) hok.mem hxm hid
    refine ⟨?_, hok.top, hok.bottom⟩
    rw [this, hel, hx]

end RankDB.Concurrent

import Verif.Props.Queries
/-
Properties C29 and C30: results of updates, verification.
-/
namespace RankDB
open Spec

namespace Lists
open Segments

theorem oldRank_spec {st : ListState} (h : ListOK st) {ids : List Nat} (hid : ∀ v ∈ ids, v < 2 ^ 64) {id : Nat}
    (hm : id ∈ ids) :
    (oldRank st ids id = none ∧ ∀ e ∈ st.content, e.id ≠ id) ∨
    ∃ (s : Seg) (j : Nat) (e : Element), s ∈ st.scores.segs ∧ s.elems[j]? = some e ∧ e.id = id ∧
      oldRank st ids id = some (e, j, 0) := by
  obtain ⟨hl, -, -⟩ := locate_spec h.isIndex hid hm
  unfold oldRank
  generalize located (locate st.index.segs ids) id = lo at hl
  obtain ⟨iidx, ex⟩ := lo
  dsimp only at hl ⊢
  cases ex with
  | none =>
    refine Or.inl ⟨rfl, fun e he heq => ?_⟩
    have : e.id ∈ (allElems st.index.segs).map (·.id) := by
      rw [← indexed_ids, (h.link.complete.map _).mem_iff, placement_ids]
      exact List.mem_map_of_mem he
    obtain ⟨x, hx, hxe⟩ := List.mem_map.1 this
    have := (hl.ex x).2 ⟨hx, by rw [hxe, heq]⟩
    simp at this
  | some x =>
    right
    obtain ⟨hx, hxid⟩ := (hl.ex x).1 rfl
    have hpl : (x.id, x.tie) ∈ placement st.scores.segs :=
      h.link.complete.mem_iff.1 (List.mem_map.2 ⟨x, hx, rfl⟩)
    unfold placement at hpl
    obtain ⟨s, hs, hm'⟩ := List.mem_flatMap.1 hpl
    obtain ⟨e, he, heq⟩ := List.mem_map.1 hm'
    simp only [Prod.mk.injEq] at heq
    obtain ⟨i, hi⟩ := List.mem_iff_getElem?.1 hs
    obtain ⟨j, hj⟩ := List.mem_iff_getElem?.1 he
    have hsi : segIndex x.tie st.scores.segs 0 0 = i :=
      (segIndex_eq_iff h.scores.segIDs (List.mem_map.2 ⟨s, hs, heq.2⟩) hi).2 heq.2.symm
    refine ⟨s, j, e, hs, hj, by rw [heq.1, hxid], ?_⟩
    dsimp only
    rw [hsi, ← hxid, ← heq.1, findRanked_spec h.scores.distinct hi hj]
    simp

theorem getElements_before {sch : Sched} {st : ListState} {ids : List Nat} {radius : Nat} :
    ∀ r ∈ getElements sch st ids radius, r.before = none := by
  intro r hr
  unfold getElements at hr
  simp only [] at hr
  split at hr
  · simp at hr
  · unfold findElements at hr
    obtain ⟨l, hl, hrl⟩ := List.mem_flatten.1 hr
    have hl' := (sch.perm _).mem_iff.1 hl
    obtain ⟨i, -, hi⟩ := List.mem_filterMap.1 hl'
    split at hi
    · simp at hi
    · simp only [Option.some.injEq] at hi
      subst hi
      unfold findIn at hrl
      obtain ⟨id, -, hid⟩ := List.mem_filterMap.1 hrl
      obtain ⟨r', hr', rfl⟩ := Option.map_eq_some_iff.1 hid
      unfold findRanked at hr'
      split at hr'
      · simp at hr'
      · split at hr'
        · simp at hr'
        · simp only [Option.some.injEq] at hr'
          subst hr'
          rfl

end Lists

namespace Props

/-! ### C29 Results of UpdateElements -/

/-- Partial: the results are the given elements (with the time of the update if they had none) with their
new ranks; `Before` is set exactly for the elements that existed, with the previous element. The previous
rank, though, is the rank within its segment and not in the list, and `FromBottom` is 0. -/
theorem C29_update_results_partial (now : Nat) (sch : Sched) (st : ListState) (es : List Element) (radius : Nat)
    (h : ListOK st) (hes : ∀ e ∈ es, Storable e) (hd : DistinctIDs es) (hnow : now < 2 ^ 32 - 1) :
    let st' := Lists.updateElements now sch st es
    let res := Lists.updateResults now sch st es radius
    (res.map (·.elem)).Perm (es.map (stamp now)) ∧
    ∀ r ∈ res, r.fromTop = rankFromTop st'.content r.elem ∧ r.fromBottom = rankFromBottom st'.content r.elem ∧
      (r.before = none ↔ ∀ e ∈ st.content, e.id ≠ r.elem.id) ∧
      ∀ b, r.before = some b → b.1 ∈ st.content ∧ b.1.id = r.elem.id ∧
        ∃ s ∈ st.scores.segs, b.1 ∈ s.elems ∧ b.2.1 = rankFromTop s.elems b.1 ∧ b.2.2 = 0 := by
  intro st' res
  obtain ⟨hok, hcon, -, -⟩ := Lists.updateElements_spec (sch := sch) h hes hd hnow
  have hids : ∀ v, v ∈ ElementIDs.sort (Elements.ids (Elements.sortSlice es)) ↔ ∃ e ∈ es, e.id = v := by
    intro v
    rw [(ElementIDs.sort_perm _).mem_iff]
    unfold Elements.ids
    rw [List.mem_map]
    constructor
    · rintro ⟨e, he, rfl⟩; exact ⟨e, (sortSlice_perm es).mem_iff.1 he, rfl⟩
    · rintro ⟨e, he, rfl⟩; exact ⟨e, (sortSlice_perm es).mem_iff.2 he, rfl⟩
  have hid64 : ∀ v ∈ ElementIDs.sort (Elements.ids (Elements.sortSlice es)), v < 2 ^ 64 := by
    intro v hv
    obtain ⟨e, he, rfl⟩ := (hids v).1 hv
    exact (hes e he).id
  obtain ⟨c1, c2⟩ := C26_get_elements_partial sch st' _ radius hok hid64
  have hstid : ∀ e, (stamp now e).id = e.id := by intro e; unfold stamp; split <;> rfl
  let G := fun r : Segments.Ranked =>
    match Lists.oldRank st (ElementIDs.sort (Elements.ids (Elements.sortSlice es))) r.elem.id with
    | some b => { r with before := some b }
    | none => r
  have hG : ∀ r, (G r).elem = r.elem ∧ (G r).fromTop = r.fromTop ∧ (G r).fromBottom = r.fromBottom := by
    intro r
    simp only [G]
    split <;> exact ⟨rfl, rfl, rfl⟩
  have hres : res = (Lists.getElements sch st' (ElementIDs.sort (Elements.ids (Elements.sortSlice es))) radius).map G := rfl
  have hbn : ∀ r ∈ Lists.getElements sch st' (ElementIDs.sort (Elements.ids (Elements.sortSlice es))) radius,
      r.before = none := by
    intro r hr
    exact Lists.getElements_before r hr
  refine ⟨?_, ?_⟩
  · rw [hres, List.map_map, show ((·.elem) ∘ G : Segments.Ranked → Element) = (·.elem) from
      funext fun r => (hG r).1]
    refine c1.trans ?_
    have hnd : DistinctIDs (es.map (stamp now)) := by
      unfold DistinctIDs
      rw [List.map_map, show (fun e : Element => e.id) ∘ stamp now = (·.id) from funext hstid]
      exact hd
    refine (List.perm_ext_iff_of_nodup (hok.scores.distinct.nodup.sublist List.filter_sublist) hnd.nodup).2 ?_
    intro e
    have hce := hcon.mem_iff (a := e)
    rw [C16_upsert_meaning] at hce
    rw [List.mem_filter, decide_eq_true_eq, hids]
    refine (and_congr_left' hce).trans ?_
    constructor
    · rintro ⟨h1 | ⟨-, h1⟩, x, hx, hxe⟩
      · exact h1
      · exact absurd (by rw [hstid, hxe]) (h1 (stamp now x) (List.mem_map_of_mem hx))
    · intro he
      refine ⟨Or.inl he, ?_⟩
      obtain ⟨x, hx, rfl⟩ := List.mem_map.1 he
      exact ⟨x, hx, (hstid x).symm⟩
  · intro r hr
    rw [hres] at hr
    obtain ⟨r0, hr0, rfl⟩ := List.mem_map.1 hr
    obtain ⟨g1, g2, g3⟩ := hG r0
    refine ⟨by rw [g1, g2]; exact (c2 r0 hr0).1, by rw [g1, g3]; exact (c2 r0 hr0).2, ?_⟩
    have hmem : r0.elem.id ∈ ElementIDs.sort (Elements.ids (Elements.sortSlice es)) := by
      have := c1.mem_iff.1 (List.mem_map_of_mem hr0)
      rw [List.mem_filter, decide_eq_true_eq] at this
      exact this.2
    have hGb : (G r0).before = Lists.oldRank st (ElementIDs.sort (Elements.ids (Elements.sortSlice es))) r0.elem.id := by
      simp only [G]
      split
      · rename_i b hb; rw [hb]
      · rename_i hb; rw [hb]; exact hbn r0 hr0
    rw [g1, hGb]
    rcases Lists.oldRank_spec h hid64 hmem with ⟨o1, o2⟩ | ⟨s, j, e, o1, o2, o3, o4⟩
    · rw [o1]
      exact ⟨⟨fun _ => o2, fun _ => rfl⟩, by simp⟩
    · have hec : e ∈ st.content := mem_allElems.2 ⟨s, o1, List.mem_of_getElem? o2⟩
      rw [o4]
      refine ⟨⟨by simp, fun hno => absurd o3 (hno e hec)⟩, ?_⟩
      rintro b hb
      simp only [Option.some.injEq] at hb
      subst hb
      refine ⟨hec, o3, s, o1, List.mem_of_getElem? o2, ?_, rfl⟩
      have hst := h.scores.strict
      have hsub : s.elems.Sublist (allElems st.scores.segs) := by
        unfold allElems
        rw [List.flatMap_def]
        exact List.sublist_flatten_of_mem (List.mem_map_of_mem o1)
      exact (Segments.countP_pos_of_strict (List.Pairwise.sublist hsub hst) o2).1.symm

/-- With a single segment the previous rank from top is right. -/
theorem C29_before_single_segment (now : Nat) (sch : Sched) (st : ListState) (es : List Element) (radius : Nat)
    (h : ListOK st) (hes : ∀ e ∈ es, Storable e) (hd : DistinctIDs es) (hnow : now < 2 ^ 32 - 1)
    (hone : st.scores.segs.length = 1) :
    ∀ r ∈ Lists.updateResults now sch st es radius, ∀ b, r.before = some b →
      b.2.1 = rankFromTop st.content b.1 := by
  intro r hr b hb
  obtain ⟨-, hall⟩ := C29_update_results_partial now sch st es radius h hes hd hnow
  obtain ⟨-, -, -, hbef⟩ := hall r hr
  obtain ⟨-, -, s, hs, -, h1, -⟩ := hbef b hb
  obtain ⟨t, ht⟩ := List.length_eq_one_iff.1 hone
  rw [ht] at hs
  simp only [List.mem_singleton] at hs
  subst hs
  rw [h1]
  unfold ListState.content
  rw [ht]
  simp [allElems]

/-- The previous ranks are not those of the list: both are wrong for an element of the second segment. -/
theorem C29_before_wrong : ∃ st es, ListOK st ∧ (∀ e ∈ es, Storable e) ∧ DistinctIDs es ∧
    ∃ r ∈ Lists.updateResults 9 .inOrder st es 0, ∃ b, r.before = some b ∧
      b.2.1 ≠ rankFromTop st.content b.1 ∧ b.2.2 ≠ rankFromBottom st.content b.1 :=
  ⟨exList, [⟨60, 5, [], 0, 8⟩], exList_ok, by decide, by decide, by decide +kernel⟩

example : ListOK exList ∧ ((Lists.updateResults 9 .inOrder exList [⟨60, 5, [], 0, 8⟩, ⟨1, 77, [], 0, 0⟩] 0).map
    fun r => ((r.elem.id, r.fromTop, r.fromBottom), r.before.map fun b => (b.1.score, b.2.1, b.2.2))) =
    [((5, 2, 7), some (20, 2, 0)), ((77, 9, 0), none)] := ⟨exList_ok, by decide +kernel⟩

end Props

/-! ### C30 Verification: lemmas -/

namespace Segments

/-- What `Verify` accepts, if ranges are not empty and only the last one reaches 0. -/
theorem verifyFrom_sound {isIndex : Bool} : ∀ {segs : List Seg} {prev : Option Seg} {seen : List Nat} {H : Nat},
    segs ≠ [] → (∀ s ∈ segs, s.minTie < 2 ^ 32 ∧ s.maxTie < 2 ^ 32) → (∀ s ∈ segs, lo s ≤ hi s) →
    (∀ s ∈ segs.dropLast, 0 < lo s) → verifyFrom isIndex prev seen segs = true →
    (match prev with
      | none => H = top
      | some p => 0 < lo p ∧ p.minTie < 2 ^ 32 ∧ H = lo p - 1) →
    Tiles H segs ∧ (segs.map (·.id)).Nodup ∧ (∀ s ∈ segs, s.id ∉ seen) ∧
    (∀ s ∈ segs, s.updated ≠ 0) ∧
    (isIndex = true → ∀ p, prev = some p → ∀ s ∈ segs, s.minTie = 0 ∧ s.maxTie = 2 ^ 32 - 1)
  | [], _, _, _, h, _, _, _, _, _ => absurd rfl h
  | v :: rest, prev, seen, H, _, ht, hr, hz, hv, hp => by
    unfold verifyFrom at hv
    simp only [Bool.and_eq_true, decide_eq_true_eq, Bool.not_eq_true', Bool.or_eq_true] at hv
    obtain ⟨⟨⟨⟨hu, hs⟩, hm⟩, hl⟩, hrest⟩ := hv
    have hvt := ht v (by simp)
    have hhi : hi v = H ∧ (isIndex = true → ∀ p, prev = some p → v.minTie = 0 ∧ v.maxTie = 2 ^ 32 - 1) := by
      cases prev with
      | none =>
        simp only [Bool.and_eq_true, decide_eq_true_eq] at hm hp
        unfold maxU64 maxU32 at hm
        refine ⟨?_, by simp⟩
        unfold hi
        rw [hm.1, hm.2, hp]; rfl
      | some p =>
        simp only [Bool.and_eq_true, decide_eq_true_eq, Bool.or_eq_true, Bool.not_eq_true'] at hm hp
        refine ⟨?_, ?_⟩
        · have := prevMax_cases hm.1.symm
          unfold hi lo pos at *
          omega
        · intro hi' _ _
          rcases hm.2 with h | h
          · rw [h] at hi'; simp at hi'
          · exact h
    have hse : v.id ∉ seen := by simpa using hs
    cases rest with
    | nil =>
      refine ⟨?_, by simp, by simpa using hse, by simpa using hu, ?_⟩
      · unfold Tiles
        refine ⟨hhi.1, ?_⟩
        unfold lo pos
        rcases hl with h | h
        · simp at h
        · omega
      · intro hi' p hp' s hsm
        simp only [List.mem_singleton] at hsm
        subst hsm
        exact hhi.2 hi' p hp'
    | cons w rest =>
      have hz0 : 0 < lo v := hz v (by simp)
      obtain ⟨i1, i2, i3, i4, i5⟩ := verifyFrom_sound (isIndex := isIndex) (segs := w :: rest) (prev := some v)
        (seen := v.id :: seen) (H := lo v - 1) (by simp) (fun s hs => ht s (by simp_all))
        (fun s hs => hr s (List.mem_cons_of_mem _ hs)) (fun s hs => hz s (by
          rw [List.dropLast_cons_of_ne_nil (by simp)]; exact List.mem_cons_of_mem _ hs)) hrest ⟨hz0, hvt.1, rfl⟩
      refine ⟨?_, ?_, ?_, ?_, ?_⟩
      · unfold Tiles
        exact ⟨hhi.1, hz0, hr v (by simp), i1⟩
      · rw [List.map_cons, List.nodup_cons]
        refine ⟨fun hm' => ?_, i2⟩
        obtain ⟨s, hs', he⟩ := List.mem_map.1 hm'
        exact i3 s hs' (by rw [he]; simp)
      · intro s hs'
        rcases List.mem_cons.1 hs' with rfl | hs'
        · exact hse
        · intro hc; exact i3 s hs' (List.mem_cons_of_mem _ hc)
      · intro s hs'
        rcases List.mem_cons.1 hs' with rfl | hs'
        · exact hu
        · exact i4 s hs'
      · intro hi' p hp' s hs'
        rcases List.mem_cons.1 hs' with rfl | hs'
        · exact hhi.2 hi' p hp'
        · exact i5 hi' v rfl s hs'

theorem verify_aligned {segs : List Seg} (h : verifyFrom true none [] segs = true) (hne : segs ≠ [])
    (ht : ∀ s ∈ segs, s.minTie < 2 ^ 32 ∧ s.maxTie < 2 ^ 32)
    (hr : ∀ s ∈ segs, lo s ≤ hi s) (hz : ∀ s ∈ segs.dropLast, 0 < lo s) :
    ∀ s ∈ segs, s.minTie = 0 ∧ s.maxTie = 2 ^ 32 - 1 := by
  cases segs with
  | nil => exact absurd rfl hne
  | cons v rest =>
    unfold verifyFrom at h
    simp only [Bool.and_eq_true, decide_eq_true_eq, Bool.not_eq_true', Bool.or_eq_true] at h
    obtain ⟨⟨⟨-, hm⟩, hl⟩, hrest⟩ := h
    have hvt := ht v (by simp)
    cases rest with
    | nil =>
      intro s hs
      simp only [List.mem_singleton] at hs
      subst hs
      rcases hl with h | h
      · simp at h
      · exact ⟨h.2, hm.2⟩
    | cons w rest =>
      have hz0 : 0 < lo v := hz v (by simp)
      obtain ⟨-, -, -, -, i5⟩ := verifyFrom_sound (isIndex := true) (segs := w :: rest) (prev := some v)
        (seen := [v.id]) (H := lo v - 1) (by simp) (fun s hs => ht s (by simp_all))
        (fun s hs => hr s (List.mem_cons_of_mem _ hs)) (fun s hs => hz s (by
          rw [List.dropLast_cons_of_ne_nil (by simp)]; exact List.mem_cons_of_mem _ hs)) hrest ⟨hz0, hvt.1, rfl⟩
      have hall := i5 rfl v rfl
      intro s hs
      rcases List.mem_cons.1 hs with rfl | hs
      · refine ⟨?_, hm.2⟩
        have hw := hall w (by simp)
        unfold verifyFrom at hrest
        simp only [Bool.and_eq_true, decide_eq_true_eq, Bool.not_eq_true', Bool.or_eq_true] at hrest
        have := prevMax_cases hrest.1.1.2.1.symm
        omega
      · exact hall s hs

theorem verifySeg_sound {s : Seg} (h : verifySeg s = true) (ht : s.minTie < 2 ^ 32 ∧ s.maxTie < 2 ^ 32)
    (hst : ∀ e ∈ s.elems, Storable e) :
    Spec.Ranked s.elems ∧ s.n = s.elems.length ∧ ∀ e ∈ s.elems, InRange s e := by
  unfold verifySeg at h
  simp only [Bool.and_eq_true, decide_eq_true_eq] at h
  obtain ⟨⟨⟨h1, h2⟩, h3⟩, h4⟩ := h
  have hrk := (isSorted_iff _).1 h1
  refine ⟨hrk, h2, ?_⟩
  have hsel := (filterIdx_sel ht hst (falling_of_ranked hrk fun e he => (hst e he).tie)).1
  rw [h3, h4, List.drop_zero, List.take_length] at hsel
  intro e he
  rw [hsel] at he
  unfold sel at he
  rw [List.mem_filter, decide_eq_true_eq] at he
  exact he.2

theorem verify_sound {s : Segs} (h1 : verify s = true) (h2 : verifyElements s = true)
    (ht : ∀ g ∈ s.segs, g.minTie < 2 ^ 32 ∧ g.maxTie < 2 ^ 32)
    (hst : ∀ e ∈ allElems s.segs, Storable e)
    (hr : ∀ g ∈ s.segs, lo g ≤ hi g) (hz : ∀ g ∈ s.segs.dropLast, 0 < lo g) :
    SegsOK s.segs ∧ Counted s.segs := by
  unfold verify at h1
  unfold verifyElements at h2
  simp only [Bool.and_eq_true, Bool.not_eq_true', List.isEmpty_eq_false_iff, List.all_eq_true,
    decide_eq_true_eq] at h1 h2
  obtain ⟨v1, v2, -, -, -⟩ := verifyFrom_sound (H := top) h1.1 ht hr hz h1.2 rfl
  have hseg : ∀ g ∈ s.segs, _ := fun g hg => verifySeg_sound (h2.1.1 g hg) (ht g hg)
    fun e he => hst e (mem_allElems.2 ⟨g, hg, he⟩)
  refine ⟨⟨v1, ht, fun g hg => (hseg g hg).2.2, fun g hg => (hseg g hg).1, ?_, hst, v2⟩,
    fun g hg => (hseg g hg).2.1⟩
  have hd := h2.1.2
  unfold idSegs at hd
  unfold DistinctIDs allElems
  rw [List.map_flatMap] at hd ⊢
  simpa [List.map_map, Function.comp_def] using hd

theorem verifyFrom_complete {isIndex : Bool} : ∀ {segs : List Seg} {prev : Option Seg} {seen : List Nat} {H : Nat},
    Tiles H segs → (∀ s ∈ segs, s.minTie < 2 ^ 32 ∧ s.maxTie < 2 ^ 32) → (∀ s ∈ segs, s.updated ≠ 0) →
    (segs.map (·.id)).Nodup → (∀ s ∈ segs, s.id ∉ seen) →
    (isIndex = true → ∀ s ∈ segs, s.minTie = 0 ∧ s.maxTie = 2 ^ 32 - 1) →
    (match prev with
      | none => H = top
      | some p => 0 < lo p ∧ p.minTie < 2 ^ 32 ∧ H = lo p - 1) →
    verifyFrom isIndex prev seen segs = true
  | [], _, _, _, h, _, _, _, _, _, _ => absurd h (by unfold Tiles; exact id)
  | v :: rest, prev, seen, H, htl, ht, hu, hn, hs, hal, hp => by
    have hvt := ht v (by simp)
    have hhi : hi v = H := by
      cases rest with
      | nil => unfold Tiles at htl; exact htl.1
      | cons w rest => unfold Tiles at htl; exact htl.1
    unfold verifyFrom
    simp only [Bool.and_eq_true, decide_eq_true_eq, Bool.not_eq_true', Bool.or_eq_true]
    refine ⟨⟨⟨⟨hu v (by simp), by simpa using hs v (by simp)⟩, ?_⟩, ?_⟩, ?_⟩
    · cases prev with
      | none =>
        simp only [Bool.and_eq_true, decide_eq_true_eq] at hp ⊢
        subst hp
        unfold hi top pos at hhi
        unfold maxU64 maxU32
        omega
      | some p =>
        simp only [Bool.and_eq_true, decide_eq_true_eq, Bool.or_eq_true, Bool.not_eq_true'] at hp ⊢
        refine ⟨?_, ?_⟩
        · generalize hpm : prevMax p.min p.minTie = pm
          obtain ⟨a, b⟩ := pm
          have := prevMax_cases hpm
          rw [Prod.mk.injEq]
          unfold hi lo pos at *
          omega
        · cases isIndex with
          | false => exact Or.inl rfl
          | true => exact Or.inr (hal rfl v (by simp))
    · cases rest with
      | nil =>
        right
        unfold Tiles at htl
        have := htl.2
        unfold lo pos at this
        omega
      | cons w rest => left; rfl
    · cases rest with
      | nil => unfold verifyFrom; rfl
      | cons w rest =>
        unfold Tiles at htl
        rw [List.map_cons, List.nodup_cons] at hn
        refine verifyFrom_complete (H := lo v - 1) htl.2.2.2 (fun s hs' => ht s (List.mem_cons_of_mem _ hs'))
          (fun s hs' => hu s (List.mem_cons_of_mem _ hs')) hn.2 ?_
          (fun hi' s hs' => hal hi' s (List.mem_cons_of_mem _ hs')) ⟨htl.2.1, hvt.1, rfl⟩
        intro s hs' hc
        rcases List.mem_cons.1 hc with h | h
        · exact hn.1 (List.mem_map.2 ⟨s, hs', h⟩)
        · exact hs s (List.mem_cons_of_mem _ hs') h

theorem verifySeg_complete {s : Seg} (ht : s.minTie < 2 ^ 32 ∧ s.maxTie < 2 ^ 32)
    (hst : ∀ e ∈ s.elems, Storable e) (hrk : Spec.Ranked s.elems) (hn : s.n = s.elems.length)
    (hin : ∀ e ∈ s.elems, InRange s e) : verifySeg s = true := by
  unfold verifySeg
  simp only [Bool.and_eq_true, decide_eq_true_eq]
  rw [filterIdx_below ht hst fun e he => (hin e he).2]
  refine ⟨⟨⟨(isSorted_iff _).2 hrk, hn⟩, rfl⟩, ?_⟩
  dsimp only
  rw [takeWhile_congr' (q := fun _ => true) fun e he => by simpa using (hin e he).1]
  have : ∀ l : List Element, l.takeWhile (fun _ => true) = l := fun l => by
    induction l with
    | nil => rfl
    | cons a l ih => rw [List.takeWhile_cons, if_pos rfl, ih]
  rw [this]

theorem verify_complete {s : Segs} (h : SegsOK s.segs) (hc : Counted s.segs)
    (hal : s.isIndex = true → ∀ g ∈ s.segs, g.minTie = 0 ∧ g.maxTie = 2 ^ 32 - 1)
    (hus : ∀ g ∈ s.segs, g.updated ≠ 0) (hue : ∀ e ∈ allElems s.segs, e.updated ≠ 0) :
    verify s = true ∧ verifyElements s = true := by
  unfold verify verifyElements
  simp only [Bool.and_eq_true, Bool.not_eq_true', List.isEmpty_eq_false_iff, List.all_eq_true,
    decide_eq_true_eq]
  refine ⟨⟨tiles_ne_nil h.tiles, ?_⟩, ⟨fun g hg => ?_, ?_⟩, hue⟩
  · exact verifyFrom_complete (H := top) h.tiles h.ties hus h.segIDs (by simp) hal rfl
  · exact verifySeg_complete (h.ties g hg) (fun e he => h.storable e (mem_allElems.2 ⟨g, hg, he⟩))
      (h.ranked g hg) (hc g hg) (h.inRange g hg)
  · have hd := h.distinct
    unfold idSegs
    unfold DistinctIDs allElems at hd
    rw [List.map_flatMap] at hd ⊢
    simpa [List.map_map, Function.comp_def] using hd

theorem idSegs_false (segs : List Seg) : idSegs false segs = placement segs := rfl

theorem idSegs_true (segs : List Seg) : idSegs true segs = indexed segs := by
  unfold idSegs indexed allElems
  rw [List.map_flatMap]
  rfl

end Segments

namespace Lists

theorem eq_of_fst {b : List (Nat × Nat)} (h : b.Pairwise fun x y => x.1 ≠ y.1) {p q : Nat × Nat} (hq : q ∈ b) (hp : p ∈ b)
    (he : q.1 = p.1) : q = p := by
  induction b with
  | nil => simp at hq
  | cons x b ih =>
    rw [List.pairwise_cons] at h
    rcases List.mem_cons.1 hq with hq1 | hq1
    · rcases List.mem_cons.1 hp with hp1 | hp1
      · rw [hq1, hp1]
      · exact absurd (hq1 ▸ he) (h.1 p hp1)
    · rcases List.mem_cons.1 hp with hp1 | hp1
      · exact absurd (hp1 ▸ he.symm) (h.1 q hq1)
      · exact ih h.2 hq1 hp1

theorem sameMap_iff {a b : List (Nat × Nat)} (ha : (a.map (·.1)).Nodup) (hb : (b.map (·.1)).Nodup) :
    sameMap a b = true ↔ b.Perm a := by
  unfold sameMap
  simp only [Bool.and_eq_true, List.all_eq_true, List.contains_eq_mem, decide_eq_true_eq]
  have hna := nodup_of_map (fun p : Nat × Nat => p.1) ha
  have hnb := nodup_of_map (fun p : Nat × Nat => p.1) hb
  constructor
  · rintro ⟨h1, h2⟩
    refine (List.perm_ext_iff_of_nodup hnb hna).2 fun p => ⟨fun hp => ?_, fun hp => h1 p hp⟩
    obtain ⟨q, hq, hqe⟩ := List.mem_map.1 (h2 p hp)
    have hqb := h1 q hq
    have : q = p := by
      exact eq_of_fst (List.pairwise_map.1 hb) hqb hp hqe
    rw [← this]; exact hq
  · intro h
    exact ⟨fun p hp => h.mem_iff.2 hp, fun p hp => List.mem_map_of_mem (h.mem_iff.1 hp)⟩

end Lists

namespace Props

/-! ### C30 Verification -/

/-- Partial (soundness): a verified list has the properties of a well-formed one: the segments tile the
range, every element is in the segment it belongs to, IDs are unique, the index maps every ID to its
segment and nothing else. This needs two facts that verification does not check: the range of a segment is
not empty, and only the range of the last one reaches 0. Fields have the size of their Go types. -/
theorem C30_verify_sound_partial (st : ListState) (h1 : Lists.verify st = true) (h2 : Lists.verifyElements st = true)
    (hty : ∀ s ∈ st.scores.segs ++ st.index.segs, s.minTie < 2 ^ 32 ∧ s.maxTie < 2 ^ 32 ∧ ∀ e ∈ s.elems, Storable e)
    (hrange : ∀ s ∈ st.scores.segs ++ st.index.segs, lo s ≤ hi s)
    (hzero : ∀ s ∈ st.scores.segs.dropLast ++ st.index.segs.dropLast, 0 < lo s) :
    SegsOK st.scores.segs ∧ SegsOK st.index.segs ∧ Counted st.scores.segs ∧ Counted st.index.segs ∧
    (indexed st.index.segs).Perm (placement st.scores.segs) ∧
    (∀ s ∈ st.index.segs, s.minTie = 0 ∧ s.maxTie = 2 ^ 32 - 1) ∧
    st.scores.isIndex = false ∧ st.index.isIndex = true := by
  unfold Lists.verify at h1
  unfold Lists.verifyElements at h2
  simp only [Bool.and_eq_true, Bool.not_eq_true', decide_eq_true_eq] at h1 h2
  obtain ⟨⟨⟨⟨f1, f2⟩, -⟩, v1⟩, v2⟩ := h1
  obtain ⟨⟨e1, e2⟩, hsm⟩ := h2
  have hmem : ∀ {segs : List Seg}, (∀ s ∈ segs, ∀ e ∈ s.elems, Storable e) → ∀ e ∈ allElems segs, Storable e := by
    intro segs h e he
    obtain ⟨s, hs, hes⟩ := mem_allElems.1 he
    exact h s hs e hes
  have ht2 : ∀ s ∈ st.index.segs, s.minTie < 2 ^ 32 ∧ s.maxTie < 2 ^ 32 := fun s hs =>
    ⟨(hty s (by simp [hs])).1, (hty s (by simp [hs])).2.1⟩
  obtain ⟨a1, a2⟩ := Segments.verify_sound v1 e1
    (fun s hs => ⟨(hty s (by simp [hs])).1, (hty s (by simp [hs])).2.1⟩)
    (hmem fun s hs => (hty s (by simp [hs])).2.2) (fun s hs => hrange s (by simp [hs]))
    (fun s hs => hzero s (by simp [hs]))
  obtain ⟨b1, b2⟩ := Segments.verify_sound v2 e2 ht2
    (hmem fun s hs => (hty s (by simp [hs])).2.2) (fun s hs => hrange s (by simp [hs]))
    (fun s hs => hzero s (by simp [hs]))
  refine ⟨a1, b1, a2, b2, ?_, ?_, f1, f2⟩
  · rw [Segments.idSegs_false, Segments.idSegs_true] at hsm
    refine (Lists.sameMap_iff ?_ ?_).1 hsm
    · rw [placement_ids]; exact a1.distinct
    · rw [indexed_ids]; exact b1.distinct
  · unfold Segments.verify at v2
    rw [f2] at v2
    simp only [Bool.and_eq_true, Bool.not_eq_true', List.isEmpty_eq_false_iff] at v2
    exact Segments.verify_aligned v2.2 v2.1 ht2 (fun s hs => hrange s (by simp [hs]))
      (fun s hs => hzero s (by simp [hs]))

/-- Completeness: well-formed lists with update times and sizes in order are accepted. -/
theorem C30_verify_complete (st : ListState) (h : ListOK st) (hsz : st.mergeSize ≤ st.splitSize)
    (hus : ∀ s ∈ st.scores.segs ++ st.index.segs, s.updated ≠ 0 ∧ ∀ e ∈ s.elems, e.updated ≠ 0) :
    Lists.verify st = true ∧ Lists.verifyElements st = true := by
  have hel : ∀ {segs : List Seg}, (∀ s ∈ segs, ∀ e ∈ s.elems, e.updated ≠ 0) → ∀ e ∈ allElems segs, e.updated ≠ 0 := by
    intro segs h e he
    obtain ⟨s, hs, hes⟩ := mem_allElems.1 he
    exact h s hs e hes
  obtain ⟨a1, a2⟩ := Segments.verify_complete (s := st.scores) h.scores h.scoresCount
    (by rw [h.flags.1]; simp) (fun s hs => (hus s (by simp [hs])).1) (hel fun s hs => (hus s (by simp [hs])).2)
  obtain ⟨b1, b2⟩ := Segments.verify_complete (s := st.index) h.index h.indexCount
    (fun _ => h.link.aligned) (fun s hs => (hus s (by simp [hs])).1) (hel fun s hs => (hus s (by simp [hs])).2)
  unfold Lists.verify Lists.verifyElements
  simp only [Bool.and_eq_true, Bool.not_eq_true', decide_eq_true_eq]
  refine ⟨⟨⟨⟨h.flags, hsz⟩, a1⟩, b1⟩, ⟨a2, b2⟩, ?_⟩
  rw [Segments.idSegs_false, Segments.idSegs_true]
  refine (Lists.sameMap_iff ?_ ?_).2 h.link.complete
  · rw [placement_ids]; exact h.scores.distinct
  · rw [indexed_ids]; exact h.index.distinct

/-- Score segments with overlapping ranges: the range of the second one is reversed. -/
def exReversed : ListState :=
  { scores := { segs := [⟨1, 5, 2 ^ 64 - 1, 0, 2 ^ 32 - 1, 1, 9, [⟨50, 1, [], 0, 9⟩]⟩, ⟨2, 101, 4, 0, 2 ^ 32 - 1, 0, 9, []⟩,
        ⟨3, 0, 100, 0, 2 ^ 32 - 1, 1, 9, [⟨60, 2, [], 0, 9⟩]⟩], nextID := 4, isIndex := false }
    index := { segs := [⟨1, 0, 2 ^ 64 - 1, 0, 2 ^ 32 - 1, 2, 9, [⟨2, 2, [], 3, 9⟩, ⟨1, 1, [], 1, 9⟩]⟩], nextID := 2,
               isIndex := true }
    mergeSize := 2, splitSize := 4 }

/-- Verification accepts a list whose segments do not tile the range and whose elements are not ranked. -/
theorem C30_verify_unsound : ∃ st, Lists.verify st = true ∧ Lists.verifyElements st = true ∧
    ¬ Tiles top st.scores.segs ∧ ¬ Ranked st.content :=
  ⟨exReversed, by decide +kernel, by decide +kernel, by decide +kernel, by decide +kernel⟩

/-- An index with an entry that is filed under another ID. -/
def exMisfiled : ListState :=
  { scores := { segs := [⟨1, 0, 2 ^ 64 - 1, 0, 2 ^ 32 - 1, 1, 9, [⟨50, 1, [], 0, 9⟩]⟩], nextID := 2, isIndex := false }
    index := { segs := [⟨1, 0, 2 ^ 64 - 1, 0, 2 ^ 32 - 1, 1, 9, [⟨7, 1, [], 1, 9⟩]⟩], nextID := 2, isIndex := true }
    mergeSize := 2, splitSize := 4 }

/-- Verification accepts an index in which an element is not found. -/
theorem C30_verify_misses_index : ∃ st, Lists.verify st = true ∧ Lists.verifyElements st = true ∧
    (∃ e ∈ st.content, e.id = 1) ∧ Lists.getElements .inOrder st [1] 0 = [] :=
  ⟨exMisfiled, by decide +kernel, by decide +kernel, by decide +kernel, by decide +kernel⟩

example : ListOK exList ∧ exList.mergeSize ≤ exList.splitSize ∧
    (∀ s ∈ exList.scores.segs ++ exList.index.segs, s.updated ≠ 0 ∧ ∀ e ∈ s.elems, e.updated ≠ 0) ∧
    (∀ s ∈ exList.scores.segs ++ exList.index.segs, s.minTie < 2 ^ 32 ∧ s.maxTie < 2 ^ 32 ∧ ∀ e ∈ s.elems, Storable e) ∧
    (∀ s ∈ exList.scores.segs ++ exList.index.segs, lo s ≤ hi s) ∧
    (∀ s ∈ exList.scores.segs.dropLast ++ exList.index.segs.dropLast, 0 < lo s) :=
  ⟨exList_ok, by decide +kernel, by decide +kernel, by decide +kernel, by decide +kernel, by decide +kernel⟩

/-- Corrupt lists are rejected: a count that is wrong, an element outside of its segment, a missing index
element. -/
example : Lists.verifyElements { exList with scores := { exList.scores with
      segs := modifyAt (fun s => { s with n := s.n + 1 }) 1 exList.scores.segs } } = false ∧
    Lists.verifyElements { exList with index := { exList.index with
      segs := modifyAt (fun s => { s with elems := s.elems.tail, n := s.n - 1 }) 1 exList.index.segs } } = false := by
  decide +kernel

end Props
end RankDB

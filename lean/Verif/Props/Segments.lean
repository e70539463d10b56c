import Verif.Proofs.Build
import Verif.Props.Example
/-
Properties C10-C12: how elements and IDs are routed to segments.
Specification: `Verif/Spec/Lists.lean`.
-/
namespace RankDB.Props
open Spec

/-! ### C10 Bulk-built segments tile the whole score range -/

/-- Segments built from ranked elements: the ranges cover everything exactly once, elements are where
they belong (`SegsOK`), counters are exact, the content is the input, segment IDs are unused ones. -/
theorem C10_bulk_build (now want : Nat) (l : List Element) (isIndex : Bool) (hw : 0 < want)
    (hr : Ranked l) (hd : DistinctIDs l) (hst : ∀ e ∈ l, Storable e)
    (hix : isIndex = true → ∀ e ∈ l, e.score = e.id) :
    ∃ pieces, Elements.splitSize l want = some pieces ∧
      let segs := (Segments.newSegmentsElements now pieces isIndex).1
      SegsOK segs.segs ∧ Counted segs.segs ∧ allElems segs.segs = l ∧
      (∀ s ∈ segs.segs, 0 < s.id ∧ s.id < segs.nextID) ∧
      (isIndex = true → ∀ s ∈ segs.segs, s.minTie = 0 ∧ s.maxTie = 2 ^ 32 - 1) := by
  obtain ⟨pieces, hp⟩ := Elements.splitSize_some (l := l) hw
  obtain ⟨h1, h2, h3, -, h4, -, -, h5⟩ := Segments.newSegmentsElements_spec (now := now) hp hr hd hst hix
  exact ⟨pieces, hp, h1, h2, h3, h4, h5⟩

/-- `SegsOK` includes that every pair of score and tie-breaker belongs to exactly one segment. -/
theorem C10_ranges_cover_once (segs : List Seg) (h : SegsOK segs) (score tie : Nat) (hs : score < 2 ^ 64)
    (ht : tie < 2 ^ 32) :
    ∃ s ∈ segs, ∀ t ∈ segs, (lo t ≤ pos score tie ∧ pos score tie ≤ hi t) ↔ t = s := by
  obtain ⟨s, hs, h1, h2⟩ := tiles_exists h.tiles (pos_le_top hs ht)
  refine ⟨s, hs, fun t ht => ⟨fun ⟨h3, h4⟩ => ?_, fun he => he ▸ ⟨h1, h2⟩⟩⟩
  rcases tiles_apart (tiles_pairwise h.tiles) ht hs with h' | h' | h'
  · exact h'
  · omega
  · omega

example : Ranked (ranking exElems) ∧ DistinctIDs (ranking exElems) ∧ (∀ e ∈ ranking exElems, Storable e) ∧
    ((Elements.splitSize (ranking exElems) 2).map fun p =>
      (Segments.newSegmentsElements 1 p false).1.segs.map (·.elems.length)) = some [2, 2, 3, 2] := by
  decide +kernel

/-! ### C11 Range filter -/

/-- A segment selects exactly the elements in its range. -/
theorem C11_filter_selects (s : Seg) (l : List Element) (hr : Ranked l) (hst : ∀ e ∈ l, Storable e)
    (ht : s.minTie < 2 ^ 32 ∧ s.maxTie < 2 ^ 32) :
    Segment.filter s l = l.filter fun e => decide (InRange s e) :=
  (filterIdx_sel ht hst (falling_of_ranked hr fun e he => (hst e he).tie)).1

/-- Over all segments the pieces, one after the other, are the whole input. -/
theorem C11_filter_partitions (segs : List Seg) (h : SegsOK segs) (l : List Element) (hr : Ranked l)
    (hst : ∀ e ∈ l, Storable e) : segs.flatMap (fun s => Segment.filter s l) = l := by
  have hf := falling_of_ranked hr fun e he => (hst e he).tie
  rw [← sel_flatMap h.tiles hf fun e he => epos_le_top (hst e he)]
  apply flatMap_congr'
  intro s hs
  exact (filterIdx_sel (h.ties s hs) (by
    rw [sel_flatMap h.tiles hf fun e he => epos_le_top (hst e he)]; exact hst) (by
    rw [sel_flatMap h.tiles hf fun e he => epos_le_top (hst e he)]; exact hf)).1.trans (by
      rw [sel_flatMap h.tiles hf fun e he => epos_le_top (hst e he)])

/-- The bound on the update time in `Storable` is needed: an element at the lower end of the range with
the largest 32 bit update time is selected by no segment. -/
theorem C11_last_second_is_lost : ∃ (segs : List Seg) (e : Element), SegsOK segs ∧
    e.score < 2 ^ 64 ∧ e.id < 2 ^ 64 ∧ e.tie < 2 ^ 32 ∧ e.updated < 2 ^ 32 ∧
    segs.flatMap (fun s => Segment.filter s [e]) = [] :=
  ⟨[Segments.fullSegment 1 1], ⟨0, 1, [], 0, 2 ^ 32 - 1⟩, (segsOK_iff _).1 (by decide +kernel), by decide +kernel⟩

example : Ranked (ranking exElems) ∧ SegsOK exList.scores.segs ∧
    exList.scores.segs.map (fun s => (Segment.filter s (ranking exElems)).length) = [3, 4, 2] :=
  ⟨by decide +kernel, exList_ok.scores, by decide +kernel⟩

/-! ### C12 Score routing -/

/-- Every ID is looked up in exactly one index segment, the one whose range contains it, with its
multiplicity, and descending order is kept. -/
theorem C12_score_routing (st : ListState) (h : ListOK st) (ids : List Nat) (hid : ∀ v ∈ ids, v < 2 ^ 64) :
    let routes := Segments.splitScores st.index.segs ids
    (routes.map (·.2)).flatten.Perm ids ∧
    (∀ r ∈ routes, r.2.Pairwise (fun a b => b ≤ a) ∧
      ∃ s, st.index.segs[r.1]? = some s ∧ ∀ v ∈ r.2, s.min ≤ v ∧ v ≤ s.max) ∧
    (routes.map (·.1)).Nodup := by
  have he := Segments.splitScores_eq h.index.tiles h.link.aligned hid
  simp only []
  refine ⟨?_, ?_, ?_⟩
  · refine List.Perm.trans (.of_eq ?_) (ElementIDs.sort_perm ids)
    have hsorted := ElementIDs.sort_sorted ids
    have hmem : ∀ v ∈ ElementIDs.sort ids, v < 2 ^ 64 := fun v hv =>
      hid v ((ElementIDs.sort_perm ids).mem_iff.1 hv)
    -- IDs as elements, to use the routing of elements
    obtain ⟨f, hf1, hf2⟩ : ∃ f : Nat → Element, (∀ v, (f v).score = v) ∧ ∀ v, (f v).tie = 0 :=
      ⟨fun v => { score := v, id := v }, fun _ => rfl, fun _ => rfl⟩
    have hfall : Falling ((ElementIDs.sort ids).map f) := by
      unfold Falling
      rw [List.pairwise_map]
      exact hsorted.imp fun h => by unfold epos pos; rw [hf1, hf1, hf2, hf2]; omega
    have hs := sel_flatMap h.index.tiles hfall (by
      intro e he
      obtain ⟨v, hv, rfl⟩ := List.mem_map.1 he
      exact pos_le_top (by rw [hf1]; exact hmem v hv) (by rw [hf2]; omega))
    have hsel : ∀ s ∈ st.index.segs, (sel s ((ElementIDs.sort ids).map f)).map (·.score) =
        Segments.selScores s (ElementIDs.sort ids) := by
      intro s hs
      unfold sel Segments.selScores
      rw [List.filter_map, List.map_map]
      have : (fun x => x.score) ∘ f = id := funext hf1
      rw [this, List.map_id]
      apply List.filter_congr
      intro v hv
      have ha := h.link.aligned s hs
      have := Segments.inRange_aligned ha (e := f v) (by rw [hf2]; omega)
      rw [hf1] at this
      rw [Bool.eq_iff_iff, decide_eq_true_eq, Function.comp_apply, decide_eq_true_eq]
      exact this
    have hs2 := congrArg (List.map (·.score)) hs
    rw [List.map_flatMap, List.map_map] at hs2
    have : ((fun x : Element => x.score) ∘ f) = id := funext hf1
    rw [this, List.map_id] at hs2
    rw [← hs2, he]
    rw [flatMap_congr' (g := fun s => Segments.selScores s (ElementIDs.sort ids)) hsel]
    rw [List.flatten_eq_flatMap, List.flatMap_map, Segments.filterMap_flatMap_eq, ← Segments.zipIdx_flatMap _ st.index.segs 0]
    apply flatMap_congr'
    rintro ⟨s, i⟩ _
    split
    · rename_i h0; simp only [] at h0; simp [h0]
    · simp
  · intro r hr
    rw [he] at hr
    obtain ⟨⟨s, i⟩, hsi, heq⟩ := List.mem_filterMap.1 hr
    split at heq
    · simp at heq
    · simp only [Option.some.injEq] at heq
      subst heq
      refine ⟨(ElementIDs.sort_sorted ids).filter _, s, (Segments.elemsAt_zipIdx hsi).1, ?_⟩
      intro v hv
      exact (Segments.mem_selScores.1 hv).2
  · rw [he]
    have : ∀ (segs : List Seg) (k : Nat), (((segs.zipIdx k).filterMap fun p =>
        if Segments.selScores p.1 (ElementIDs.sort ids) = [] then none
        else some (p.2, Segments.selScores p.1 (ElementIDs.sort ids))).map (·.1)).Nodup ∧
        ∀ i ∈ (((segs.zipIdx k).filterMap fun p =>
          if Segments.selScores p.1 (ElementIDs.sort ids) = [] then none
          else some (p.2, Segments.selScores p.1 (ElementIDs.sort ids))).map (·.1)), k ≤ i := by
      intro segs
      induction segs with
      | nil => intro k; simp
      | cons s ss ih =>
        intro k
        obtain ⟨i1, i2⟩ := ih (k + 1)
        rw [List.zipIdx_cons, List.filterMap_cons]
        simp only []
        split
        · rename_i b hb
          exact ⟨i1, fun i hi => by have := i2 i hi; omega⟩
        · rename_i b hb
          split at hb
          · simp at hb
          · simp only [Option.some.injEq] at hb
            subst hb
            rw [List.map_cons, List.nodup_cons]
            refine ⟨⟨fun hm => by have := i2 _ hm; simp only [] at this; omega, i1⟩, ?_⟩
            intro i hi
            rcases List.mem_cons.1 hi with rfl | hi
            · exact Nat.le_refl _
            · have := i2 i hi; omega
    exact (this _ _).1

example : ListOK exList ∧ Segments.splitScores exList.index.segs [2, 9, 4, 9, 77] = [(0, [77, 9, 9]), (1, [4]), (2, [2])] :=
  ⟨exList_ok, by decide +kernel⟩

end RankDB.Props

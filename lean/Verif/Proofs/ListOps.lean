import Verif.Proofs.Lookup
/-
Helper lemmas: Insert and DeleteElements of a list.
-/
namespace RankDB
open Spec

theorem placement_ids (segs : List Seg) : (placement segs).map (·.1) = (allElems segs).map (·.id) := by
  rw [tagged_placement, ← tagged_fst]
  simp [Function.comp_def]

theorem indexed_ids (segs : List Seg) : (indexed segs).map (·.1) = (allElems segs).map (·.id) := by
  unfold indexed; simp [Function.comp_def]

theorem Spec.IndexOK.ids {scores index : List Seg} (h : IndexOK scores index) :
    ((allElems index).map (·.id)).Perm ((allElems scores).map (·.id)) := by
  rw [← indexed_ids, ← placement_ids]; exact h.complete.map _

/-- Changes that only drop elements. -/
theorem segsOK_filter {segs : List Seg} (h : SegsOK segs) (g : Seg → Seg) (P : Element → Bool)
    (hg : ∀ s ∈ segs, SameRange (g s) s ∧ (g s).elems = s.elems.filter P) :
    SegsOK (segs.map g) ∧ SameRanges (segs.map g) segs ∧
    tagged (segs.map g) = (tagged segs).filter (fun p => P p.1) ∧
    allElems (segs.map g) = (allElems segs).filter P := by
  have hall : allElems (segs.map g) = (allElems segs).filter P := by
    unfold allElems
    rw [List.flatMap_map, List.filter_flatMap]
    exact flatMap_congr' fun s hs => (hg s hs).2
  have hsame : SameRanges (segs.map g) segs := forall₂_map_left g fun s hs => (hg s hs).1
  refine ⟨segsOK_of_same h hsame ?_ ?_ ?_ ?_, hsame, ?_, hall⟩
  · intro s hs e he
    obtain ⟨t, ht, rfl⟩ := List.mem_map.1 hs
    rw [(hg t ht).1.inRange]
    rw [(hg t ht).2] at he
    exact h.inRange t ht e (List.mem_filter.1 he).1
  · intro s hs
    obtain ⟨t, ht, rfl⟩ := List.mem_map.1 hs
    rw [(hg t ht).2]
    exact (h.ranked t ht).filter _
  · rw [hall]
    exact List.Pairwise.sublist (List.filter_sublist.map _) h.distinct
  · intro e he
    rw [hall] at he
    exact h.storable e (List.mem_filter.1 he).1
  · unfold tagged
    rw [List.flatMap_map, List.filter_flatMap]
    apply flatMap_congr'
    intro s hs
    rw [(hg s hs).1.1, (hg s hs).2, List.filter_map]
    rfl

theorem Spec.ListOK.segID_lt {st : ListState} (h : ListOK st) {s : Seg} (hs : s ∈ st.scores.segs) :
    s.id < 2 ^ 32 := by
  have := (h.scoresIDs.1 s hs).2
  have := h.scoresIDs.2
  omega

theorem asIndex_storable {e : Element} (h : Storable e) (s : Nat) : Storable (e.asIndex s) where
  score := h.id
  id := h.id
  tie := Nat.mod_lt _ (by decide)
  updated := h.updated

namespace Lists
open Segments

theorem insertChunk_spec {now : Nat} {sch : Sched} {st : ListState} {l : List Element} (h : ListOK st)
    (hl : ∀ e ∈ l, Storable e) (hd : DistinctIDs (st.content ++ l)) :
    ListOK (insertChunk now sch st l) ∧ (insertChunk now sch st l).content.Perm (st.content ++ l) := by
  have hp := sortSlice_perm l
  obtain ⟨a1, a2, a3, a4, a5, a6⟩ := insert_spec (now := now) (sch := sch) (segs := st.scores.segs) (l := Elements.sortSlice l)
    h.scores (fun e he => hl e (hp.mem_iff.1 he)) (hd.perm (hp.symm.append_left _))
  generalize hr : Segments.insert now sch st.scores.segs (Elements.sortSlice l) = r at *
  have hq := sortSlice_perm r.2
  have hmem : ∀ x ∈ r.2, ∃ e ∈ l, ∃ s ∈ st.scores.segs, x = e.asIndex s.id := by
    intro x hx
    obtain ⟨s, hs, hx⟩ := List.mem_flatMap.1 (a6.mem_iff.1 hx)
    obtain ⟨e, he, rfl⟩ := List.mem_map.1 hx
    exact ⟨e, hp.mem_iff.1 (mem_sel.1 he).1, s, hs, rfl⟩
  have hst : ∀ x ∈ Elements.sortSlice r.2, Storable x := by
    intro x hx
    obtain ⟨e, he, s, hs, rfl⟩ := hmem x (hq.mem_iff.1 hx)
    exact asIndex_storable (hl e he) _
  have hpairs : (r.2.map fun x => (x.id, x.tie)).Perm
      (st.scores.segs.flatMap fun s => (sel s (Elements.sortSlice l)).map fun e => (e.id, s.id)) := by
    refine (a6.map _).trans (.of_eq ?_)
    rw [List.map_flatMap]
    apply flatMap_congr'
    intro s hs
    simp [Function.comp_def, Element.asIndex, Nat.mod_eq_of_lt (h.segID_lt hs)]
  have hids : (r.2.map (·.id)).Perm (l.map (·.id)) := by
    have := hpairs.map (·.1)
    rw [List.map_flatMap] at this
    simp only [List.map_map, Function.comp_def] at this
    refine this.trans ?_
    rw [← List.map_flatMap]
    refine List.Perm.map _ ?_
    exact (sel_flatMap_perm h.scores.tiles (fun e he => hl e (hp.mem_iff.1 he))
      (fun e he => epos_le_top (hl e (hp.mem_iff.1 he)))).trans hp
  have hdi : DistinctIDs (allElems st.index.segs ++ Elements.sortSlice r.2) := by
    unfold DistinctIDs at *
    rw [List.map_append] at *
    exact ((h.link.ids.append ((hq.map _).trans hids)).nodup_iff).2 hd
  obtain ⟨b1, b2, b3, b4, b5, b6⟩ := insert_spec (now := now) (sch := sch) (segs := st.index.segs)
    (l := Elements.sortSlice r.2) h.index hst hdi
  have heq : insertChunk now sch st l =
      { st with
        scores := { st.scores with segs := r.1 }
        index := { st.index with segs := (Segments.insert now sch st.index.segs (Elements.sortSlice r.2)).1 } } := by
    unfold insertChunk; rw [hr]
  rw [heq]
  refine ⟨⟨a1, b1, a3 h.scoresCount, b3 h.indexCount, idsBelow_of_same a2 h.scoresIDs,
    idsBelow_of_same b2 h.indexIDs, ⟨?_, ?_, aligned_of_same b2 h.link.aligned⟩, h.flags⟩, ?_⟩
  · have e1 : (indexed (Segments.insert now sch st.index.segs (Elements.sortSlice r.2)).1).Perm
        (indexed st.index.segs ++ r.2.map fun x => (x.id, x.tie)) := by
      unfold indexed
      refine (b5.map _).trans ?_
      rw [List.map_append]
      exact (hq.map _).append_left _
    refine e1.trans ?_
    refine (h.link.complete.append hpairs).trans ?_
    simp only []
    rw [tagged_placement, tagged_placement]
    refine List.Perm.trans ?_ (a4.map _).symm
    rw [List.map_append, List.map_flatMap]
    simp only [List.map_map, Function.comp_def]
    exact .refl _
  · intro e he
    rcases List.mem_append.1 (b5.mem_iff.1 he) with he | he
    · exact h.link.byID e he
    · obtain ⟨e, he, s, hs, rfl⟩ := hmem e (hq.mem_iff.1 he)
      rfl
  · exact a5.trans (hp.append_left _)

theorem chunks_some {limit : Nat} (hl : 0 < limit) : ∀ (fuel : Nat) (e : List Element), e.length ≤ fuel →
    ∃ cs, chunks limit fuel e = some cs ∧ cs.flatten = e
  | 0, e, h => by
    unfold chunks
    rw [if_neg (by omega)]
    exact ⟨_, rfl, by simp⟩
  | fuel + 1, e, h => by
    unfold chunks
    split
    · obtain ⟨cs, h1, h2⟩ := chunks_some hl fuel (e.drop limit) (by simp; omega)
      exact ⟨e.take limit :: cs, by simp [h1], by simp [h2]⟩
    · exact ⟨_, rfl, by simp⟩

theorem chunks_flatten {limit : Nat} : ∀ {fuel : Nat} {e : List Element} {cs},
    chunks limit fuel e = some cs → cs.flatten = e
  | 0, e, cs, h => by
    unfold chunks at h
    split at h
    · simp at h
    · simp at h; simp [← h]
  | fuel + 1, e, cs, h => by
    unfold chunks at h
    split at h
    · cases hc : chunks limit fuel (e.drop limit) with
      | none => simp [hc] at h
      | some c =>
        simp [hc] at h
        rw [← h]
        simp [chunks_flatten hc]
    · simp at h; simp [← h]

theorem insertChunks_spec {now : Nat} {sch : Sched} : ∀ {cs : List (List Element)} {st : ListState}, ListOK st →
    (∀ e ∈ cs.flatten, Storable e) → DistinctIDs (st.content ++ cs.flatten) →
    ListOK (cs.foldl (insertChunk now sch) st) ∧
    (cs.foldl (insertChunk now sch) st).content.Perm (st.content ++ cs.flatten)
  | [], st, h, _, _ => ⟨h, by simp⟩
  | c :: cs, st, h, hl, hd => by
    rw [List.flatten_cons, ← List.append_assoc] at hd
    have hd1 : DistinctIDs (st.content ++ c) := by
      unfold DistinctIDs at *
      exact List.Pairwise.sublist ((List.sublist_append_left _ _).map _) hd
    obtain ⟨h1, h2⟩ := insertChunk_spec (now := now) (sch := sch) h (fun e he => hl e (by simp [he])) hd1
    obtain ⟨h3, h4⟩ := insertChunks_spec (now := now) (sch := sch) (cs := cs) h1
      (fun e he => hl e (by rw [List.flatten_cons]; exact List.mem_append_right _ he))
      (hd.perm (h2.symm.append_right _))
    refine ⟨h3, h4.trans ?_⟩
    rw [List.flatten_cons, ← List.append_assoc]
    exact h2.append_right _

theorem insertChunk_sizes (now : Nat) (sch : Sched) (cs : List (List Element)) (st : ListState) :
    (cs.foldl (insertChunk now sch) st).mergeSize = st.mergeSize ∧
    (cs.foldl (insertChunk now sch) st).splitSize = st.splitSize := by
  induction cs generalizing st with
  | nil => exact ⟨rfl, rfl⟩
  | cons c cs ih =>
    rw [List.foldl_cons]
    exact ih _

/-- `Insert` of new elements. -/
theorem insert_spec {now : Nat} {sch : Sched} {st st' : ListState} {l : List Element} (h : ListOK st)
    (hl : ∀ e ∈ l, Storable e) (hd : DistinctIDs (st.content ++ l)) (hi : insert now sch st l = some st') :
    ListOK st' ∧ st'.content.Perm (st.content ++ l) ∧
    st'.mergeSize = st.mergeSize ∧ st'.splitSize = st.splitSize := by
  unfold insert at hi
  cases hc : chunks (insertLimit st) l.length l with
  | none => simp [hc] at hi
  | some cs =>
    simp [hc] at hi
    have hf := chunks_flatten hc
    rw [← hf] at hl hd ⊢
    obtain ⟨h1, h2⟩ := insertChunks_spec (now := now) (sch := sch) h hl hd
    rw [hi] at h1 h2
    have := insertChunk_sizes now sch cs st
    rw [hi] at this
    exact ⟨h1, h2, this⟩

theorem insert_returns {now : Nat} {sch : Sched} {st : ListState} {l : List Element} (h : ListOK st)
    (hs : 4 ≤ st.splitSize) : ∃ st', insert now sch st l = some st' := by
  have : 0 < insertLimit st := by
    unfold insertLimit
    have h1 : 0 < st.splitSize / 4 := by omega
    have h2 : 0 < st.index.segs.length := List.length_pos_iff.2 (tiles_ne_nil h.index.tiles)
    have := Nat.mul_pos h1 h2
    omega
  obtain ⟨cs, h1, -⟩ := chunks_some this l.length l (Nat.le_refl _)
  exact ⟨_, by unfold insert; rw [h1]; rfl⟩

/-! ### DeleteElements -/

theorem deletedLists_eq {segs : List Seg} {idx : List Element} {g : Seg → List Nat} : ∀ {rest : List Seg} {k : Nat},
    (∀ i s, rest[i]? = some s → idsAt segs idx (k + i) = g s) →
    deletedLists segs idx k rest = rest.filterMap fun s =>
      if (g s).isEmpty then none
      else some (Elements.sortSlice ((s.elems.filter fun e => (g s).contains e.id).map (·.asIndex s.id)))
  | [], _, _ => rfl
  | s :: ss, k, h => by
    unfold deletedLists
    have h0 := h 0 s (by simp)
    simp only [Nat.add_zero] at h0
    simp only [h0]
    rw [deletedLists_eq (g := g) (rest := ss) (k := k + 1), List.filterMap_cons]
    · split <;> simp_all
    · intro i t ht
      rw [← h (i + 1) t (by simpa using ht)]; congr 1; omega

theorem mergeAll_spec : ∀ {ls : List (List Element)} {acc : List Element}, Spec.Ranked acc →
    (∀ l ∈ ls, Spec.Ranked l) →
    (ls.foldl (fun acc l => Elements.merge 0 false acc l) acc).Perm (acc ++ ls.flatten) ∧
    Spec.Ranked (ls.foldl (fun acc l => Elements.merge 0 false acc l) acc)
  | [], acc, h, _ => by simp [h]
  | l :: ls, acc, h, hl => by
    rw [List.foldl_cons]
    obtain ⟨h1, h2⟩ := mergeAll_spec (ls := ls)
      (Elements.merge_ranked 0 false acc l h (hl l (by simp))) (fun l' hl' => hl l' (by simp [hl']))
    refine ⟨h1.trans ?_, h2⟩
    rw [List.flatten_cons, ← List.append_assoc]
    exact (Elements.merge_perm 0 false acc l).append_right _

/-- The entries of `idx` point at the segments the elements are in. -/
theorem deleteElementsIdx_spec {now : Nat} {sch : Sched} {segs : List Seg} {idx : List Element} (h : SegsOK segs)
    (hidx : ∀ x ∈ idx, (x.id, x.tie) ∈ placement segs) :
    ∃ g : Seg → Seg, (deleteElementsIdx now sch segs idx).1 = segs.map g ∧
    (∀ s ∈ segs, SameRange (g s) s ∧ (g s).elems = s.elems.filter fun e => !((idx.map (·.id)).contains e.id)) ∧
    (∀ s ∈ segs, s.n = s.elems.length → (g s).n = (g s).elems.length) ∧
    (deleteElementsIdx now sch segs idx).2.Perm
      (((tagged segs).filter fun p => (idx.map (·.id)).contains p.1.id).map fun p => p.1.asIndex p.2) ∧
    Spec.Ranked (deleteElementsIdx now sch segs idx).2 := by
  -- the segment of an entry
  have hseg : ∀ x ∈ idx, ∃ s ∈ segs, s.id = x.tie ∧ ∃ e ∈ s.elems, e.id = x.id := by
    intro x hx
    have := hidx x hx
    unfold placement at this
    obtain ⟨s, hs, hm⟩ := List.mem_flatMap.1 this
    obtain ⟨e, he, heq⟩ := List.mem_map.1 hm
    simp only [Prod.mk.injEq] at heq
    exact ⟨s, hs, heq.2, e, he, heq.1⟩
  -- lookups by position are lookups by segment ID
  have hids : ∀ i s, segs[i]? = some s → idsAt segs idx (0 + i) = (idx.filter fun x => x.tie == s.id).map (·.id) := by
    intro i s hs
    unfold idsAt
    congr 1
    apply List.filter_congr
    intro x hx
    obtain ⟨t, ht, he, -⟩ := hseg x hx
    rw [Bool.eq_iff_iff, beq_iff_eq, beq_iff_eq, Nat.zero_add]
    exact segIndex_eq_iff h.segIDs (List.mem_map.2 ⟨t, ht, he⟩) hs
  have hmem : ∀ s ∈ segs, ∀ e ∈ s.elems, ((idx.filter fun x => x.tie == s.id).map (·.id)).contains e.id =
      (idx.map (·.id)).contains e.id := by
    intro s hs e he
    rw [Bool.eq_iff_iff, List.contains_iff_mem, List.contains_iff_mem]
    constructor
    · intro hm
      obtain ⟨x, hx, hxe⟩ := List.mem_map.1 hm
      exact List.mem_map.2 ⟨x, (List.mem_filter.1 hx).1, hxe⟩
    · intro hm
      obtain ⟨x, hx, hxe⟩ := List.mem_map.1 hm
      refine List.mem_map.2 ⟨x, List.mem_filter.2 ⟨hx, ?_⟩, hxe⟩
      obtain ⟨t, ht, h1, e', he', h2⟩ := hseg x hx
      have hee : e' = e := h.distinct.eq_of_id (mem_allElems.2 ⟨t, ht, he'⟩) (mem_allElems.2 ⟨s, hs, he⟩) (by rw [h2, hxe])
      subst hee
      have hts : t = s := tiles_unique h.tiles ht hs (h.inRange t ht e' he') (h.inRange s hs e' he)
      subst hts
      simp [h1]
  let g : Seg → Seg := fun s =>
    if ((idx.filter fun x => x.tie == s.id).map (·.id)).isEmpty then s
    else Segment.replace now s (s.elems.filter fun e => !(((idx.filter fun x => x.tie == s.id).map (·.id)).contains e.id))
  have hg : ∀ s ∈ segs, SameRange (g s) s ∧ (g s).elems = s.elems.filter fun e => !((idx.map (·.id)).contains e.id) := by
    intro s hs
    have hfc : (s.elems.filter fun e => !(((idx.filter fun x => x.tie == s.id).map (·.id)).contains e.id)) =
        s.elems.filter fun e => !((idx.map (·.id)).contains e.id) := by
      apply List.filter_congr
      intro e he
      rw [hmem s hs e he]
    simp only [g]
    split
    · rename_i hemp
      refine ⟨SameRange.refl s, ?_⟩
      rw [← hfc]
      rw [List.isEmpty_iff] at hemp
      rw [hemp]; exact (List.filter_eq_self.2 (by simp)).symm
    · exact ⟨⟨rfl, rfl, rfl, rfl, rfl⟩, hfc⟩
  refine ⟨g, ?_, hg, ?_, ?_, ?_⟩
  · unfold deleteElementsIdx
    apply mapFrom_eq_map
    intro i s hs
    unfold deleteIdxAt
    simp only [hids i s hs, g]
  · intro s hs hc
    simp only [g]
    split
    · exact hc
    · rfl
  · unfold deleteElementsIdx Segments.mergeAll
    simp only []
    rw [deletedLists_eq hids]
    refine (mergeAll_spec (by simp [Spec.Ranked]) ?_).1.trans ?_
    · intro l hl
      obtain ⟨s, hs, he⟩ := List.mem_filterMap.1 ((sch.perm _).mem_iff.1 hl)
      split at he
      · simp at he
      · simp at he; rw [← he]; exact sortSlice_ranked _
    · rw [List.nil_append]
      refine (sch.perm _).flatten.trans ?_
      rw [List.flatten_eq_flatMap, filterMap_flatMap_eq]
      unfold tagged
      rw [List.filter_flatMap, List.map_flatMap]
      apply flatMap_perm
      intro s hs
      rw [List.filter_map, List.map_map]
      have hfc : (s.elems.filter fun e => ((idx.filter fun x => x.tie == s.id).map (·.id)).contains e.id) =
          s.elems.filter fun e => (idx.map (·.id)).contains e.id := by
        apply List.filter_congr
        intro e he
        rw [hmem s hs e he]
      split
      · rename_i hemp
        rw [List.isEmpty_iff] at hemp
        rw [hemp] at hfc
        simp only [List.contains_nil] at hfc
        simp only [Option.map_none, Option.getD_none]
        rw [show ((fun p : Element × Nat => (idx.map (·.id)).contains p.1.id) ∘ fun e => (e, s.id)) =
          fun e => (idx.map (·.id)).contains e.id from rfl, ← hfc]
        simp
      · simp only [Option.map_some, Option.getD_some, id_eq]
        refine (sortSlice_perm _).trans ?_
        rw [hfc]
        exact .refl _
  · unfold deleteElementsIdx Segments.mergeAll
    simp only []
    rw [deletedLists_eq hids]
    refine (mergeAll_spec (by simp [Spec.Ranked]) ?_).2
    intro l hl
    obtain ⟨s, hs, he⟩ := List.mem_filterMap.1 ((sch.perm _).mem_iff.1 hl)
    split at he
    · simp at he
    · simp at he; rw [← he]; exact sortSlice_ranked _

theorem delSeg_spec {now : Nat} {segs : List Seg} {l : List Element} {P : Element → Bool}
    (hP : ∀ s ∈ segs, ∀ e ∈ s.elems, P e = !((sel s l).any (·.id == e.id))) :
    ∀ s ∈ segs, SameRange (delSeg now l s) s ∧ (delSeg now l s).elems = s.elems.filter P := by
  intro s hs
  have : s.elems.filter P = s.elems.filter fun e => !((sel s l).any (·.id == e.id)) :=
    List.filter_congr (hP s hs)
  rw [this]
  unfold delSeg
  split
  · rename_i h
    rw [h]; exact ⟨SameRange.refl s, (List.filter_eq_self.2 (by simp)).symm⟩
  · exact ⟨⟨rfl, rfl, rfl, rfl, rfl⟩, rfl⟩

/-- `DeleteElements` of IDs that may or may not exist. -/
theorem deleteElements_spec {now : Nat} {sch : Sched} {st : ListState} {ids : List Nat} (h : ListOK st)
    (hid : ∀ v ∈ ids, v < 2 ^ 64) :
    ListOK (deleteElements now sch st ids) ∧
    (deleteElements now sch st ids).content = remove st.content ids ∧
    (deleteElements now sch st ids).mergeSize = st.mergeSize ∧
    (deleteElements now sch st ids).splitSize = st.splitSize := by
  have hgi := getIndexElements_spec (sch := sch) h.isIndex hid
  generalize hE : getIndexElements sch st ids = E at hgi
  have hEmem : ∀ x, x ∈ E ↔ x ∈ allElems st.index.segs ∧ x.id ∈ ids := by
    intro x; rw [hgi.mem_iff]; simp
  have hplace : ∀ x ∈ E, (x.id, x.tie) ∈ placement st.scores.segs := by
    intro x hx
    rw [← h.link.complete.mem_iff]
    exact List.mem_map.2 ⟨x, ((hEmem x).1 hx).1, rfl⟩
  obtain ⟨g, g1, g2, g3, g4, g5⟩ := deleteElementsIdx_spec (now := now) (sch := sch) h.scores hplace
  -- IDs of elements of the list: found in the index iff requested
  have hcont : ∀ e ∈ st.content, (E.map (·.id)).contains e.id = ids.contains e.id := by
    intro e he
    rw [Bool.eq_iff_iff, List.contains_iff_mem, List.contains_iff_mem]
    constructor
    · intro hm
      obtain ⟨x, hx, hxe⟩ := List.mem_map.1 hm
      rw [← hxe]; exact ((hEmem x).1 hx).2
    · intro hm
      have : e.id ∈ (allElems st.index.segs).map (·.id) :=
        h.link.ids.mem_iff.2 (List.mem_map.2 ⟨e, he, rfl⟩)
      obtain ⟨x, hx, hxe⟩ := List.mem_map.1 this
      exact List.mem_map.2 ⟨x, (hEmem x).2 ⟨hx, by rw [hxe]; exact hm⟩, hxe⟩
  obtain ⟨s1, s2, s3, s4⟩ := segsOK_filter h.scores g _ g2
  have hcontent : allElems (st.scores.segs.map g) = remove st.content ids := by
    rw [s4]
    unfold remove ListState.content
    apply List.filter_congr
    intro e he
    rw [hcont e he]
  generalize hR : deleteElementsIdx now sch st.scores.segs E = R at *
  have hcnt : Counted (st.scores.segs.map g) := by
    intro s hs
    obtain ⟨t, ht, rfl⟩ := List.mem_map.1 hs
    exact g3 t ht (h.scoresCount t ht)
  -- new index
  have hR2 : ∀ x ∈ R.2, ∃ e ∈ allElems st.scores.segs, (e.id ∈ ids) ∧
      ∃ s ∈ st.scores.segs, e ∈ s.elems ∧ x = e.asIndex s.id := by
    intro x hx
    obtain ⟨⟨e, i⟩, hp, rfl⟩ := List.mem_map.1 (g4.mem_iff.1 hx)
    obtain ⟨hp1, hp2⟩ := List.mem_filter.1 hp
    obtain ⟨s, hs, rfl, he⟩ := mem_tagged.1 hp1
    have hc : e ∈ st.content := mem_allElems.2 ⟨s, hs, he⟩
    rw [hcont e hc, List.contains_iff_mem] at hp2
    exact ⟨e, hc, hp2, s, hs, he, rfl⟩
  have hst : ∀ x ∈ R.2, Storable x := by
    intro x hx
    obtain ⟨e, he, -, s, hs, -, rfl⟩ := hR2 x hx
    exact asIndex_storable (h.scores.storable e he) _
  have hfall : Falling R.2 := falling_of_ranked g5 fun x hx => (hst x hx).tie
  have hidxeq := Segments.deleteElements_eq (now := now) h.index.tiles h.index.ties hst hfall
    fun x hx => epos_le_top (hst x hx)
  have hP : ∀ s ∈ st.index.segs, ∀ y ∈ s.elems, (!(ids.contains y.id)) = !((sel s R.2).any (·.id == y.id)) := by
    intro s hs y hy
    congr 1
    have hyI : y ∈ allElems st.index.segs := mem_allElems.2 ⟨s, hs, hy⟩
    rw [Bool.eq_iff_iff, List.contains_iff_mem, List.any_eq_true]
    constructor
    · intro hm
      -- the element itself
      have hpl : (y.id, y.tie) ∈ placement st.scores.segs :=
        h.link.complete.mem_iff.1 (List.mem_map.2 ⟨y, hyI, rfl⟩)
      unfold placement at hpl
      obtain ⟨t, ht, hm'⟩ := List.mem_flatMap.1 hpl
      obtain ⟨e, he, heq⟩ := List.mem_map.1 hm'
      simp only [Prod.mk.injEq] at heq
      have hc : e ∈ st.content := mem_allElems.2 ⟨t, ht, he⟩
      refine ⟨e.asIndex t.id, mem_sel.2 ⟨?_, ?_⟩, by simp [Element.asIndex, heq.1]⟩
      · rw [g4.mem_iff]
        refine List.mem_map.2 ⟨(e, t.id), List.mem_filter.2 ⟨mem_tagged.2 ⟨t, ht, rfl, he⟩, ?_⟩, rfl⟩
        rw [hcont e hc, List.contains_iff_mem, heq.1]; exact hm
      · have hr := h.index.inRange s hs y hy
        have hsc := h.link.byID y hyI
        unfold InRange at *
        simp only [Element.asIndex]
        rw [heq.1, heq.2, ← hsc, Nat.mod_eq_of_lt (h.index.storable y hyI).tie]
        exact hr
    · rintro ⟨x, hx, hxy⟩
      obtain ⟨e, he, hm, t, ht, -, rfl⟩ := hR2 x (mem_sel.1 hx).1
      simp [Element.asIndex] at hxy
      rw [← hxy]; exact hm
  obtain ⟨i1, i2, i3, i4⟩ := segsOK_filter h.index (delSeg now R.2) _ (delSeg_spec hP)
  have hlink : ∀ idx : List Seg, allElems idx = (allElems st.index.segs).filter (fun y => !(ids.contains y.id)) →
      (indexed idx).Perm (placement (st.scores.segs.map g)) := by
    intro idx hidx
    rw [tagged_placement, s3]
    have e1 : indexed idx = (indexed st.index.segs).filter fun p => !(ids.contains p.1) := by
      unfold indexed
      rw [hidx, List.filter_map]
      rfl
    rw [e1]
    refine (h.link.complete.filter _).trans (.of_eq ?_)
    rw [tagged_placement, List.filter_map]
    congr 1
    apply List.filter_congr
    rintro ⟨e, i⟩ hp
    obtain ⟨s, hs, -, he⟩ := mem_tagged.1 hp
    simp only [Function.comp_def]
    rw [hcont e (mem_allElems.2 ⟨s, hs, he⟩)]
  have hidxn : Counted (st.index.segs.map (delSeg now R.2)) := by
    intro s hs
    obtain ⟨t, ht, rfl⟩ := List.mem_map.1 hs
    unfold delSeg
    split
    · exact h.indexCount t ht
    · rfl
  unfold deleteElements
  simp only [hE, hR]
  split
  · rename_i hemp
    rw [List.isEmpty_iff] at hemp
    have hnone : (allElems st.index.segs).filter (fun y => !(ids.contains y.id)) = allElems st.index.segs := by
      rw [List.filter_eq_self]
      intro y hy
      obtain ⟨s, hs, hys⟩ := mem_allElems.1 hy
      rw [hP s hs y hys, hemp]; rfl
    refine ⟨⟨?_, h.index, ?_, h.indexCount, ?_, h.indexIDs, ⟨?_, h.link.byID, h.link.aligned⟩, h.flags⟩, ?_, rfl, rfl⟩
    · simp only [g1]; exact s1
    · simp only [g1]; exact hcnt
    · simp only [g1]; exact idsBelow_of_same s2 h.scoresIDs
    · simp only [g1]; exact hlink _ hnone.symm
    · unfold ListState.content; simp only [g1]; exact hcontent
  · rw [hidxeq]
    refine ⟨⟨?_, i1, ?_, hidxn, ?_, idsBelow_of_same i2 h.indexIDs, ⟨?_, ?_, aligned_of_same i2 h.link.aligned⟩, h.flags⟩, ?_, rfl, rfl⟩
    · simp only [g1]; exact s1
    · simp only [g1]; exact hcnt
    · simp only [g1]; exact idsBelow_of_same s2 h.scoresIDs
    · simp only [g1]; exact hlink _ i4
    · intro e he
      simp only [] at he
      rw [i4] at he
      exact h.link.byID e (List.mem_filter.1 he).1
    · unfold ListState.content; simp only [g1]; exact hcontent

end Lists
end RankDB

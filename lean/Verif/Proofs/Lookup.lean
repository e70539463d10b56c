import Verif.Proofs.SegOps
/-
Helper lemmas: lookup of segments by ID, of index elements by ID.
-/
namespace RankDB
open Spec

theorem mapFrom_eq_map {f : Nat → Seg → Seg} {g : Seg → Seg} : ∀ {segs : List Seg} {k : Nat},
    (∀ i s, segs[i]? = some s → f (k + i) s = g s) → mapFrom f k segs = segs.map g
  | [], _, _ => rfl
  | s :: ss, k, h => by
    unfold mapFrom
    rw [List.map_cons, ← h 0 s (by simp), mapFrom_eq_map (g := g)]
    · rfl
    · intro i t ht
      have := h (i + 1) t (by simpa using ht)
      rw [← this]; congr 1; omega

theorem filterMap_congr' {α β : Type} {f g : α → Option β} : ∀ {l : List α}, (∀ a ∈ l, f a = g a) →
    l.filterMap f = l.filterMap g
  | [], _ => rfl
  | a :: l, h => by
    rw [List.filterMap_cons, List.filterMap_cons, h a (by simp),
      filterMap_congr' fun b hb => h b (by simp [hb])]

theorem nodup_of_map {α β : Type} (f : α → β) {l : List α} (h : (l.map f).Nodup) : l.Nodup :=
  List.Pairwise.of_map f (fun _ _ hne he => hne (congrArg f he)) h

namespace Segments

theorem segIndex_absent {id : Nat} : ∀ {segs : List Seg} {k acc : Nat}, id ∉ segs.map (·.id) →
    segIndex id segs k acc = acc
  | [], _, _, _ => rfl
  | s :: ss, k, acc, h => by
    simp only [List.map_cons, List.mem_cons, not_or] at h
    unfold segIndex
    rw [if_neg (fun he => h.1 he.symm), segIndex_absent h.2]

theorem segIndex_spec {id : Nat} : ∀ {segs : List Seg} {k acc i : Nat} {s : Seg},
    (segs.map (·.id)).Nodup → segs[i]? = some s → s.id = id → segIndex id segs k acc = k + i
  | [], _, _, _, _, _, h, _ => by simp at h
  | t :: ss, k, acc, i, s, hn, h, he => by
    simp only [List.map_cons, List.nodup_cons] at hn
    unfold segIndex
    cases i with
    | zero =>
      simp at h
      subst h
      rw [if_pos he, segIndex_absent (by rw [← he]; exact hn.1)]
      rfl
    | succ i =>
      simp at h
      rw [segIndex_spec hn.2 h he]; omega

/-- Positions and segment IDs correspond. -/
theorem segIndex_eq_iff {segs : List Seg} (hn : (segs.map (·.id)).Nodup) {id i : Nat} {s : Seg}
    (hid : id ∈ segs.map (·.id)) (hs : segs[i]? = some s) : segIndex id segs 0 0 = i ↔ id = s.id := by
  obtain ⟨t, ht, rfl⟩ := List.mem_map.1 hid
  obtain ⟨j, hj⟩ := List.mem_iff_getElem?.1 ht
  rw [segIndex_spec hn hj rfl]
  constructor
  · intro h
    have : j = i := by omega
    subst this
    rw [hj] at hs
    simp at hs; rw [hs]
  · intro h
    obtain ⟨hj', e1⟩ := List.getElem?_eq_some_iff.1 hj
    obtain ⟨hi', e2⟩ := List.getElem?_eq_some_iff.1 hs
    have : (segs.map (·.id))[j]'(by simpa) = (segs.map (·.id))[i]'(by simpa) := by
      simp [e1, e2, h]
    have := (List.getElem_inj hn).1 this
    omega

/-! ### splitScores -/

/-- The scores that belong to a segment. -/
def selScores (s : Seg) (l : List Nat) : List Nat := l.filter fun v => decide (s.min ≤ v ∧ v ≤ s.max)

theorem mem_selScores {s : Seg} {l : List Nat} {v : Nat} : v ∈ selScores s l ↔ v ∈ l ∧ s.min ≤ v ∧ v ≤ s.max := by
  simp [selScores]

theorem splitScoresLoop_eq {k H : Nat} {segs : List Seg} {l : List Nat}
    (ht : Tiles (pos H (2 ^ 32 - 1)) segs)
    (ha : ∀ s ∈ segs, s.minTie = 0 ∧ s.maxTie = 2 ^ 32 - 1)
    (hl : l.Pairwise fun a b => b ≤ a) (hH : ∀ v ∈ l, v ≤ H) :
    splitScoresLoop k segs l = (segs.zipIdx k).filterMap fun p =>
      if selScores p.1 l = [] then none else some (p.2, selScores p.1 l) := by
  induction segs generalizing k H l with
  | nil => simp [Tiles] at ht
  | cons s ss ih =>
    obtain ⟨h1, h2, h3⟩ := tiles_cons.1 ht
    have ha' := ha s (by simp)
    have hmax : s.max = H := by
      unfold hi at h1; rw [ha'.2] at h1
      exact (pos_inj (by omega) (by omega) h1).1
    have hle : lo s = s.min * 2 ^ 32 := by unfold lo pos; rw [ha'.1]; omega
    have hmm : s.min ≤ s.max := by
      unfold lo hi at h2; rw [ha'.1, ha'.2] at h2; unfold pos at h2; omega
    cases l with
    | nil => simp [splitScoresLoop, selScores]
    | cons v l =>
      unfold splitScoresLoop
      rw [List.zipIdx_cons, List.filterMap_cons]
      have hp : (v :: l).Pairwise (fun a b => decide (s.min ≤ b) = true → decide (s.min ≤ a) = true) :=
        hl.imp (by intro a b h; simp; omega)
      have htw : (v :: l).takeWhile (fun v => decide (s.min ≤ v)) = selScores s (v :: l) := by
        rw [takeWhile_eq_filter hp]
        unfold selScores
        apply List.filter_congr
        intro a ha
        have := hH a ha
        rw [Bool.eq_iff_iff]; simp; omega
      have hdw : (v :: l).dropWhile (fun v => decide (s.min ≤ v)) = (v :: l).filter (fun v => decide (v < s.min)) := by
        rw [dropWhile_eq_filter hp]
        apply List.filter_congr
        intro a ha
        rw [Bool.eq_iff_iff]; simp
      have hrest : ∀ {l' : List Nat} (_ : l' = (v :: l).filter (fun v => decide (v < s.min)))
          (_ : l'.Pairwise fun a b => b ≤ a),
          splitScoresLoop (k + 1) ss l' =
            (ss.zipIdx (k + 1)).filterMap fun p =>
              if selScores p.1 (v :: l) = [] then none else some (p.2, selScores p.1 (v :: l)) := by
        intro l' hl' hpl
        rcases h3 with ⟨rfl, h4⟩ | ⟨_, h4, h5⟩
        · simp [splitScoresLoop]
        · have h6 : lo s - 1 = pos (s.min - 1) (2 ^ 32 - 1) := by
            rw [hle] at h4 ⊢; unfold pos; omega
          rw [h6] at h5
          rw [ih h5 (fun s hs => ha s (by simp [hs])) hpl]
          · apply filterMap_congr'
            rintro ⟨t, i⟩ hti
            have htm : t ∈ ss := (List.mem_zipIdx hti).2.2 ▸ List.getElem_mem _
            have hts : selScores t l' = selScores t (v :: l) := by
              rw [hl']
              unfold selScores
              rw [List.filter_filter]
              apply List.filter_congr
              intro a _
              have := (tiles_le h5 t htm).2
              have ht' := ha t (by simp [htm])
              unfold hi at this; rw [ht'.2] at this; unfold pos at this
              rw [Bool.eq_iff_iff]; simp; omega
            simp only [hts]
          · intro a ha
            rw [hl'] at ha
            simp at ha; omega
      by_cases hv : s.min ≤ v
      · rw [if_pos hv, htw, hdw]
        have : selScores s (v :: l) ≠ [] := by
          have : v ∈ selScores s (v :: l) := mem_selScores.2 ⟨by simp, hv, by rw [hmax]; exact hH v (by simp)⟩
          intro h'; rw [h'] at this; simp at this
        simp only [if_neg this]
        rw [hrest rfl (hl.filter _)]
      · rw [if_neg hv]
        have : selScores s (v :: l) = [] := by
          rw [← htw, List.takeWhile_cons]; simp [hv]
        simp only [if_pos this]
        rw [hrest _ hl]
        rw [← hdw, List.dropWhile_cons]; simp [hv]

theorem splitScores_eq {segs : List Seg} {l : List Nat} (ht : Tiles top segs)
    (ha : ∀ s ∈ segs, s.minTie = 0 ∧ s.maxTie = 2 ^ 32 - 1) (hl : ∀ v ∈ l, v < 2 ^ 64) :
    splitScores segs l = segs.zipIdx.filterMap fun p =>
      if selScores p.1 (ElementIDs.sort l) = [] then none
      else some (p.2, selScores p.1 (ElementIDs.sort l)) := by
  unfold splitScores
  apply splitScoresLoop_eq (H := 2 ^ 64 - 1) ht ha (ElementIDs.sort_sorted l)
  intro v hv
  have := hl v ((ElementIDs.sort_perm l).mem_iff.1 hv)
  omega

theorem elemsAt_zipIdx {segs : List Seg} {s : Seg} {i : Nat} (h : (s, i) ∈ segs.zipIdx) :
    segs[i]? = some s ∧ elemsAt segs i = s.elems := by
  have h1 : segs[i]? = some s := List.mk_mem_zipIdx_iff_getElem?.1 h
  refine ⟨h1, ?_⟩
  unfold elemsAt
  rw [h1]; rfl

/-! ### Index lookup -/

/-- An index: segments ranked by element ID. -/
structure IsIndex (segs : List Seg) : Prop where
  ok : SegsOK segs
  byID : ∀ e ∈ allElems segs, e.score = e.id
  aligned : ∀ s ∈ segs, s.minTie = 0 ∧ s.maxTie = 2 ^ 32 - 1

theorem inRange_aligned {s : Seg} {e : Element} (ha : s.minTie = 0 ∧ s.maxTie = 2 ^ 32 - 1)
    (he : e.tie < 2 ^ 32) : InRange s e ↔ s.min ≤ e.score ∧ e.score ≤ s.max := by
  unfold InRange lo hi pos; rw [ha.1, ha.2]; omega

theorem IsIndex.nodup_scores {segs : List Seg} (h : IsIndex segs) {s : Seg} (hs : s ∈ segs) :
    (s.elems.map (·.score)).Nodup := by
  have h1 := h.ok.distinct
  unfold DistinctIDs allElems at h1
  rw [List.map_flatMap] at h1
  have h2 := (List.pairwise_flatMap.1 h1).1 s hs
  have : s.elems.map (·.score) = s.elems.map (·.id) :=
    List.map_congr_left fun e he => h.byID e (mem_allElems.2 ⟨s, hs, he⟩)
  rw [this]; exact h2

/-- In an index segment, the elements found by `firstWithScore` include all requested ones. -/
theorem firstWithScore_index {segs : List Seg} (h : IsIndex segs) {s : Seg} (hs : s ∈ segs)
    {scores : List Nat} (hp : scores.Pairwise fun a b => b ≤ a) {x : Element} :
    (x ∈ s.elems ∧ x.id ∈ scores) ↔ (x ∈ Elements.firstWithScore s.elems scores ∧ x.id ∈ scores) := by
  constructor
  · rintro ⟨hx, hm⟩
    refine ⟨?_, hm⟩
    have hsc : x.score = x.id := h.byID x (mem_allElems.2 ⟨s, hs, hx⟩)
    apply Elements.firstWithScore_mem s.elems scores hp (Elements.ranked_scores (h.ok.ranked s hs)) x.score
      (by rw [hsc]; exact hm)
    have hnd := h.nodup_scores hs
    generalize s.elems = l at hx hnd
    clear hm hsc h hs
    induction l with
    | nil => simp at hx
    | cons a l ih =>
      simp only [List.map_cons, List.nodup_cons] at hnd
      rw [List.find?_cons]
      rcases List.mem_cons.1 hx with rfl | hx
      · simp
      · have : a.score ≠ x.score := fun he => hnd.1 (he ▸ List.mem_map.2 ⟨x, hx, rfl⟩)
        simp only [this, decide_false]
        exact ih hx hnd.2
  · rintro ⟨hx, hm⟩
    exact ⟨(Elements.firstWithScore_sublist _ _).subset hx, hm⟩

theorem find_eq_some {l : List Element} (hd : DistinctIDs l) {e : Element} (he : e ∈ l) :
    Elements.find l e.id = some e := by
  unfold Elements.find
  induction l with
  | nil => simp at he
  | cons a l ih =>
    unfold DistinctIDs at hd
    simp only [List.map_cons, List.nodup_cons] at hd
    rw [List.find?_cons]
    rcases List.mem_cons.1 he with rfl | he
    · simp
    · have : a.id ≠ e.id := fun h => hd.1 (h ▸ List.mem_map.2 ⟨e, he, rfl⟩)
      simp only [beq_eq_false_iff_ne.2 this]
      exact ih hd.2 he

theorem find_eq_none {l : List Element} {id : Nat} : Elements.find l id = none ↔ ∀ e ∈ l, e.id ≠ id := by
  unfold Elements.find; simp

theorem find_some {l : List Element} {id : Nat} {e : Element} (h : Elements.find l id = some e) :
    e ∈ l ∧ e.id = id := by
  unfold Elements.find at h
  exact ⟨List.mem_of_find?_eq_some h, by simpa using List.find?_some h⟩

theorem filterMap_flatMap_eq {α β γ : Type} (f : α → Option β) (g : β → List γ) :
    ∀ l : List α, (l.filterMap f).flatMap g = l.flatMap fun a => ((f a).map g).getD []
  | [] => rfl
  | a :: l => by
    rw [List.filterMap_cons, List.flatMap_cons, ← filterMap_flatMap_eq f g l]
    split
    · rename_i h; simp [h]
    · rename_i b h; simp [h]

theorem zipIdx_flatMap {α β : Type} (f : α → List β) : ∀ (l : List α) (k : Nat),
    ((l.zipIdx k).flatMap fun p => f p.1) = l.flatMap f
  | [], _ => rfl
  | a :: l, k => by rw [List.zipIdx_cons, List.flatMap_cons, List.flatMap_cons, zipIdx_flatMap f l]

theorem getFirstWithScore_spec {sch : Sched} {segs : List Seg} (h : IsIndex segs) {ids : List Nat}
    (hid : ∀ v ∈ ids, v < 2 ^ 64) :
    ((getFirstWithScore sch segs ids).filter fun e => ids.contains e.score).Perm
      ((allElems segs).filter fun e => ids.contains e.id) := by
  unfold getFirstWithScore
  refine ((sch.perm _).flatten.filter _).trans ?_
  rw [splitScores_eq h.ok.tiles h.aligned hid, ← List.flatMap_def, filterMap_flatMap_eq]
  have : (segs.zipIdx.flatMap fun a => ((if selScores a.1 (ElementIDs.sort ids) = [] then none
      else some (a.2, selScores a.1 (ElementIDs.sort ids)) : Option (Nat × List Nat)).map fun m =>
        Elements.firstWithScore (elemsAt segs m.1) m.2).getD []) =
      segs.flatMap fun s => Elements.firstWithScore s.elems (selScores s (ElementIDs.sort ids)) := by
    rw [← zipIdx_flatMap _ segs 0]
    apply flatMap_congr'
    rintro ⟨s, i⟩ hi
    split
    · rename_i h'
      simp only [] at h'
      rw [h']
      cases s.elems <;> simp [Elements.firstWithScore]
    · simp [(elemsAt_zipIdx hi).2]
  rw [this, List.filter_flatMap]
  unfold allElems
  rw [List.filter_flatMap]
  apply flatMap_perm
  intro s hs
  have hnd : s.elems.Nodup := nodup_of_map _ (h.nodup_scores hs)
  rw [List.perm_ext_iff_of_nodup]
  · intro x
    simp only [List.mem_filter, List.contains_iff_mem]
    constructor
    · rintro ⟨h1, h2⟩
      have hx := (Elements.firstWithScore_sublist _ _).subset h1
      rw [h.byID x (mem_allElems.2 ⟨s, hs, hx⟩)] at h2
      exact ⟨hx, h2⟩
    · rintro ⟨h1, h2⟩
      have hx := h.byID x (mem_allElems.2 ⟨s, hs, h1⟩)
      refine ⟨((firstWithScore_index h hs (scores := selScores s (ElementIDs.sort ids))
        ((ElementIDs.sort_sorted ids).filter _)).1 ⟨h1, ?_⟩).1, by rw [hx]; exact h2⟩
      rw [mem_selScores]
      have hr := (inRange_aligned (h.aligned s hs) (h.ok.storable x (mem_allElems.2 ⟨s, hs, h1⟩)).tie).1
        (h.ok.inRange s hs x h1)
      rw [hx] at hr
      exact ⟨(ElementIDs.sort_perm ids).mem_iff.2 h2, hr⟩
  · exact ((Elements.firstWithScore_sublist _ _).nodup hnd).filter _
  · exact hnd.filter _

end Segments

namespace Lists
open Segments

theorem getIndexElements_spec {sch : Sched} {st : ListState} (h : IsIndex st.index.segs) {ids : List Nat}
    (hid : ∀ v ∈ ids, v < 2 ^ 64) :
    (getIndexElements sch st ids).Perm ((allElems st.index.segs).filter fun e => ids.contains e.id) := by
  unfold getIndexElements
  refine (getFirstWithScore_spec h fun v hv => hid v (mem_uniq.1 hv)).trans ?_
  apply List.Perm.of_eq
  apply List.filter_congr
  intro e _
  rw [Bool.eq_iff_iff]
  simp [mem_uniq]

end Lists

theorem Spec.ListOK.isIndex {st : ListState} (h : ListOK st) : Segments.IsIndex st.index.segs :=
  ⟨h.index, h.link.byID, h.link.aligned⟩
end RankDB

import Verif.Model.Cost
import Verif.Spec.Cost
import Verif.Proofs.ReadFaults
import Verif.Proofs.DiskSplit
import Verif.Proofs.Balance
/-
Lemmas about the segments that changes of a list read and write.
-/
namespace RankDB.Cost
open Segments Spec Lists ReadFaults Disk

/-- Counting with a relation. -/
theorem length_le_of_rel {α β : Type} [DecidableEq α] [DecidableEq β] {R : α → β → Prop} {l : List α} {l' : List β} (h : l.Nodup)
    (hR : ∀ x ∈ l, ∃ y ∈ l', R x y) (hinj : ∀ x x' y, R x y → R x' y → x = x') : l.length ≤ l'.length := by
  induction l generalizing l' with
  | nil => simp
  | cons a l ih =>
    rw [List.nodup_cons] at h
    obtain ⟨y, y1, y2⟩ := hR a List.mem_cons_self
    have := ih (l' := l'.erase y) h.2 fun x hx => by
      obtain ⟨z, z1, z2⟩ := hR x (List.mem_cons_of_mem _ hx)
      refine ⟨z, (List.mem_erase_of_ne ?_).2 z1, z2⟩
      rintro rfl
      exact h.1 (hinj _ _ _ y2 z2 ▸ hx)
    rw [List.length_erase_of_mem y1] at this
    have := List.length_pos_of_mem y1
    simp only [List.length_cons]; omega

theorem length_le_sum {α β : Type} [DecidableEq α] [DecidableEq β] {R S : α → β → Prop} {l : List α} {l' : List β} (h : l.Nodup)
    (hR : ∀ x ∈ l, ∃ y ∈ l', R x y ∨ S x y) (hinj : ∀ x x' y, R x y → R x' y → x = x')
    (hinj' : ∀ x x' y, S x y → S x' y → x = x') : l.length ≤ 2 * l'.length := by
  have := length_le_of_rel (R := fun x (y : Bool × β) => if y.1 then R x y.2 else S x y.2)
    (l' := l'.map (fun y => (true, y)) ++ l'.map fun y => (false, y)) h (fun x hx => by
      obtain ⟨y, y1, y2⟩ := hR x hx
      rcases y2 with y2 | y2
      · exact ⟨(true, y), by simp [y1], by simpa using y2⟩
      · exact ⟨(false, y), by simp [y1], by simpa using y2⟩) (fun x x' y h1 h2 => by
      obtain ⟨b, y⟩ := y
      cases b
      · exact hinj' x x' y (by simpa using h1) (by simpa using h2)
      · exact hinj x x' y (by simpa using h1) (by simpa using h2))
  rw [List.length_append, List.length_map, List.length_map] at this
  omega

theorem nodup_eraseDups : ∀ (n : Nat) (l : List Nat), l.length ≤ n → l.eraseDups.Nodup
  | _, [], _ => by simp
  | n + 1, a :: l, h => by
    rw [List.eraseDups_cons, List.nodup_cons]
    refine ⟨fun hm => ?_, nodup_eraseDups n _ ?_⟩
    · have := List.mem_eraseDups.1 hm
      simp at this
    · exact Nat.le_trans (List.length_filter_le _ _) (by simpa using h)

/-! ### What is written -/

theorem rewritten_append (p : Str) (a b : List Write) : rewritten p (a ++ b) = rewritten p a ++ rewritten p b :=
  List.filterMap_append

theorem rewritten_save (p : Str) (ent : Entry) (st : ListState) : rewritten p (saveSegments ent st) = [] := rfl

theorem rewritten_other {p q : Str} (h : q ≠ p) (sch : Sched) (ps : List Nat) (segs : List Seg) :
    rewritten p (sch.order (replaceAt q ps segs)) = [] := by
  unfold rewritten
  rw [List.filterMap_eq_nil_iff]
  intro w hw
  obtain ⟨i, -, hi⟩ := List.mem_filterMap.1 ((sch.perm _).mem_iff.1 hw)
  obtain ⟨s, -, rfl⟩ := Option.map_eq_some_iff.1 hi
  dsimp only
  rw [if_neg h]

theorem rewritten_perm (p : Str) (sch : Sched) (ps : List Nat) (segs : List Seg) :
    (rewritten p (sch.order (replaceAt p ps segs))).Perm (ps.filterMap fun i => (segs[i]?).map (·.id)) := by
  refine ((sch.perm _).filterMap _).trans (List.Perm.of_eq ?_)
  unfold replaceAt
  rw [List.filterMap_filterMap]
  congr 1
  funext i
  cases segs[i]? with
  | none => rfl
  | some s => simp

theorem rewritten_spec {p : Str} {sch : Sched} {ps : List Nat} {segs old : List Seg} (hs : SameRanges segs old) (hok : SegsOK old)
    (hps : ps.Nodup) :
    (rewritten p (sch.order (replaceAt p ps segs))).Nodup ∧
    (rewritten p (sch.order (replaceAt p ps segs))).length ≤ ps.length ∧
    ∀ id, id ∈ rewritten p (sch.order (replaceAt p ps segs)) ↔ At old (· ∈ ps) id := by
  have hperm := rewritten_perm p sch ps segs
  have hget : ∀ (i : Nat), (segs[i]?).map (·.id) = (old[i]?).map (·.id) := by
    intro i
    rcases sameRanges_getElem? hs i with ⟨h1, h2⟩ | ⟨s, t, h1, h2, h3⟩
    · rw [h1, h2]
    · rw [h1, h2]; simp [h3.1]
  have hfun : (fun (i : Nat) => (segs[i]?).map (·.id)) = fun (i : Nat) => (old[i]?).map (·.id) := funext hget
  rw [hfun] at hperm
  refine ⟨?_, ?_, fun id => ?_⟩
  · rw [hperm.nodup_iff]
    refine List.Pairwise.filterMap _ (fun i j hij a ha b hb => ?_) hps
    obtain ⟨s, hs, rfl⟩ := Option.map_eq_some_iff.1 ha
    obtain ⟨t, ht, rfl⟩ := Option.map_eq_some_iff.1 hb
    exact fun hst => hij (getElem?_unique hok hs ht hst)
  · rw [hperm.length_eq]
    exact List.length_filterMap_le _ _
  · rw [hperm.mem_iff, List.mem_filterMap]
    constructor
    · rintro ⟨i, i1, i2⟩
      obtain ⟨s, hs, rfl⟩ := Option.map_eq_some_iff.1 i2
      exact ⟨i, s, hs, rfl, i1⟩
    · rintro ⟨i, s, hs, rfl, i1⟩
      exact ⟨i, i1, by rw [hs]; rfl⟩

/-! ### Where elements are -/

theorem holds_unique {segs : List Seg} (h : SegsOK segs) {i j id : Nat} (hi : Holds segs i id) (hj : Holds segs j id) : i = j := by
  obtain ⟨s, s1, x, x1, x2⟩ := hi
  obtain ⟨t, t1, y, y1, y2⟩ := hj
  have hs := List.mem_of_getElem? s1
  have ht := List.mem_of_getElem? t1
  obtain rfl : x = y := h.distinct.eq_of_id (mem_allElems.2 ⟨s, hs, x1⟩) (mem_allElems.2 ⟨t, ht, y1⟩) (by rw [x2, y2])
  obtain rfl := tiles_unique h.tiles hs ht (h.inRange s hs x x1) (h.inRange t ht x y1)
  exact getElem?_unique h s1 t1 rfl

theorem belongs_unique {segs : List Seg} (h : SegsOK segs) {i j : Nat} {e : Element} (hi : Belongs segs i e)
    (hj : Belongs segs j e) : i = j := by
  obtain ⟨s, s1, s2⟩ := hi
  obtain ⟨t, t1, t2⟩ := hj
  obtain rfl := tiles_unique h.tiles (List.mem_of_getElem? s1) (List.mem_of_getElem? t1) s2 t2
  exact getElem?_unique h s1 t1 rfl

theorem splitScores_covers {segs : List Seg} (h : IsIndex segs) {ids : List Nat} (hid : ∀ v ∈ ids, v < 2 ^ 64) :
    ∀ m ∈ Segments.splitScores segs ids, ∃ v ∈ ids, Covers segs m.1 v := by
  intro m hm
  rw [splitScores_eq h.ok.tiles h.aligned hid] at hm
  obtain ⟨p, hp, hpm⟩ := List.mem_filterMap.1 hm
  split at hpm
  · nomatch hpm
  · rename_i hne
    obtain rfl := Option.some.inj hpm
    obtain ⟨v, l, hv⟩ := List.exists_cons_of_ne_nil hne
    have := mem_selScores.1 (show v ∈ selScores p.1 (ElementIDs.sort ids) by rw [hv]; exact List.mem_cons_self)
    exact ⟨v, (ElementIDs.sort_perm _).mem_iff.1 this.1, p.1, List.mem_zipIdx_iff_getElem?.1 hp, this.2⟩

theorem splitScores_length (segs : List Seg) (ids : List Nat) : (Segments.splitScores segs ids).length ≤ ids.length := by
  unfold Segments.splitScores
  exact Nat.le_trans (splitScoresLoop_length _ _ _) (Nat.le_of_eq (goSort_perm _ _).length_eq)

theorem mem_updateIDs {es : List Element} {v : Nat} : v ∈ updateIDs es ↔ ∃ e ∈ es, e.id = v := by
  unfold updateIDs
  rw [(ElementIDs.sort_perm _).mem_iff]
  unfold Elements.ids
  rw [List.mem_map]
  constructor
  · rintro ⟨e, e1, e2⟩; exact ⟨e, (sortSlice_perm es).mem_iff.1 e1, e2⟩
  · rintro ⟨e, e1, e2⟩; exact ⟨e, (sortSlice_perm es).mem_iff.2 e1, e2⟩

theorem updateIDs_length (es : List Element) : (updateIDs es).length = es.length := by
  unfold updateIDs
  rw [(ElementIDs.sort_perm _).length_eq]
  unfold Elements.ids
  rw [List.length_map, (sortSlice_perm es).length_eq]

theorem covers_unique {segs : List Seg} (h : IsIndex segs) {i j v : Nat} (hi : Covers segs i v) (hj : Covers segs j v) : i = j := by
  obtain ⟨s, s1, s2, s3⟩ := hi
  obtain ⟨t, t1, t2, t3⟩ := hj
  have hs := List.mem_of_getElem? s1
  have ht := List.mem_of_getElem? t1
  refine belongs_unique h.ok (e := ⟨v, v, [], 0, 0⟩) ⟨s, s1, ?_⟩ ⟨t, t1, ?_⟩
  · exact (inRange_aligned (h.aligned s hs) (show 0 < 2 ^ 32 by decide)).2 ⟨s2, s3⟩
  · exact (inRange_aligned (h.aligned t ht) (show 0 < 2 ^ 32 by decide)).2 ⟨t2, t3⟩

/-- An element that the index knows is in the segment it names. -/
theorem holds_indexed {st : ListState} (h : ListOK st) {x : Element} (hx : x ∈ allElems st.index.segs) :
    Holds st.scores.segs (segIndex x.tie st.scores.segs 0 0) x.id := by
  have hp : (x.id, x.tie) ∈ placement st.scores.segs := h.link.complete.mem_iff.1 (List.mem_map.2 ⟨x, hx, rfl⟩)
  unfold placement at hp
  obtain ⟨s, hs, hm⟩ := List.mem_flatMap.1 hp
  obtain ⟨e, he, heq⟩ := List.mem_map.1 hm
  simp only [Prod.mk.injEq] at heq
  obtain ⟨i, hi⟩ := List.mem_iff_getElem?.1 hs
  rw [(segIndex_eq_iff h.scores.segIDs (List.mem_map.2 ⟨s, hs, heq.2⟩) hi).2 heq.2.symm]
  exact ⟨s, hi, e, he, heq.1⟩

theorem elemsAt_all {segs : List Seg} {i : Nat} {x : Element} (h : x ∈ elemsAt segs i) : x ∈ allElems segs := by
  unfold elemsAt at h
  cases hs : segs[i]? with
  | none => rw [hs] at h; simp at h
  | some s => rw [hs] at h; exact mem_allElems.2 ⟨s, List.mem_of_getElem? hs, h⟩

/-! ### UpdateElements -/

theorem loadedIndex_spec {st : ListState} (h : ListOK st) {es : List Element} (hes : ∀ e ∈ es, Storable e) (i : Nat) :
    i ∈ loadedIndex st es ↔ ∃ e ∈ es, Covers st.index.segs i e.id := by
  have hid : ∀ v ∈ updateIDs es, v < 2 ^ 64 := fun v hv => by
    obtain ⟨e, e1, rfl⟩ := mem_updateIDs.1 hv
    exact (hes e e1).id
  unfold loadedIndex
  constructor
  · intro hi
    obtain ⟨m, hm, rfl⟩ := List.mem_map.1 hi
    obtain ⟨v, v1, v2⟩ := splitScores_covers h.isIndex hid m hm
    obtain ⟨e, e1, rfl⟩ := mem_updateIDs.1 v1
    exact ⟨e, e1, v2⟩
  · rintro ⟨e, e1, e2⟩
    obtain ⟨l1, l2, -⟩ := locate_spec h.isIndex hid (mem_updateIDs.2 ⟨e, e1, rfl⟩)
    rw [covers_unique h.isIndex e2 l1.seg]
    exact l2

theorem loadedIndex_length (st : ListState) (es : List Element) : (loadedIndex st es).length ≤ es.length := by
  unfold loadedIndex
  rw [List.length_map]
  exact Nat.le_trans (splitScores_length _ _) (Nat.le_of_eq (updateIDs_length es))

theorem loadedScores_spec {st : ListState} (h : ListOK st) {es : List Element} (hes : ∀ e ∈ es, Storable e) (i : Nat) :
    i ∈ loadedScores st es ↔ ∃ e ∈ es, Belongs st.scores.segs i e ∨ Holds st.scores.segs i e.id := by
  have hp := sortSlice_perm es
  have hst : ∀ e ∈ Elements.sortSlice es, Storable e := fun e he => hes e (hp.mem_iff.1 he)
  have hf : Falling (Elements.sortSlice es) := falling_of_ranked (sortSlice_ranked es) fun e he => (hst e he).tie
  have hid : ∀ v ∈ updateIDs es, v < 2 ^ 64 := fun v hv => by
    obtain ⟨e, e1, rfl⟩ := mem_updateIDs.1 hv
    exact (hes e e1).id
  unfold loadedScores
  rw [List.mem_append, splitElementsIdx_eq h.scores.ties hst hf]
  constructor
  · rintro (hi | hi)
    · obtain ⟨d, hd, rfl⟩ := List.mem_map.1 hi
      obtain ⟨p, p1, p2⟩ := List.mem_filterMap.1 hd
      split at p2
      · nomatch p2
      · rename_i hne
        obtain rfl := Option.some.inj p2
        obtain ⟨e, l, hel⟩ := List.exists_cons_of_ne_nil hne
        obtain ⟨e1, e2⟩ := mem_sel.1 (show e ∈ sel p.1 (Elements.sortSlice es) by rw [hel]; exact List.mem_cons_self)
        exact ⟨e, hp.mem_iff.1 e1, .inl ⟨p.1, List.mem_zipIdx_iff_getElem?.1 p1, e2⟩⟩
    · obtain ⟨l, l1, l2⟩ := List.mem_filterMap.1 hi
      obtain ⟨x, x1, rfl⟩ := Option.map_eq_some_iff.1 l2
      unfold locate at l1
      obtain ⟨m, m1, m2⟩ := List.mem_flatMap.1 l1
      obtain ⟨v, v1, rfl⟩ := List.mem_map.1 m2
      obtain ⟨f1, f2⟩ := find_some x1
      have hx := elemsAt_all ((Elements.firstWithScore_sublist _ _).subset f1)
      have hv : v ∈ updateIDs es := by
        rw [splitScores_eq h.isIndex.ok.tiles h.isIndex.aligned hid] at m1
        obtain ⟨p, p1, p2⟩ := List.mem_filterMap.1 m1
        split at p2
        · nomatch p2
        · obtain rfl := Option.some.inj p2
          exact (ElementIDs.sort_perm _).mem_iff.1 (mem_selScores.1 v1).1
      obtain ⟨e, e1, e2⟩ := mem_updateIDs.1 hv
      refine ⟨e, e1, .inr ?_⟩
      have := holds_indexed h hx
      rw [f2, ← e2] at this
      exact this
  · rintro ⟨e, e1, ⟨s, s1, s2⟩ | ho⟩
    · left
      have hsel : e ∈ sel s (Elements.sortSlice es) := mem_sel.2 ⟨hp.mem_iff.2 e1, s2⟩
      refine List.mem_map.2 ⟨(i, sel s (Elements.sortSlice es)), List.mem_filterMap.2 ⟨(s, i), ?_, ?_⟩, rfl⟩
      · exact List.mk_mem_zipIdx_iff_getElem?.2 s1
      · rw [if_neg (fun hn => by dsimp only at hn; rw [hn] at hsel; nomatch hsel)]
    · right
      obtain ⟨l1, l2, l3⟩ := locate_spec h.isIndex hid (mem_updateIDs.2 ⟨e, e1, rfl⟩)
      obtain ⟨s, s1, y, y1, y2⟩ := ho
      have : e.id ∈ (allElems st.index.segs).map (·.id) := by
        rw [← indexed_ids, (h.link.complete.map _).mem_iff, placement_ids]
        exact List.mem_map.2 ⟨y, mem_allElems.2 ⟨s, List.mem_of_getElem? s1, y1⟩, y2⟩
      obtain ⟨x, hx, hxe⟩ := List.mem_map.1 this
      have hloc := (l1.ex x).2 ⟨hx, hxe⟩
      refine List.mem_filterMap.2 ⟨_, l3, ?_⟩
      rw [hloc]
      have hh := holds_indexed h hx
      rw [hxe] at hh
      rw [Option.map_some, holds_unique h.scores hh ⟨s, s1, y, y1, y2⟩]

theorem loadedScores_count {st : ListState} (h : ListOK st) {es : List Element} (hes : ∀ e ∈ es, Storable e) :
    (loadedScores st es).eraseDups.length ≤ 2 * es.length := by
  refine length_le_sum (R := fun i e => Belongs st.scores.segs i e) (S := fun i e => Holds st.scores.segs i e.id)
    (nodup_eraseDups _ _ (Nat.le_refl _)) (fun i hi => (loadedScores_spec h hes i).1 (List.mem_eraseDups.1 hi))
    (fun i j e => belongs_unique h.scores) fun i j e => holds_unique h.scores

theorem loadedScores_stay {st : ListState} (h : ListOK st) {es : List Element} (hes : ∀ e ∈ es, Storable e)
    (hst : ∀ e ∈ es, ∀ i, Holds st.scores.segs i e.id → Belongs st.scores.segs i e) :
    (loadedScores st es).eraseDups.length ≤ es.length := by
  refine length_le_of_rel (R := fun i e => Belongs st.scores.segs i e) (nodup_eraseDups _ _ (Nat.le_refl _)) (fun i hi => ?_)
    fun i j e => belongs_unique h.scores
  obtain ⟨e, e1, e2⟩ := (loadedScores_spec h hes i).1 (List.mem_eraseDups.1 hi)
  exact ⟨e, e1, e2.elim id (hst e e1 i)⟩

theorem eraseDups_length_le (l : List Nat) : l.eraseDups.length ≤ l.length :=
  nodup_length (nodup_eraseDups _ _ (Nat.le_refl _)) fun _ hx => List.mem_eraseDups.1 hx

/-! ### DeleteElements -/

theorem touched_mem {h : Nat} {segs : List Seg} {l : List Element} (ht : Tiles h segs)
    (hties : ∀ s ∈ segs, s.minTie < 2 ^ 32 ∧ s.maxTie < 2 ^ 32) (hs : ∀ e ∈ l, Storable e) (hf : Falling l)
    (hh : ∀ e ∈ l, epos e ≤ h) (k i : Nat) :
    i ∈ touched k segs l ↔ ∃ j s, i = k + j ∧ segs[j]? = some s ∧ sel s l ≠ [] := by
  induction segs generalizing h l k with
  | nil => simp [touched]
  | cons s ss ih =>
    obtain ⟨h1, h2, h3⟩ := tiles_cons.1 ht
    have hh' : ∀ e ∈ l, epos e ≤ hi s := by intro e he; have := hh e he; omega
    have ⟨e1, e2⟩ := sel_head hf hh'
    unfold touched
    rw [filterIdx_below (hties s (by simp)) hs hh']
    simp only []
    rw [e1]
    have hsplit : (∃ j t, i = k + j ∧ (s :: ss)[j]? = some t ∧ sel t l ≠ []) ↔
        (i = k ∧ sel s l ≠ []) ∨ ∃ j t, i = k + 1 + j ∧ ss[j]? = some t ∧ sel t l ≠ [] := by
      constructor
      · rintro ⟨j, t, j1, j2, j3⟩
        cases j with
        | zero => obtain rfl := Option.some.inj j2; exact .inl ⟨j1, j3⟩
        | succ j => exact .inr ⟨j, t, by omega, j2, j3⟩
      · rintro (⟨i1, i2⟩ | ⟨j, t, j1, j2, j3⟩)
        · exact ⟨0, s, i1, rfl, i2⟩
        · exact ⟨j + 1, t, by omega, j2, j3⟩
    rw [hsplit]
    by_cases hsel : sel s l = []
    · rw [hsel, List.length_nil, if_pos rfl]
      have hfl : l.filter (fun e => decide (epos e < lo s)) = l := by
        rw [← e2, ← drop_takeWhile, e1, hsel]; rfl
      rcases h3 with ⟨rfl, h4⟩ | ⟨_, h4, h5⟩
      · simp [touched]
      · rw [ih h5 (fun s hs => hties s (by simp [hs])) hs hf (by
          intro e he
          rw [← hfl] at he
          simp at he; omega)]
        simp
    · rw [if_neg (by intro h'; exact hsel (List.length_eq_zero_iff.1 h'.symm))]
      have hd : l.drop (sel s l).length = l.filter (fun e => decide (epos e < lo s)) := by
        rw [← e2, ← drop_takeWhile, e1]
      rw [hd, List.mem_cons]
      rcases h3 with ⟨rfl, h4⟩ | ⟨_, h4, h5⟩
      · simp [touched, hsel]
      · rw [ih h5 (fun s hs => hties s (by simp [hs])) (fun e he => hs e (List.mem_filter.1 he).1)
            (hf.filter _) (by intro e he; simp at he; omega)]
        have : ∀ (j : Nat) t, ss[j]? = some t → sel t (l.filter (fun e => decide (epos e < lo s))) = sel t l := fun j t hj =>
          sel_filter_lt (by have := tiles_le h5 t (List.mem_of_getElem? hj); omega)
        constructor
        · rintro (i1 | ⟨j, t, j1, j2, j3⟩)
          · exact .inl ⟨i1, hsel⟩
          · exact .inr ⟨j, t, j1, j2, this j t j2 ▸ j3⟩
        · rintro (⟨i1, -⟩ | ⟨j, t, j1, j2, j3⟩)
          · exact .inl i1
          · exact .inr ⟨j, t, j1, j2, (this j t j2).symm ▸ j3⟩

theorem touched_ge (segs : List Seg) (l : List Element) (k i : Nat) (h : i ∈ touched k segs l) : k ≤ i := by
  induction segs generalizing k l with
  | nil => nomatch h
  | cons s ss ih =>
    unfold touched at h
    dsimp only at h
    split at h
    · have := ih _ _ h; omega
    · rcases List.mem_cons.1 h with rfl | h
      · exact Nat.le_refl _
      · have := ih _ _ h; omega

theorem touched_nodup (segs : List Seg) (l : List Element) (k : Nat) : (touched k segs l).Nodup := by
  induction segs generalizing k l with
  | nil => exact List.nodup_nil
  | cons s ss ih =>
    unfold touched
    dsimp only
    split
    · exact ih _ _
    · exact List.nodup_cons.2 ⟨fun h => by have := touched_ge _ _ _ _ h; omega, ih _ _⟩

theorem touchedIdx_nodup (segs : List Seg) (l : List Element) : (touchedIdx segs l).Nodup :=
  List.nodup_range.filter _

/-- The score segments from which elements are deleted. -/
theorem deleteScores_spec {st : ListState} (h : ListOK st) (sch : Sched) {ids : List Nat} (hid : ∀ v ∈ ids, v < 2 ^ 64) (i : Nat) :
    i ∈ touchedIdx st.scores.segs (getIndexElements sch st ids) ↔ ∃ v ∈ ids, Holds st.scores.segs i v := by
  have hgi := getIndexElements_spec (sch := sch) h.isIndex hid
  have hE : ∀ x, x ∈ getIndexElements sch st ids ↔ x ∈ allElems st.index.segs ∧ x.id ∈ ids := by
    intro x; rw [hgi.mem_iff]; simp
  unfold touchedIdx
  rw [List.mem_filter, List.mem_range]
  constructor
  · rintro ⟨-, hi⟩
    simp only [Bool.not_eq_true', List.isEmpty_eq_false_iff] at hi
    obtain ⟨v, l, hv⟩ := List.exists_cons_of_ne_nil hi
    obtain ⟨x, x1, x2, x3⟩ := Concurrent.mem_idsAt.1 (show v ∈ idsAt st.scores.segs (getIndexElements sch st ids) i by
      rw [hv]; exact List.mem_cons_self)
    refine ⟨v, x2 ▸ ((hE x).1 x1).2, ?_⟩
    rw [← x2, ← x3]
    exact holds_indexed h ((hE x).1 x1).1
  · rintro ⟨v, v1, s, s1, y, y1, y2⟩
    refine ⟨(List.getElem?_eq_some_iff.1 s1).1, ?_⟩
    have : v ∈ (allElems st.index.segs).map (·.id) := by
      rw [h.link.ids.mem_iff]
      exact List.mem_map.2 ⟨y, mem_allElems.2 ⟨s, List.mem_of_getElem? s1, y1⟩, y2⟩
    obtain ⟨x, x1, x2⟩ := List.mem_map.1 this
    have hh := holds_indexed h x1
    rw [x2] at hh
    have hm : v ∈ idsAt st.scores.segs (getIndexElements sch st ids) i :=
      Concurrent.mem_idsAt.2 ⟨x, (hE x).2 ⟨x1, x2 ▸ v1⟩, x2, holds_unique h.scores hh ⟨s, s1, y, y1, y2⟩⟩
    simp only [Bool.not_eq_true', List.isEmpty_eq_false_iff]
    exact fun hn => by rw [hn] at hm; nomatch hm

/-- The index segments from which elements are deleted. -/
theorem deleteIndex_spec {st : ListState} (h : ListOK st) (now : Nat) (sch : Sched) {ids : List Nat} (hid : ∀ v ∈ ids, v < 2 ^ 64)
    (i : Nat) :
    i ∈ touched 0 st.index.segs (deleteElementsIdx now sch st.scores.segs (getIndexElements sch st ids)).2 ↔
      ∃ v ∈ ids, Holds st.index.segs i v := by
  have hgi := getIndexElements_spec (sch := sch) h.isIndex hid
  have hE : ∀ x, x ∈ getIndexElements sch st ids ↔ x ∈ allElems st.index.segs ∧ x.id ∈ ids := by
    intro x; rw [hgi.mem_iff]; simp
  obtain ⟨g, g1, g2, g3, g4, g5⟩ := deleteElementsIdx_spec (now := now) (sch := sch) (idx := getIndexElements sch st ids) h.scores
    fun x hx => h.link.complete.mem_iff.1 (List.mem_map.2 ⟨x, ((hE x).1 hx).1, rfl⟩)
  generalize deleteElementsIdx now sch st.scores.segs (getIndexElements sch st ids) = R at *
  have hR : ∀ x ∈ R.2, ∃ s ∈ st.scores.segs, ∃ e ∈ s.elems, e.id ∈ ids ∧ x = e.asIndex s.id := by
    intro x hx
    obtain ⟨⟨e, j⟩, hp, rfl⟩ := List.mem_map.1 (g4.mem_iff.1 hx)
    obtain ⟨hp1, hp2⟩ := List.mem_filter.1 hp
    obtain ⟨s, hs, rfl, he⟩ := mem_tagged.1 hp1
    obtain ⟨y, y1, y2⟩ := List.mem_map.1 (List.contains_iff_mem.1 hp2)
    exact ⟨s, hs, e, he, by rw [← y2]; exact ((hE y).1 y1).2, rfl⟩
  have hst : ∀ x ∈ R.2, Storable x := by
    intro x hx
    obtain ⟨s, hs, e, he, -, rfl⟩ := hR x hx
    exact asIndex_storable (h.scores.storable e (mem_allElems.2 ⟨s, hs, he⟩)) _
  have hfall : Falling R.2 := falling_of_ranked g5 fun x hx => (hst x hx).tie
  rw [touched_mem h.index.tiles h.index.ties hst hfall (fun x hx => epos_le_top (hst x hx)) 0 i]
  -- the entries of elements are where their entries in the index are
  have hkey : ∀ s ∈ st.scores.segs, ∀ e ∈ s.elems, ∀ t ∈ st.index.segs, ∀ y ∈ t.elems, y.id = e.id → InRange t (e.asIndex s.id) := by
    intro s hs e he t ht y hy hye
    have hyI : y ∈ allElems st.index.segs := mem_allElems.2 ⟨t, ht, hy⟩
    have hr := h.index.inRange t ht y hy
    have hsc := h.link.byID y hyI
    have hpl : (y.id, y.tie) ∈ placement st.scores.segs := h.link.complete.mem_iff.1 (List.mem_map.2 ⟨y, hyI, rfl⟩)
    unfold placement at hpl
    obtain ⟨s', hs', hm'⟩ := List.mem_flatMap.1 hpl
    obtain ⟨e', he', heq⟩ := List.mem_map.1 hm'
    simp only [Prod.mk.injEq] at heq
    obtain rfl : e' = e := h.scores.distinct.eq_of_id (mem_allElems.2 ⟨s', hs', he'⟩) (mem_allElems.2 ⟨s, hs, he⟩)
      (by rw [heq.1, hye])
    obtain rfl := tiles_unique h.scores.tiles hs' hs (h.scores.inRange s' hs' e' he') (h.scores.inRange s hs e' he)
    unfold InRange at *
    simp only [Element.asIndex]
    rw [heq.1, heq.2, ← hsc, Nat.mod_eq_of_lt (h.index.storable y hyI).tie]
    exact hr
  constructor
  · rintro ⟨j, t, j1, j2, j3⟩
    obtain rfl : i = j := by omega
    obtain ⟨x, l, hx⟩ := List.exists_cons_of_ne_nil j3
    obtain ⟨x1, x2⟩ := mem_sel.1 (show x ∈ sel t R.2 by rw [hx]; exact List.mem_cons_self)
    obtain ⟨s, hs, e, he, e1, rfl⟩ := hR x x1
    have : e.id ∈ (allElems st.index.segs).map (·.id) :=
      h.link.ids.mem_iff.2 (List.mem_map.2 ⟨e, mem_allElems.2 ⟨s, hs, he⟩, rfl⟩)
    obtain ⟨y, hy, hye⟩ := List.mem_map.1 this
    obtain ⟨t', ht', hy'⟩ := mem_allElems.1 hy
    obtain rfl := tiles_unique h.index.tiles (List.mem_of_getElem? j2) ht' x2 (hkey s hs e he t' ht' y hy' hye)
    exact ⟨e.id, e1, t, j2, y, hy', hye⟩
  · rintro ⟨v, v1, t, t1, y, y1, y2⟩
    have ht := List.mem_of_getElem? t1
    have hyI : y ∈ allElems st.index.segs := mem_allElems.2 ⟨t, ht, y1⟩
    obtain ⟨e, he, hee⟩ := List.mem_map.1 (h.link.ids.mem_iff.1 (List.mem_map.2 ⟨y, hyI, rfl⟩))
    obtain ⟨s, hs, hes⟩ := mem_allElems.1 he
    refine ⟨i, t, by omega, t1, fun hn => ?_⟩
    have : e.asIndex s.id ∈ sel t R.2 := by
      refine mem_sel.2 ⟨g4.mem_iff.2 (List.mem_map.2 ⟨(e, s.id), List.mem_filter.2 ⟨mem_tagged.2 ⟨s, hs, rfl, hes⟩, ?_⟩, rfl⟩),
        hkey s hs e hes t ht y y1 hee.symm⟩
      rw [List.contains_iff_mem]
      refine List.mem_map.2 ⟨y, (hE y).2 ⟨hyI, y2 ▸ v1⟩, hee.symm⟩
    rw [hn] at this
    nomatch this

theorem holdsScores_count {st : ListState} (h : ListOK st) (sch : Sched) {ids : List Nat} (hid : ∀ v ∈ ids, v < 2 ^ 64) :
    (touchedIdx st.scores.segs (getIndexElements sch st ids)).length ≤ ids.length :=
  length_le_of_rel (R := fun i v => Holds st.scores.segs i v) (touchedIdx_nodup _ _)
    (fun i hi => (deleteScores_spec h sch hid i).1 hi) fun _ _ _ => holds_unique h.scores

theorem holdsIndex_count {st : ListState} (h : ListOK st) (now : Nat) (sch : Sched) {ids : List Nat} (hid : ∀ v ∈ ids, v < 2 ^ 64) :
    (touched 0 st.index.segs (deleteElementsIdx now sch st.scores.segs (getIndexElements sch st ids)).2).length ≤ ids.length :=
  length_le_of_rel (R := fun i v => Holds st.index.segs i v) (touched_nodup _ _ _)
    (fun i hi => (deleteIndex_spec h now sch hid i).1 hi) fun _ _ _ => holds_unique h.index

theorem uniq_length : ∀ l : List Nat, (uniq l).length ≤ l.length
  | [] => Nat.le_refl _
  | a :: l => by
    have := uniq_length l
    unfold uniq
    split
    · rw [List.length_cons]; omega
    · rw [List.length_cons, List.length_cons]; omega

theorem eq_singleton {α : Type} [DecidableEq α] {l : List α} {a : α} (hn : l.length ≤ 1) (ha : a ∈ l) : l = [a] := by
  match l, hn, ha with
  | [b], _, ha => rw [List.mem_singleton.1 ha]

/-! ### split -/

/-- A pass over segments that are small and, with the last one before them, cannot be merged changes nothing. -/
theorem splitLoop_quiet (p : Str) {now splitSize mergeSize : Nat} {merge isIndex : Bool} {u : Nat} :
    ∀ {segs done : List Seg} {nid : Nat}, (∀ s ∈ segs, s.n < splitSize) →
    (merge = true → ∀ a b l₁ l₂, done.head?.toList ++ segs = l₁ ++ a :: b :: l₂ → mergeSize < b.n + a.n) →
    Disk.splitLoop p now splitSize mergeSize merge isIndex u nid 0 done segs = ([], false) ∧
    Segments.splitLoop now splitSize mergeSize merge isIndex u nid 0 done segs = (done.reverse ++ segs, nid, [])
  | [], done, nid, _, _ => by simp [Disk.splitLoop, Segments.splitLoop]
  | s :: ss, done, nid, h, hm => by
    have ih := splitLoop_quiet p (now := now) (mergeSize := mergeSize) (merge := merge) (isIndex := isIndex) (u := u) (segs := ss)
      (done := s :: done) (nid := nid) (fun x hx => h x (List.mem_cons_of_mem _ hx)) fun hmt a b l₁ l₂ he => by
        refine hm hmt a b (done.head?.toList ++ l₁) l₂ ?_
        rw [List.append_assoc, ← he]; rfl
    have hs := h s List.mem_cons_self
    rw [List.reverse_cons, List.append_assoc, List.singleton_append] at ih
    cases merge with
    | false =>
      simp only [Disk.splitLoop, Segments.splitLoop, if_pos hs]
      exact ih
    | true =>
      cases done with
      | nil =>
        simp only [Disk.splitLoop, Segments.splitLoop, if_pos hs]
        exact ih
      | cons q done =>
        have hq := hm rfl q s [] ss rfl
        simp only [Disk.splitLoop, Segments.splitLoop, if_pos hs, if_pos hq]
        exact ih

/-- A pass without merging in which one segment is split. -/
theorem splitLoop_one (p : Str) {now splitSize mergeSize : Nat} {isIndex : Bool} {u : Nat} {s s1 s2 : Seg} {post : List Seg}
    {ch : List IndexUpdate} :
    ∀ {pre done : List Seg} {nid : Nat}, (∀ x ∈ pre ++ post, x.n < splitSize) → splitSize ≤ s.n →
    Segments.splitIdx now isIndex nid s = some (s1, s2, ch) →
    Disk.splitLoop p now splitSize mergeSize false isIndex u nid 0 done (pre ++ s :: post) =
      (if isIndex then [.elems p s2.id s2.elems, .elems p s1.id s1.elems]
        else [.elems p s1.id s1.elems, .elems p s2.id s2.elems], true) ∧
    Segments.splitLoop now splitSize mergeSize false isIndex u nid 0 done (pre ++ s :: post) =
      (done.reverse ++ (pre ++ s1 :: s2 :: post), nid + 1, ch)
  | [], done, nid, h, hs, hsp => by
    obtain ⟨q1, q2⟩ := splitLoop_quiet p (now := now) (mergeSize := mergeSize) (merge := false) (isIndex := isIndex) (u := u)
      (segs := post) (done := s2 :: s1 :: done) (nid := nid + 1) h nofun
    simp only [List.nil_append, Disk.splitLoop, Segments.splitLoop, if_neg (Nat.not_lt.2 hs), hsp, q1, q2]
    simp
  | x :: pre, done, nid, h, hs, hsp => by
    have ih := splitLoop_one p (now := now) (mergeSize := mergeSize) (isIndex := isIndex) (u := u) (pre := pre)
      (done := x :: done) (nid := nid) (fun y hy => h y (List.mem_cons_of_mem _ hy)) hs hsp
    rw [List.reverse_cons, List.append_assoc, List.singleton_append] at ih
    simp only [List.cons_append, Disk.splitLoop, Segments.splitLoop, if_pos (h x List.mem_cons_self)]
    exact ih

/-- Positions that are passed over. -/
theorem splitLoop_skip (p : Str) {now splitSize mergeSize : Nat} {isIndex : Bool} {u : Nat} {post done : List Seg}
    {nid : Nat} (h : ∀ s ∈ post, s.n < splitSize)
    (hm : ∀ a b l₁ l₂, post = l₁ ++ a :: b :: l₂ → mergeSize < b.n + a.n) :
    Disk.splitLoop p now splitSize mergeSize true isIndex u nid 2 done post = ([], false) ∧
    Segments.splitLoop now splitSize mergeSize true isIndex u nid 2 done post = (done.reverse ++ post, nid, []) := by
  cases post with
  | nil => simp [Disk.splitLoop, Segments.splitLoop]
  | cons x post =>
    cases post with
    | nil => simp [Disk.splitLoop, Segments.splitLoop]
    | cons y post =>
      have q := splitLoop_quiet p (now := now) (mergeSize := mergeSize) (merge := true) (isIndex := isIndex) (u := u)
        (segs := post) (done := y :: x :: done) (nid := nid) (fun s hs => h s (by simp [hs]))
        fun _ a b l₁ l₂ he => hm a b (x :: l₁) l₂ (by
          rw [List.cons_append, ← he]; rfl)
      simp only [Disk.splitLoop, Segments.splitLoop, q]
      simp

/-- A pass in which two neighbours are merged. -/
theorem splitLoop_merge (p : Str) {now splitSize mergeSize : Nat} {isIndex : Bool} {u : Nat} {q s : Seg} {post : List Seg} :
    ∀ {pre done : List Seg} {nid : Nat}, (∀ x ∈ pre ++ q :: s :: post, x.n < splitSize) → s.n + q.n ≤ mergeSize →
    (∀ a b l₁ l₂, done.head?.toList ++ (pre ++ [q]) = l₁ ++ a :: b :: l₂ → mergeSize < b.n + a.n) →
    (∀ a b l₁ l₂, post = l₁ ++ a :: b :: l₂ → mergeSize < b.n + a.n) →
    Disk.splitLoop p now splitSize mergeSize true isIndex u nid 0 done (pre ++ q :: s :: post) =
      ([.elems p q.id (mergeWithNext now q s).1.elems, .delElems p s.id], true) ∧
    Segments.splitLoop now splitSize mergeSize true isIndex u nid 0 done (pre ++ q :: s :: post) =
      (done.reverse ++ (pre ++ (mergeWithNext now q s).1 :: post), nid, (mergeWithNext now q s).2)
  | [], done, nid, h, hs, hd, hp => by
    have k := splitLoop_skip p (now := now) (isIndex := isIndex) (u := u) (done := (mergeWithNext now q s).1 :: done) (nid := nid)
      (fun x hx => h x (by simp [hx])) hp
    have hq := h q (by simp)
    have hss := h s (by simp)
    have hid : (mergeWithNext now q s).1.id = q.id := rfl
    cases done with
    | nil =>
      simp only [List.nil_append, Disk.splitLoop, Segments.splitLoop, if_pos hq, if_pos hss, if_neg (Nat.not_lt.2 hs), k, hid]
      simp
    | cons r done =>
      have hr : q.n + r.n > mergeSize := hd r q [] [] rfl
      simp only [List.nil_append, Disk.splitLoop, Segments.splitLoop, if_pos hq, if_pos hss, if_pos hr, if_neg (Nat.not_lt.2 hs), k, hid]
      simp
  | x :: pre, done, nid, h, hs, hd, hp => by
    have ih := splitLoop_merge p (now := now) (isIndex := isIndex) (u := u) (pre := pre)
      (done := x :: done) (nid := nid) (fun y hy => h y (List.mem_cons_of_mem _ hy)) hs
      (fun a b l₁ l₂ he => hd a b (done.head?.toList ++ l₁) l₂ (by
        rw [List.append_assoc, ← he]; rfl)) hp
    rw [List.reverse_cons, List.append_assoc, List.singleton_append] at ih
    have hx := h x List.mem_cons_self
    cases done with
    | nil =>
      simp only [List.cons_append, Disk.splitLoop, Segments.splitLoop, if_pos hx]
      exact ih
    | cons r done =>
      have hr : x.n + r.n > mergeSize := by
        cases pre with
        | nil => exact hd r x [] [q] rfl
        | cons y pre => exact hd r x [] (y :: pre ++ [q]) rfl
      simp only [List.cons_append, Disk.splitLoop, Segments.splitLoop, if_pos hx, if_pos hr]
      exact ih

/-- A pass over the segments writes at most twice as often as there are segments. -/
theorem splitLoop_length (p : Str) {now splitSize mergeSize : Nat} {merge isIndex : Bool} {u : Nat} :
    ∀ {segs done : List Seg} {nid skip : Nat},
    (Disk.splitLoop p now splitSize mergeSize merge isIndex u nid skip done segs).1.length ≤ 2 * segs.length
  | [], _, _, _ => by simp [Disk.splitLoop]
  | s :: ss, done, nid, skip + 1 => by
    have := splitLoop_length p (now := now) (splitSize := splitSize) (mergeSize := mergeSize) (merge := merge) (isIndex := isIndex)
      (u := u) (segs := ss) (done := s :: done) (nid := nid) (skip := skip)
    simp only [Disk.splitLoop, List.length_cons]; omega
  | s :: ss, done, nid, 0 => by
    have ih := fun done nid skip => splitLoop_length p (now := now) (splitSize := splitSize) (mergeSize := mergeSize) (merge := merge)
      (isIndex := isIndex) (u := u) (segs := ss) (done := done) (nid := nid) (skip := skip)
    unfold Disk.splitLoop
    rw [List.length_cons]
    split
    · split
      · split
        · exact Nat.le_trans (ih _ _ _) (by omega)
        · simp only [List.length_append, List.length_cons, List.length_nil]
          have := ih; grind
      · exact Nat.le_trans (ih _ _ _) (by omega)
    · split
      · exact Nat.le_trans (ih _ _ _) (by omega)
      · simp only [List.length_append]
        have := ih; grind

theorem assignUpdates_length : ∀ (ms : List (Nat × List Nat)) (ids : List IndexUpdate), (assignUpdates ms ids).length = ms.length
  | [], _ => rfl
  | m :: ms, ids => by
    unfold assignUpdates
    rw [List.length_cons, List.length_cons, assignUpdates_length ms]

/-- The writes for changes of the index: at most one for each change. -/
theorem updateIndex_writes (now : Nat) (sch : Sched) (p : Str) (segs : List Seg) (upds : List IndexUpdate) :
    (Disk.updateIndexElements now sch p segs upds).length ≤ upds.length ∧
    ∀ w ∈ Disk.updateIndexElements now sch p segs upds, ∃ id l, w = .elems p id l := by
  unfold Disk.updateIndexElements
  split
  · exact ⟨Nat.zero_le _, nofun⟩
  · refine ⟨?_, fun w hw => ?_⟩
    · rw [(sch.perm _).length_eq]
      unfold replaceAt
      refine Nat.le_trans (List.length_filterMap_le _ _) ?_
      rw [List.length_map]
      refine Nat.le_trans (List.length_filter_le _ _) ?_
      unfold splitIndexUpdates
      dsimp only
      rw [assignUpdates_length]
      refine Nat.le_trans (splitScores_length _ _) ?_
      rw [List.length_map, (goSort_perm _ _).length_eq]
      exact Nat.le_refl _
    · obtain ⟨i, -, hi⟩ := List.mem_filterMap.1 ((sch.perm _).mem_iff.1 hw)
      obtain ⟨s, -, rfl⟩ := Option.map_eq_some_iff.1 hi
      exact ⟨_, _, rfl⟩

theorem splitScoresLoop_segs : ∀ (segs : List Seg) (k : Nat) (l : List Nat), (splitScoresLoop k segs l).length ≤ segs.length
  | [], _, l => by cases l <;> simp [splitScoresLoop]
  | s :: ss, k, [] => by simp [splitScoresLoop]
  | s :: ss, k, v :: l => by
    have h := fun l => splitScoresLoop_segs ss (k + 1) l
    unfold splitScoresLoop
    split
    · rw [List.length_cons, List.length_cons]; exact Nat.succ_le_succ (h _)
    · rw [List.length_cons]; exact Nat.le_succ_of_le (h _)

/-- Index segments are written once each. -/
theorem updateIndex_segs (now : Nat) (sch : Sched) (p : Str) (segs : List Seg) (upds : List IndexUpdate) :
    (Disk.updateIndexElements now sch p segs upds).length ≤ segs.length := by
  unfold Disk.updateIndexElements
  split
  · exact Nat.zero_le _
  · rw [(sch.perm _).length_eq]
    unfold replaceAt
    refine Nat.le_trans (List.length_filterMap_le _ _) ?_
    rw [List.length_map]
    refine Nat.le_trans (List.length_filter_le _ _) ?_
    unfold splitIndexUpdates
    dsimp only
    rw [assignUpdates_length]
    exact splitScoresLoop_segs _ _ _

theorem settled_quiet {splitSize mergeSize : Nat} {merge : Bool} {segs : List Seg} (h : Settled splitSize mergeSize merge segs)
    (hc : Counted segs) : (∀ s ∈ segs, s.n < splitSize) ∧
    (merge = true → ∀ a b l₁ l₂, segs = l₁ ++ a :: b :: l₂ → mergeSize < b.n + a.n) := by
  refine ⟨fun s hs => by rw [hc s hs]; exact h.1 s hs, fun hm a b l₁ l₂ he => ?_⟩
  rw [hc a (by rw [he]; simp), hc b (by rw [he]; simp)]
  exact h.2 hm a b l₁ l₂ he

theorem settled_congr {splitSize mergeSize : Nat} {merge : Bool} {segs segs' : List Seg}
    (hl : segs'.map (·.elems.length) = segs.map (·.elems.length)) (h : Settled splitSize mergeSize merge segs) :
    Settled splitSize mergeSize merge segs' := by
  refine ⟨fun s hs => ?_, fun hm a b l₁ l₂ he => ?_⟩
  · obtain ⟨t, t1, t2⟩ := List.mem_map.1 (hl ▸ List.mem_map.2 ⟨s, hs, rfl⟩)
    rw [← t2]; exact h.1 t t1
  · rw [he, List.map_append, List.map_cons, List.map_cons] at hl
    obtain ⟨m₁, m₂, rfl, h1, h2⟩ := List.map_eq_append_iff.1 hl.symm
    obtain ⟨c, m₃, rfl, h3, h4⟩ := List.map_eq_cons_iff.1 h2
    obtain ⟨d, m₄, rfl, h5, h6⟩ := List.map_eq_cons_iff.1 h4
    rw [← h3, ← h5]
    exact h.2 hm c d m₁ m₄ rfl

theorem updateIndex_lengths (now : Nat) (segs : List Seg) (U : List IndexUpdate) :
    (Segments.updateIndexElements now segs U).map (·.elems.length) = segs.map (·.elems.length) := by
  have h := congrArg (List.map List.length) (Balance.updateIndexElements_shape now segs U).1
  unfold Balance.shape at h
  rw [List.map_map, List.map_map] at h
  simpa [Function.comp_def] using h

/-! ### Insert -/

theorem touched_sorted {segs : List Seg} (h : SegsOK segs) {l : List Element} (hl : ∀ e ∈ l, Storable e) (i : Nat) :
    i ∈ touched 0 segs (Elements.sortSlice (Elements.sortSlice l)) ↔ ∃ e ∈ l, Belongs segs i e := by
  have hm : ∀ e, e ∈ Elements.sortSlice (Elements.sortSlice l) ↔ e ∈ l := fun e =>
    ((sortSlice_perm _).trans (sortSlice_perm l)).mem_iff
  have hst : ∀ e ∈ Elements.sortSlice (Elements.sortSlice l), Storable e := fun e he => hl e ((hm e).1 he)
  rw [touched_mem h.tiles h.ties hst (falling_of_ranked (sortSlice_ranked _) fun e he => (hst e he).tie)
    (fun e he => epos_le_top (hst e he)) 0 i]
  constructor
  · rintro ⟨j, s, j1, j2, j3⟩
    obtain rfl : i = j := by omega
    obtain ⟨x, l', hx⟩ := List.exists_cons_of_ne_nil j3
    obtain ⟨x1, x2⟩ := mem_sel.1 (show x ∈ sel s _ by rw [hx]; exact List.mem_cons_self)
    exact ⟨x, (hm x).1 x1, s, j2, x2⟩
  · rintro ⟨e, e1, s, s1, s2⟩
    refine ⟨i, s, by omega, s1, fun hn => ?_⟩
    have := mem_sel.2 ⟨(hm e).2 e1, s2⟩
    rw [hn] at this
    nomatch this

theorem chunkEntries_mem {st : ListState} (h : ListOK st) (now : Nat) (sch : Sched) {l : List Element}
    (hl : ∀ e ∈ l, Storable e) (hd : DistinctIDs (st.content ++ l)) (x : Element) :
    x ∈ (Segments.insert now sch st.scores.segs (Elements.sortSlice l)).2 ↔
      ∃ e ∈ l, ∃ s ∈ st.scores.segs, InRange s e ∧ x = e.asIndex s.id := by
  have hp := sortSlice_perm l
  obtain ⟨-, -, -, -, -, a6⟩ := Segments.insert_spec (now := now) (sch := sch) (segs := st.scores.segs)
    (l := Elements.sortSlice l) h.scores (fun e he => hl e (hp.mem_iff.1 he)) (hd.perm (hp.symm.append_left _))
  rw [a6.mem_iff, List.mem_flatMap]
  constructor
  · rintro ⟨s, hs, hx⟩
    obtain ⟨e, he, rfl⟩ := List.mem_map.1 hx
    exact ⟨e, hp.mem_iff.1 (mem_sel.1 he).1, s, hs, (mem_sel.1 he).2, rfl⟩
  · rintro ⟨e, he, s, hs, hr, rfl⟩
    exact ⟨s, hs, List.mem_map.2 ⟨e, mem_sel.2 ⟨hp.mem_iff.2 he, hr⟩, rfl⟩⟩

theorem insertScores_spec {st : ListState} (h : ListOK st) {l : List Element} (hl : ∀ e ∈ l, Storable e) (i : Nat) :
    i ∈ touched 0 st.scores.segs (Elements.sortSlice (Elements.sortSlice l)) ↔ ∃ e ∈ l, Belongs st.scores.segs i e :=
  touched_sorted h.scores hl i

theorem insertIndex_spec {st : ListState} (h : ListOK st) (now : Nat) (sch : Sched) {l : List Element}
    (hl : ∀ e ∈ l, Storable e) (hd : DistinctIDs (st.content ++ l)) (i : Nat) :
    i ∈ touched 0 st.index.segs (Elements.sortSlice (Elements.sortSlice
      (Segments.insert now sch st.scores.segs (Elements.sortSlice l)).2)) ↔ ∃ e ∈ l, Covers st.index.segs i e.id := by
  have hm := chunkEntries_mem h now sch hl hd
  have hst : ∀ x ∈ (Segments.insert now sch st.scores.segs (Elements.sortSlice l)).2, Storable x := by
    intro x hx
    obtain ⟨e, he, s, -, -, rfl⟩ := (hm x).1 hx
    exact asIndex_storable (hl e he) _
  rw [touched_sorted h.index hst i]
  constructor
  · rintro ⟨x, hx, t, ht, hr⟩
    have hx' := hst x hx
    obtain ⟨e, he, s, -, -, rfl⟩ := (hm x).1 hx
    exact ⟨e, he, t, ht, (inRange_aligned (h.isIndex.aligned t (List.mem_of_getElem? ht)) hx'.tie).1 hr⟩
  · rintro ⟨e, he, t, ht, hr⟩
    have hmem := (sel_flatMap_perm h.scores.tiles hl (fun e he => epos_le_top (hl e he))).mem_iff.2 he
    obtain ⟨s, hs, hse⟩ := List.mem_flatMap.1 hmem
    exact ⟨e.asIndex s.id, (hm _).2 ⟨e, he, s, hs, (mem_sel.1 hse).2, rfl⟩, t, ht,
      (inRange_aligned (h.isIndex.aligned t (List.mem_of_getElem? ht)) (asIndex_storable (hl e he) s.id).tie).2 hr⟩

theorem at_iff {segs : List Seg} {P Q : Nat → Prop} (h : ∀ i, P i ↔ Q i) (id : Nat) : At segs P id ↔ At segs Q id :=
  exists_congr fun j => exists_congr fun _ => and_congr_right fun _ => and_congr_right fun _ => h j

theorem at_or {segs : List Seg} {P Q : Nat → Prop} (id : Nat) :
    At segs (fun i => P i ∨ Q i) id ↔ At segs P id ∨ At segs Q id := by
  constructor
  · rintro ⟨j, s, h1, h2, h3 | h3⟩
    · exact .inl ⟨j, s, h1, h2, h3⟩
    · exact .inr ⟨j, s, h1, h2, h3⟩
  · rintro (⟨j, s, h1, h2, h3⟩ | ⟨j, s, h1, h2, h3⟩)
    · exact ⟨j, s, h1, h2, .inl h3⟩
    · exact ⟨j, s, h1, h2, .inr h3⟩

theorem SameRanges.flip {a b : List Seg} (h : SameRanges a b) (i : Nat) {s : Seg} (hs : a[i]? = some s) :
    ∃ t, b[i]? = some t ∧ SameRange s t := by
  rcases sameRanges_getElem? h i with ⟨h1, -⟩ | ⟨x, y, h1, h2, h3⟩
  · rw [h1] at hs; nomatch hs
  · rw [h1] at hs; obtain rfl := Option.some.inj hs; exact ⟨y, h2, h3⟩

theorem SameRanges.back {a b : List Seg} (h : SameRanges a b) (i : Nat) {t : Seg} (ht : b[i]? = some t) :
    ∃ s, a[i]? = some s ∧ SameRange s t := by
  rcases sameRanges_getElem? h i with ⟨-, h1⟩ | ⟨x, y, h1, h2, h3⟩
  · rw [h1] at ht; nomatch ht
  · rw [h2] at ht; obtain rfl := Option.some.inj ht; exact ⟨x, h1, h3⟩

theorem sameRanges_at {a b : List Seg} (h : SameRanges a b) (P : Nat → Prop) (id : Nat) : At a P id ↔ At b P id := by
  constructor
  · rintro ⟨j, s, h1, h2, h3⟩
    obtain ⟨t, t1, t2⟩ := SameRanges.flip h j h1
    exact ⟨j, t, t1, t2.1.symm.trans h2, h3⟩
  · rintro ⟨j, t, h1, h2, h3⟩
    obtain ⟨s, s1, s2⟩ := SameRanges.back h j h1
    exact ⟨j, s, s1, s2.1.trans h2, h3⟩

theorem sameRanges_covers {a b : List Seg} (h : SameRanges a b) (i v : Nat) : Covers a i v ↔ Covers b i v := by
  constructor
  · rintro ⟨s, s1, s2⟩
    obtain ⟨t, t1, t2⟩ := SameRanges.flip h i s1
    exact ⟨t, t1, by rw [← t2.2.1, ← t2.2.2.1]; exact s2⟩
  · rintro ⟨t, t1, t2⟩
    obtain ⟨s, s1, s2⟩ := SameRanges.back h i t1
    exact ⟨s, s1, by rw [s2.2.1, s2.2.2.1]; exact t2⟩

theorem sameRange_inRange {s t : Seg} (h : SameRange s t) (e : Element) : InRange s e ↔ InRange t e := by
  unfold InRange lo hi
  rw [h.2.1, h.2.2.1, h.2.2.2.1, h.2.2.2.2]

theorem sameRanges_belongs {a b : List Seg} (h : SameRanges a b) (i : Nat) (e : Element) : Belongs a i e ↔ Belongs b i e := by
  constructor
  · rintro ⟨s, s1, s2⟩
    obtain ⟨t, t1, t2⟩ := SameRanges.flip h i s1
    exact ⟨t, t1, (sameRange_inRange t2 e).1 s2⟩
  · rintro ⟨t, t1, t2⟩
    obtain ⟨s, s1, s2⟩ := SameRanges.back h i t1
    exact ⟨s, s1, (sameRange_inRange s2 e).2 t2⟩

/-- What one piece of an insertion writes. -/
structure Wrote (ent : Entry) (st : ListState) (ws : List Write) (l : List Element) : Prop where
  indexCount : (rewritten ent.index ws).length ≤ l.length
  index : ∀ id, id ∈ rewritten ent.index ws ↔ At st.index.segs (fun i => ∃ e ∈ l, Covers st.index.segs i e.id) id
  scoresCount : (rewritten ent.scores ws).length ≤ l.length
  scores : ∀ id, id ∈ rewritten ent.scores ws ↔ At st.scores.segs (fun i => ∃ e ∈ l, Belongs st.scores.segs i e) id

theorem insertChunk_wrote {now : Nat} {sch : Sched} {ent : Entry} {st : ListState} {l : List Element} (h : ListOK st)
    (hne : ent.scores ≠ ent.index) (hl : ∀ e ∈ l, Storable e) (hd : DistinctIDs (st.content ++ l)) :
    Wrote ent st (Disk.insertChunk now sch ent st l) l ∧
    (rewritten ent.index (Disk.insertChunk now sch ent st l)).Nodup ∧
    (rewritten ent.scores (Disk.insertChunk now sch ent st l)).Nodup := by
  have hstep := Disk.insertChunk_step now sch ent st l
  have hI := rewritten_spec (p := ent.index) (sch := sch) hstep.index h.index
    (touched_nodup st.index.segs (Elements.sortSlice (Elements.sortSlice
      (Segments.insert now sch st.scores.segs (Elements.sortSlice l)).2)) 0)
  have hS := rewritten_spec (p := ent.scores) (sch := sch) hstep.scores h.scores
    (touched_nodup st.scores.segs (Elements.sortSlice (Elements.sortSlice l)) 0)
  have eI : rewritten ent.index (Disk.insertChunk now sch ent st l) = rewritten ent.index (sch.order (replaceAt ent.index
      (touched 0 st.index.segs (Elements.sortSlice (Elements.sortSlice
        (Segments.insert now sch st.scores.segs (Elements.sortSlice l)).2))) (Lists.insertChunk now sch st l).index.segs)) := by
    unfold Disk.insertChunk
    dsimp only
    rw [rewritten_append, rewritten_other hne, List.nil_append]
  have eS : rewritten ent.scores (Disk.insertChunk now sch ent st l) = rewritten ent.scores (sch.order (replaceAt ent.scores
      (touched 0 st.scores.segs (Elements.sortSlice (Elements.sortSlice l))) (Lists.insertChunk now sch st l).scores.segs)) := by
    unfold Disk.insertChunk
    dsimp only
    rw [rewritten_append, rewritten_other (Ne.symm hne), List.append_nil]
  rw [eI, eS]
  refine ⟨⟨?_, fun id => ?_, ?_, fun id => ?_⟩, hI.1, hS.1⟩
  · rw [eI]
    exact Nat.le_trans hI.2.1 (length_le_of_rel (R := fun i (e : Element) => Covers st.index.segs i e.id) (touched_nodup _ _ _)
      (fun i hi => (insertIndex_spec h now sch hl hd i).1 hi)
      fun i j e hi hj => covers_unique h.isIndex hi hj)
  · rw [eI, hI.2.2 id]
    exact at_iff (insertIndex_spec h now sch hl hd) id
  · rw [eS]
    exact Nat.le_trans hS.2.1 (length_le_of_rel (R := fun i e => Belongs st.scores.segs i e) (touched_nodup _ _ _)
      (fun i hi => (insertScores_spec h hl i).1 hi)
      fun i j e hi hj => belongs_unique h.scores hi hj)
  · rw [eS, hS.2.2 id]
    exact at_iff (insertScores_spec h hl) id

theorem exists_append {α : Type} {P : α → Prop} {a b : List α} : (∃ e ∈ a ++ b, P e) ↔ (∃ e ∈ a, P e) ∨ ∃ e ∈ b, P e := by
  constructor
  · rintro ⟨e, h1, h2⟩
    exact (List.mem_append.1 h1).imp (fun h => ⟨e, h, h2⟩) fun h => ⟨e, h, h2⟩
  · rintro (⟨e, h1, h2⟩ | ⟨e, h1, h2⟩)
    · exact ⟨e, List.mem_append_left _ h1, h2⟩
    · exact ⟨e, List.mem_append_right _ h1, h2⟩

theorem insertChunks_wrote {now : Nat} {sch : Sched} {ent : Entry} (hne : ent.scores ≠ ent.index) :
    ∀ {cs : List (List Element)} {st : ListState}, ListOK st →
    (∀ e ∈ cs.flatten, Storable e) → DistinctIDs (st.content ++ cs.flatten) →
    Wrote ent st (Disk.insertChunks now sch ent st cs) cs.flatten
  | [], st, _, _, _ => by
    have e : ∀ p, rewritten p (Disk.insertChunks now sch ent st []) = [] := fun p => rfl
    refine ⟨by rw [e]; simp, fun id => ?_, by rw [e]; simp, fun id => ?_⟩ <;> rw [e] <;>
    · constructor
      · exact nofun
      · rintro ⟨_, _, _, _, _, h, _⟩; nomatch h
  | c :: cs, st, h, hl, hd => by
    rw [List.flatten_cons, ← List.append_assoc] at hd
    have hd1 : DistinctIDs (st.content ++ c) := by
      unfold DistinctIDs at *
      exact List.Pairwise.sublist ((List.sublist_append_left _ _).map _) hd
    have hl1 : ∀ e ∈ c, Storable e := fun e he => hl e (by simp [he])
    obtain ⟨h1, h2⟩ := Lists.insertChunk_spec (now := now) (sch := sch) h hl1 hd1
    have hstep := Disk.insertChunk_step now sch ent st c
    obtain ⟨w, -, -⟩ := insertChunk_wrote (now := now) (sch := sch) h hne hl1 hd1
    have ih := insertChunks_wrote (now := now) (sch := sch) hne (cs := cs) h1
      (fun e he => hl e (by rw [List.flatten_cons]; exact List.mem_append_right _ he))
      (hd.perm (h2.symm.append_right _))
    have e : ∀ p, rewritten p (Disk.insertChunks now sch ent st (c :: cs)) =
        rewritten p (Disk.insertChunk now sch ent st c) ++
          rewritten p (Disk.insertChunks now sch ent (Lists.insertChunk now sch st c) cs) := fun p => by
      show rewritten p (_ ++ _) = _
      rw [rewritten_append]
    refine ⟨?_, fun id => ?_, ?_, fun id => ?_⟩ <;> rw [e, List.flatten_cons]
    · rw [List.length_append, List.length_append]
      exact Nat.add_le_add w.indexCount ih.indexCount
    · rw [List.mem_append, w.index, ih.index, sameRanges_at hstep.index, ← at_or]
      exact at_iff (fun i => by
        rw [exists_append]
        exact or_congr Iff.rfl (exists_congr fun x => and_congr_right fun _ => sameRanges_covers hstep.index i x.id)) id
    · rw [List.length_append, List.length_append]
      exact Nat.add_le_add w.scoresCount ih.scoresCount
    · rw [List.mem_append, w.scores, ih.scores, sameRanges_at hstep.scores, ← at_or]
      exact at_iff (fun i => by
        rw [exists_append]
        exact or_congr Iff.rfl (exists_congr fun x => and_congr_right fun _ => sameRanges_belongs hstep.scores i x)) id

theorem insertChunks_only {now : Nat} {sch : Sched} {ent : Entry} : ∀ (cs : List (List Element)) (st : ListState),
    OnlyElements ent (Disk.insertChunks now sch ent st cs)
  | [], st => ⟨[], _, _, rfl, nofun⟩
  | c :: cs, st => by
    obtain ⟨es, s, i, h1, h2⟩ := insertChunks_only (now := now) (sch := sch) (ent := ent) cs (Lists.insertChunk now sch st c)
    refine ⟨Disk.insertChunk now sch ent st c ++ es, s, i, ?_, fun w hw => ?_⟩
    · show _ ++ _ = _
      rw [h1, List.append_assoc]
    · rcases List.mem_append.1 hw with hw | hw
      · rcases List.mem_append.1 hw with hw | hw <;>
        · obtain ⟨i, -, hi⟩ := List.mem_filterMap.1 ((sch.perm _).mem_iff.1 hw)
          obtain ⟨s, -, rfl⟩ := Option.map_eq_some_iff.1 hi
          first
          | exact ⟨_, _, .inl rfl⟩
          | exact ⟨_, _, .inr rfl⟩
      · exact h2 w hw

end RankDB.Cost

import Verif.Proofs.Build
/-
Helper lemmas: UpdateElements.
-/
namespace RankDB
open Spec

theorem mapFrom_getElem? (f : Nat → Seg → Seg) : ∀ (l : List Seg) (k i : Nat),
    (mapFrom f k l)[i]? = (l[i]?).map (f (k + i))
  | [], _, _ => by simp [mapFrom]
  | s :: ss, k, 0 => by simp [mapFrom]
  | s :: ss, k, i + 1 => by
    simp only [mapFrom, List.getElem?_cons_succ]
    rw [mapFrom_getElem? f ss (k + 1) i]
    congr 2; omega

theorem modifyAt_getElem? (f : Seg → Seg) : ∀ (l : List Seg) (i j : Nat),
    (modifyAt f i l)[j]? = (l[j]?).map (fun s => if j = i then f s else s)
  | [], _, _ => by simp [modifyAt]
  | s :: ss, 0, 0 => by simp [modifyAt]
  | s :: ss, 0, j + 1 => by
    simp only [modifyAt, List.getElem?_cons_succ]
    cases ss[j]? <;> simp
  | s :: ss, i + 1, 0 => by simp [modifyAt]
  | s :: ss, i + 1, j + 1 => by
    simp only [modifyAt, List.getElem?_cons_succ]
    rw [modifyAt_getElem? f ss i j]
    simp

/-- The segment at position `j` after putting the element into the segment at position `i`. -/
def putSeg (e : Element) (i j : Nat) (s : Seg) : Seg :=
  { s with elems :=
      if j = i then (Elements.insert (s.elems.filter (fun a => a.id != e.id)) e).1
      else s.elems.filter (fun a => a.id != e.id) }

/-- The element is put into the segment at position `i`, and removed everywhere else. -/
def putAt (e : Element) (i : Nat) (segs : List Seg) : List Seg := mapFrom (putSeg e i) 0 segs

theorem mapFrom_same {f : Nat → Seg → Seg} (hf : ∀ i s, SameRange (f i s) s) : ∀ (l : List Seg) (k : Nat),
    SameRanges (mapFrom f k l) l
  | [], _ => .nil
  | s :: ss, k => .cons (hf k s) (mapFrom_same hf ss (k + 1))

theorem tagged_filter (segs : List Seg) (P : Element → Bool) :
    (tagged segs).filter (fun p => P p.1) = segs.flatMap fun s => (s.elems.filter P).map fun e => (e, s.id) := by
  unfold tagged
  rw [List.filter_flatMap]
  apply flatMap_congr'
  intro s _
  rw [List.filter_map]; rfl

theorem putAt_tagged (e : Element) : ∀ (segs : List Seg) (k i : Nat) (d : Seg), segs[i]? = some d →
    (tagged (mapFrom (putSeg e (k + i)) k segs)).Perm
      ((e, d.id) :: (tagged segs).filter fun p => p.1.id != e.id)
  | [], _, _, _, h => by simp at h
  | s :: ss, k, 0, d, h => by
    simp at h
    subst h
    unfold mapFrom
    rw [tagged_cons, tagged_cons, List.filter_append, List.filter_map]
    simp only [Nat.add_zero, putSeg, if_true]
    have hrest : tagged (mapFrom (putSeg e k) (k + 1) ss) = (tagged ss).filter fun p => p.1.id != e.id := by
      rw [tagged_filter ss (fun a => a.id != e.id)]
      have : ∀ m, k < m → tagged (mapFrom (putSeg e k) m ss) =
            ss.flatMap fun s => (s.elems.filter fun a => a.id != e.id).map fun e => (e, s.id) := by
        induction ss with
        | nil => intro m _; rfl
        | cons t ts ih =>
          intro m hm
          unfold mapFrom
          rw [tagged_cons, ih (m + 1) (by omega), List.flatMap_cons]
          simp only [putSeg, if_neg (show ¬ m = k by omega)]
      exact this (k + 1) (by omega)
    rw [hrest]
    rw [← List.cons_append]
    refine List.Perm.append_right _ ?_
    exact (Elements.insert_perm _ e).map _
  | s :: ss, k, i + 1, d, h => by
    simp at h
    have ih := putAt_tagged e ss (k + 1) i d h
    unfold mapFrom
    rw [tagged_cons, tagged_cons, List.filter_append, List.filter_map]
    simp only [putSeg, if_neg (show ¬ k = k + (i + 1) by omega)]
    have : k + 1 + i = k + (i + 1) := by omega
    rw [this] at ih
    refine (ih.append_left _).trans ?_
    refine List.perm_middle.trans ?_
    exact .refl _

theorem putAt_spec {e : Element} {i : Nat} {segs : List Seg} {d : Seg} (h : SegsOK segs) (hd : segs[i]? = some d)
    (hr : InRange d e) (hst : Storable e) :
    SegsOK (putAt e i segs) ∧ SameRanges (putAt e i segs) segs ∧
    (tagged (putAt e i segs)).Perm ((e, d.id) :: (tagged segs).filter fun p => p.1.id != e.id) ∧
    (allElems (putAt e i segs)).Perm (e :: (allElems segs).filter fun a => a.id != e.id) := by
  have hsame : SameRanges (putAt e i segs) segs := mapFrom_same (f := putSeg e i) (fun _ _ => ⟨rfl, rfl, rfl, rfl, rfl⟩) _ _
  have htag := putAt_tagged e segs 0 i d hd
  rw [Nat.zero_add] at htag
  have hall : (allElems (putAt e i segs)).Perm (e :: (allElems segs).filter fun a => a.id != e.id) := by
    rw [← tagged_fst]
    refine (htag.map _).trans (.of_eq ?_)
    rw [List.map_cons, ← tagged_fst, List.filter_map]
    rfl
  have hmem : ∀ s ∈ putAt e i segs, ∃ j t, segs[j]? = some t ∧ s = putSeg e i j t := by
    intro s hs
    obtain ⟨j, hj⟩ := List.mem_iff_getElem?.1 hs
    unfold putAt at hj
    rw [mapFrom_getElem?, Nat.zero_add] at hj
    cases ht : segs[j]? with
    | none => simp [ht] at hj
    | some t =>
      simp only [ht, Option.map_some, Option.some.injEq] at hj
      exact ⟨j, t, ht, hj.symm⟩
  refine ⟨segsOK_of_same h hsame ?_ ?_ ?_ ?_, hsame, htag, hall⟩
  · intro s hs x hx
    obtain ⟨j, t, ht, rfl⟩ := hmem s hs
    have htm := List.mem_of_getElem? ht
    have : InRange t x → InRange (putSeg e i j t) x := fun h => h
    apply this
    simp only [putSeg] at hx
    split at hx
    · rename_i hji
      have := (Elements.insert_perm _ e).mem_iff.1 hx
      rcases List.mem_cons.1 this with rfl | hx
      · subst hji
        rw [hd] at ht; simp at ht; subst ht; exact hr
      · exact h.inRange t htm x (List.mem_filter.1 hx).1
    · exact h.inRange t htm x (List.mem_filter.1 hx).1
  · intro s hs
    obtain ⟨j, t, ht, rfl⟩ := hmem s hs
    have htm := List.mem_of_getElem? ht
    simp only [putSeg]
    split
    · exact Elements.insert_ranked _ e ((h.ranked t htm).filter _)
    · exact (h.ranked t htm).filter _
  · refine DistinctIDs.perm hall.symm ?_
    unfold DistinctIDs
    rw [List.map_cons, List.nodup_cons]
    refine ⟨?_, List.Pairwise.sublist (List.filter_sublist.map _) h.distinct⟩
    intro hm
    obtain ⟨x, hx, hxe⟩ := List.mem_map.1 hm
    have := (List.mem_filter.1 hx).2
    simp [hxe] at this
  · intro x hx
    rcases List.mem_cons.1 (hall.mem_iff.1 hx) with rfl | hx
    · exact hst
    · exact h.storable x (List.mem_filter.1 hx).1

/-- Outside of the target segment nothing happens to segments without that ID. -/
theorem putAt_other {e : Element} {i j : Nat} {segs : List Seg} (hji : j ≠ i)
    (h : ∀ s, segs[j]? = some s → ∀ x ∈ s.elems, x.id ≠ e.id) : (putAt e i segs)[j]? = segs[j]? := by
  unfold putAt
  rw [mapFrom_getElem?, Nat.zero_add]
  cases ht : segs[j]? with
  | none => rfl
  | some t =>
    simp only [Option.map_some, Option.some.injEq, putSeg, if_neg hji]
    have : t.elems.filter (fun a => a.id != e.id) = t.elems := by
      rw [List.filter_eq_self]; intro x hx; simpa using h t ht x hx
    rw [this]

theorem distinct_seg {segs : List Seg} (h : SegsOK segs) {s : Seg} (hs : s ∈ segs) : DistinctIDs s.elems := by
  have h1 := h.distinct
  unfold DistinctIDs allElems at h1
  rw [List.map_flatMap] at h1
  exact (List.pairwise_flatMap.1 h1).1 s hs

namespace Lists
open Segments

theorem touch_storable {now : Nat} {e : Element} (h : Storable e) (hn : now < 2 ^ 32 - 1) :
    Storable (Elements.touch now e) := by
  unfold Elements.touch
  split
  · exact ⟨h.score, h.id, h.tie, hn⟩
  · exact h

theorem touch_epos (now : Nat) (e : Element) : epos (Elements.touch now e) = epos e := by
  unfold Elements.touch; split <;> rfl

theorem touch_inRange (now : Nat) (e : Element) (s : Seg) : InRange s (Elements.touch now e) ↔ InRange s e := by
  have := touch_epos now e
  unfold epos at this
  unfold InRange; rw [this]

theorem touch_eq_stamp (now : Nat) (e : Element) : Elements.touch now e = stamp now e := by
  unfold Elements.touch stamp; simp

/-- Adding to a segment, where the ID does not occur in other segments. -/
theorem onElems_addTo {now : Nat} {e : Element} {i : Nat} {segs : List Seg} (h : SegsOK segs)
    (ho : ∀ j s, j ≠ i → segs[j]? = some s → ∀ x ∈ s.elems, x.id ≠ e.id) :
    onElems (addTo now e) i segs = putAt (Elements.touch now e) i segs := by
  apply List.ext_getElem?
  intro j
  unfold onElems putAt
  rw [modifyAt_getElem?, mapFrom_getElem?, Nat.zero_add]
  cases ht : segs[j]? with
  | none => rfl
  | some t =>
    simp only [Option.map_some, Option.some.injEq, putSeg, Elements.touch_id]
    by_cases hji : j = i
    · simp only [hji, if_true, addTo]
      rw [Elements.add_eq _ _ _ (distinct_seg h (List.mem_of_getElem? ht))]
    · simp only [if_neg hji]
      have : t.elems.filter (fun a => a.id != e.id) = t.elems := by
        rw [List.filter_eq_self]; intro x hx; simpa using ho j t hji ht x hx
      rw [this]

/-- Updating in a segment that contains the ID. -/
theorem onElems_updateIn {now : Nat} {e : Element} {i : Nat} {segs : List Seg} (h : SegsOK segs)
    (hi : ∀ s, segs[i]? = some s → ∃ x ∈ s.elems, x.id = e.id)
    (ho : ∀ j s, j ≠ i → segs[j]? = some s → ∀ x ∈ s.elems, x.id ≠ e.id) :
    onElems (updateIn now e) i segs = putAt (Elements.touch now e) i segs := by
  apply List.ext_getElem?
  intro j
  unfold onElems putAt
  rw [modifyAt_getElem?, mapFrom_getElem?, Nat.zero_add]
  cases ht : segs[j]? with
  | none => rfl
  | some t =>
    simp only [Option.map_some, Option.some.injEq, putSeg, Elements.touch_id]
    by_cases hji : j = i
    · simp only [hji, if_true, updateIn]
      rw [Elements.update_eq _ _ _ (distinct_seg h (List.mem_of_getElem? ht)), if_pos (hi t (hji ▸ ht))]
    · simp only [if_neg hji]
      have : t.elems.filter (fun a => a.id != e.id) = t.elems := by
        rw [List.filter_eq_self]; intro x hx; simpa using ho j t hji ht x hx
      rw [this]

theorem deleteIn_eq {l : List Element} {id : Nat} (hd : DistinctIDs l) :
    deleteIn id l = l.filter fun a => a.id != id := by
  unfold deleteIn
  cases h : Elements.delete l id with
  | none =>
    rw [Elements.delete_none] at h
    symm
    rw [Option.getD_none, List.filter_eq_self]
    intro x hx; simpa using h x hx
  | some l' => rw [Option.getD_some]; exact Elements.delete_some hd h

/-- Adding to one segment and deleting from another. -/
theorem onElems_move {now : Nat} {e : Element} {i k : Nat} {segs : List Seg} (h : SegsOK segs) (hik : k ≠ i)
    (ho : ∀ j s, j ≠ k → segs[j]? = some s → ∀ x ∈ s.elems, x.id ≠ e.id) :
    onElems (deleteIn e.id) k (onElems (addTo now e) i segs) = putAt (Elements.touch now e) i segs := by
  apply List.ext_getElem?
  intro j
  unfold onElems putAt
  rw [modifyAt_getElem?, modifyAt_getElem?, mapFrom_getElem?, Nat.zero_add]
  cases ht : segs[j]? with
  | none => rfl
  | some t =>
    have hdt := distinct_seg h (List.mem_of_getElem? ht)
    simp only [Option.map_some, Option.some.injEq, putSeg, Elements.touch_id]
    by_cases hji : j = i
    · subst hji
      simp only [if_true, if_neg (Ne.symm hik), addTo]
      rw [Elements.add_eq _ _ _ hdt]
    · simp only [if_neg hji]
      by_cases hjk : j = k
      · simp only [hjk, if_true, deleteIn_eq hdt]
      · simp only [if_neg hjk]
        have : t.elems.filter (fun a => a.id != e.id) = t.elems := by
          rw [List.filter_eq_self]; intro x hx; simpa using ho j t hjk ht x hx
        rw [this]

/-- A state between the single updates: counts are not maintained. -/
structure Mid (S I : List Seg) : Prop where
  scores : SegsOK S
  index : SegsOK I
  link : IndexOK S I
  ids : ∀ s ∈ S, s.id < 2 ^ 32

theorem Mid.isIndex {S I : List Seg} (h : Mid S I) : IsIndex I := ⟨h.index, h.link.byID, h.link.aligned⟩

/-- What is known about an ID: the index segment it belongs to and its index element. -/
structure Loc (I : List Seg) (id iidx : Nat) (ex : Option Element) : Prop where
  seg : ∃ s, I[iidx]? = some s ∧ s.min ≤ id ∧ id ≤ s.max
  ex : ∀ x, ex = some x ↔ (x ∈ allElems I ∧ x.id = id)

theorem getElem?_unique {segs : List Seg} (h : SegsOK segs) {i j : Nat} {s t : Seg} (hi : segs[i]? = some s)
    (hj : segs[j]? = some t) (hst : s.id = t.id) : i = j := by
  have h1 := segIndex_spec (k := 0) (acc := 0) h.segIDs hi rfl
  have h2 := segIndex_spec (k := 0) (acc := 0) h.segIDs hj rfl
  rw [hst, h2] at h1; omega

/-- An element that the index knows is in the segment at the position that is looked up. -/
theorem Mid.position {S I : List Seg} (h : Mid S I) {x : Element} (hx : x ∈ allElems I) :
    ∃ s y, S[segIndex x.tie S 0 0]? = some s ∧ s.id = x.tie ∧ y ∈ s.elems ∧ y.id = x.id ∧
      ∀ j t, S[j]? = some t → ∀ z ∈ t.elems, z.id = x.id → j = segIndex x.tie S 0 0 := by
  have hp : (x.id, x.tie) ∈ placement S := h.link.complete.mem_iff.1 (List.mem_map.2 ⟨x, hx, rfl⟩)
  unfold placement at hp
  obtain ⟨s, hs, hm⟩ := List.mem_flatMap.1 hp
  obtain ⟨y, hy, hye⟩ := List.mem_map.1 hm
  simp only [Prod.mk.injEq] at hye
  obtain ⟨i, hi⟩ := List.mem_iff_getElem?.1 hs
  have hix := segIndex_spec (k := 0) (acc := 0) h.scores.segIDs hi hye.2
  rw [Nat.zero_add] at hix
  refine ⟨s, y, by rw [hix]; exact hi, hye.2, hy, hye.1, ?_⟩
  intro j t hj z hz hzx
  have htm := List.mem_of_getElem? hj
  have hzy : z = y := h.scores.distinct.eq_of_id (mem_allElems.2 ⟨t, htm, hz⟩) (mem_allElems.2 ⟨s, hs, hy⟩)
    (by rw [hzx, hye.1])
  subst hzy
  have hts : t = s := tiles_unique h.scores.tiles htm hs (h.scores.inRange t htm z hz) (h.scores.inRange s hs z hy)
  rw [hix]
  exact getElem?_unique h.scores hj hi (by rw [hts])

/-- An ID that the index does not know is not in the list. -/
theorem Mid.absent {S I : List Seg} (h : Mid S I) {id : Nat} (hx : ∀ x ∈ allElems I, x.id ≠ id) :
    ∀ x ∈ allElems S, x.id ≠ id := by
  intro x hxs hid
  have : id ∈ (allElems I).map (·.id) := by
    rw [h.link.ids.mem_iff, ← hid]; exact List.mem_map.2 ⟨x, hxs, rfl⟩
  obtain ⟨y, hy, hyid⟩ := List.mem_map.1 this
  exact hx y hy hyid

/-- Index elements with an ID are only in the index segment of the ID. -/
theorem Mid.indexSeg {S I : List Seg} (h : Mid S I) {id iidx : Nat} {ex : Option Element} (hl : Loc I id iidx ex) :
    ∀ j s, j ≠ iidx → I[j]? = some s → ∀ x ∈ s.elems, x.id ≠ id := by
  intro j s hj hs x hx hid
  obtain ⟨t, ht, h1, h2⟩ := hl.seg
  have hsm := List.mem_of_getElem? hs
  have htm := List.mem_of_getElem? ht
  have hxI : x ∈ allElems I := mem_allElems.2 ⟨s, hsm, hx⟩
  have hr : InRange t x := by
    rw [inRange_aligned (h.link.aligned t htm) (h.index.storable x hxI).tie, h.link.byID x hxI, hid]
    exact ⟨h1, h2⟩
  have hst : s = t := tiles_unique h.index.tiles hsm htm (h.index.inRange s hsm x hx) hr
  exact hj (getElem?_unique h.index hs ht (by rw [hst]))

theorem asIndex_touch (now : Nat) (e : Element) (i : Nat) :
    Elements.touch now (e.asIndex i) = (Elements.touch now e).asIndex i := by
  unfold Elements.touch Element.asIndex; simp only []; split <;> simp_all

theorem sameRanges_getElem? {a b : List Seg} (h : SameRanges a b) : ∀ (i : Nat),
    (a[i]? = none ∧ b[i]? = none) ∨ ∃ s t, a[i]? = some s ∧ b[i]? = some t ∧ SameRange s t := by
  induction h with
  | nil => intro i; simp
  | cons h _ ih =>
    intro i
    cases i with
    | zero => right; exact ⟨_, _, rfl, rfl, h⟩
    | succ i => simpa using ih i

theorem sameRanges_segIndex {a b : List Seg} (h : SameRanges a b) (id : Nat) : ∀ k acc,
    segIndex id a k acc = segIndex id b k acc := by
  induction h with
  | nil => intros; rfl
  | cons h _ ih => intro k acc; unfold segIndex; rw [h.1, ih]

theorem putAt_mid {now : Nat} {S I : List Seg} {e : Element} {sidx iidx : Nat} {ex : Option Element} {dst : Seg}
    (h : Mid S I) (hdst : S[sidx]? = some dst) (hr : InRange dst e) (hst : Storable e)
    (hnow : now < 2 ^ 32 - 1) (hl : Loc I e.id iidx ex) :
    let e' := Elements.touch now e
    let x' := Elements.touch now (e.asIndex dst.id)
    Mid (putAt e' sidx S) (putAt x' iidx I) ∧ SameRanges (putAt e' sidx S) S ∧ SameRanges (putAt x' iidx I) I ∧
    (allElems (putAt e' sidx S)).Perm (e' :: (allElems S).filter fun a => a.id != e.id) ∧
    (∀ x, x.id ≠ e.id → (x ∈ allElems (putAt x' iidx I) ↔ x ∈ allElems I)) := by
  intro e' x'
  obtain ⟨t, ht, h1, h2⟩ := hl.seg
  have htm := List.mem_of_getElem? ht
  have hdm := List.mem_of_getElem? hdst
  have hx'st : Storable x' := touch_storable (asIndex_storable hst _) hnow
  have hx'id : x'.id = e.id := by simp only [x', Elements.touch_id]; rfl
  have he'id : e'.id = e.id := Elements.touch_id _ _
  have hx' : x' = e'.asIndex dst.id := asIndex_touch _ _ _
  have hxr : InRange t x' := by
    rw [inRange_aligned (h.link.aligned t htm) hx'st.tie, hx']
    simp only [Element.asIndex, he'id]
    exact ⟨h1, h2⟩
  obtain ⟨a1, a2, a3, a4⟩ := putAt_spec (e := e') h.scores hdst ((touch_inRange now e dst).2 hr) (touch_storable hst hnow)
  obtain ⟨b1, b2, b3, b4⟩ := putAt_spec (e := x') h.index ht hxr hx'st
  rw [he'id] at a3 a4
  rw [hx'id] at b3 b4
  refine ⟨⟨a1, b1, ⟨?_, ?_, aligned_of_same b2 h.link.aligned⟩, ?_⟩, a2, b2, a4, ?_⟩
  · rw [tagged_placement]
    refine List.Perm.trans ?_ (a3.map _).symm
    unfold indexed
    refine (b4.map _).trans ?_
    rw [List.map_cons, List.map_cons, hx'id, he'id]
    have : x'.tie = dst.id := by
      rw [hx']; simp only [Element.asIndex]; exact Nat.mod_eq_of_lt (h.ids dst hdm)
    rw [this]
    refine List.Perm.cons _ ?_
    have hf := h.link.complete.filter (fun p => p.1 != e.id)
    rw [tagged_placement] at hf
    unfold indexed at hf
    rw [List.filter_map, List.filter_map] at hf
    exact hf
  · intro x hx
    rcases List.mem_cons.1 (b4.mem_iff.1 hx) with rfl | hx
    · rw [hx']; rfl
    · exact h.link.byID x (List.mem_filter.1 hx).1
  · intro s hs
    obtain ⟨u, hu, hsr⟩ := forall₂_mem a2 s hs
    rw [hsr.1]; exact h.ids u hu
  · intro x hx
    rw [b4.mem_iff, List.mem_cons, List.mem_filter]
    constructor
    · rintro (rfl | h)
      · exact absurd hx'id hx
      · exact h.1
    · intro h; right; exact ⟨h, by simpa using hx⟩

/-- The index stays as it is if the segment of the element does not change. -/
theorem putAt_mid_same {now : Nat} {S I : List Seg} {e x : Element} {sidx : Nat} {dst : Seg}
    (h : Mid S I) (hdst : S[sidx]? = some dst) (hr : InRange dst e) (hst : Storable e)
    (hnow : now < 2 ^ 32 - 1) (hx : x ∈ allElems I) (hxe : x.id = e.id) (hxt : x.tie = dst.id) :
    let e' := Elements.touch now e
    Mid (putAt e' sidx S) I ∧ SameRanges (putAt e' sidx S) S ∧
    (allElems (putAt e' sidx S)).Perm (e' :: (allElems S).filter fun a => a.id != e.id) := by
  intro e'
  have he'id : e'.id = e.id := Elements.touch_id _ _
  obtain ⟨a1, a2, a3, a4⟩ := putAt_spec (e := e') h.scores hdst ((touch_inRange now e dst).2 hr) (touch_storable hst hnow)
  rw [he'id] at a3 a4
  refine ⟨⟨a1, h.index, ⟨?_, h.link.byID, h.link.aligned⟩, ?_⟩, a2, a4⟩
  · rw [tagged_placement]
    refine List.Perm.trans ?_ (a3.map _).symm
    rw [List.map_cons, he'id]
    have hp : (e.id, dst.id) ∈ placement S := by
      rw [← hxe, ← hxt]
      exact h.link.complete.mem_iff.1 (List.mem_map.2 ⟨x, hx, rfl⟩)
    have hnd : ((placement S).map (·.1)).Nodup := by rw [placement_ids]; exact h.scores.distinct
    refine h.link.complete.trans ?_
    have e1 : ((tagged S).filter fun p => p.1.id != e.id).map (fun p => (p.1.id, p.2)) =
        (placement S).filter fun p => p.1 != e.id := by
      rw [tagged_placement, List.filter_map]; rfl
    rw [e1]
    clear e1 a3 a4 a2 a1 h hx
    generalize placement S = P at hp hnd
    generalize dst.id = d at *
    show P.Perm ((e.id, d) :: List.filter (fun p => p.fst != e.id) P)
    clear hxt hdst hr hst he'id e' hxe
    induction P with
    | nil => simp at hp
    | cons q P ih =>
      simp only [List.map_cons, List.nodup_cons] at hnd
      rcases List.mem_cons.1 hp with hp | hp
      · subst hp
        rw [List.filter_cons_of_neg (by simp)]
        refine List.Perm.cons _ (.of_eq ?_)
        symm
        rw [List.filter_eq_self]
        intro r hr
        simp only [bne_iff_ne, ne_eq]
        intro he
        exact hnd.1 (List.mem_map.2 ⟨r, hr, he⟩)
      · have hq : q.1 ≠ e.id := by
          intro he
          exact hnd.1 (he ▸ List.mem_map.2 ⟨_, hp, rfl⟩)
        rw [List.filter_cons_of_pos (by simpa using hq)]
        exact ((ih hnd.2 hp).cons _).trans (.swap _ _ _)
  · intro s hs
    obtain ⟨u, hu, hsr⟩ := forall₂_mem a2 s hs
    rw [hsr.1]; exact h.ids u hu

/-- One element. -/
theorem updateOne_spec {now : Nat} {org S I : List Seg} {loc : List (Nat × Nat × Option Element)} {sidx : Nat}
    {e : Element} {dst : Seg} (h : Mid S I) (horg : SameRanges S org) (hdst : S[sidx]? = some dst) (hr : InRange dst e)
    (hst : Storable e) (hnow : now < 2 ^ 32 - 1) (hl : Loc I e.id (located loc e.id).1 (located loc e.id).2) :
    let r := updateOne now org loc sidx (S, I) e
    Mid r.1 r.2 ∧ SameRanges r.1 S ∧ SameRanges r.2 I ∧
    (allElems r.1).Perm (Elements.touch now e :: (allElems S).filter fun a => a.id != e.id) ∧
    (∀ x, x.id ≠ e.id → (x ∈ allElems r.2 ↔ x ∈ allElems I)) ∧
    (∀ j, j ≠ sidx → (∀ x, (located loc e.id).2 = some x → segIndex x.tie org 0 0 ≠ j) → r.1[j]? = S[j]?) ∧
    (∀ j, j ≠ (located loc e.id).1 → r.2[j]? = I[j]?) := by
  have hdid : ((org[sidx]?).map (·.id)).getD 0 = dst.id := by
    rcases sameRanges_getElem? horg sidx with ⟨h1, -⟩ | ⟨s, t, h1, h2, h3⟩
    · rw [h1] at hdst; simp at hdst
    · rw [h1] at hdst; simp at hdst; subst hdst
      rw [h2]; simp [h3.1]
  have hdm := List.mem_of_getElem? hdst
  have hdlt := h.ids dst hdm
  unfold updateOne
  simp only [hdid]
  generalize located loc e.id = L at hl ⊢
  obtain ⟨iidx, ex⟩ := L
  simp only [] at hl ⊢
  have hidxo := h.indexSeg hl
  cases ex with
  | none =>
    have hno : ∀ x ∈ allElems I, x.id ≠ e.id := by
      intro x hx hid
      have := (hl.ex x).2 ⟨hx, hid⟩
      simp at this
    have hnoS := h.absent hno
    have hoS : ∀ (j : Nat) (s : Seg), S[j]? = some s → ∀ x ∈ s.elems, x.id ≠ e.id := fun j s hs x hx =>
      hnoS x (mem_allElems.2 ⟨s, List.mem_of_getElem? hs, hx⟩)
    dsimp only
    rw [onElems_addTo h.scores (fun j s _ hs => hoS j s hs),
      onElems_addTo (e := e.asIndex dst.id) h.index (fun j s hj hs => hidxo j s hj hs)]
    obtain ⟨p1, p2, p3, p4, p5⟩ := putAt_mid (now := now) h hdst hr hst hnow hl
    refine ⟨p1, p2, p3, p4, p5, ?_, ?_⟩
    · intro j hj _
      exact putAt_other hj fun s hs x hx => by rw [Elements.touch_id]; exact hoS j s hs x hx
    · intro j hj
      exact putAt_other hj fun s hs x hx => by rw [Elements.touch_id]; exact hidxo j s hj hs x hx
  | some x =>
    obtain ⟨hx, hxe⟩ := (hl.ex x).1 rfl
    obtain ⟨os, y, o1, o2, o3, o4, o5⟩ := h.position hx
    rw [hxe] at o4 o5
    have hseg : segIndex x.tie org 0 0 = segIndex x.tie S 0 0 := (sameRanges_segIndex horg _ _ _).symm
    simp only [hseg]
    have hmod : dst.id % 2 ^ 32 = dst.id := Nat.mod_eq_of_lt hdlt
    simp only [hmod]
    by_cases hsame : x.tie = dst.id
    · simp only [hsame, beq_self_eq_true, if_true]
      rw [hsame] at o1 o5
      have hsi : segIndex dst.id S 0 0 = sidx := by
        have := segIndex_spec (k := 0) (acc := 0) h.scores.segIDs hdst rfl; omega
      rw [hsi] at o1 o5
      have hod : os = dst := by rw [hdst] at o1; simp at o1; exact o1.symm
      subst hod
      have hoth : ∀ j s, j ≠ sidx → S[j]? = some s → ∀ z ∈ s.elems, z.id ≠ e.id :=
        fun j s hj hs z hz hid => hj (o5 j s hs z hz hid)
      rw [onElems_updateIn h.scores (fun s hs => by
        rw [hdst] at hs; simp at hs; subst hs; exact ⟨y, o3, o4⟩) hoth]
      obtain ⟨p1, p2, p3⟩ := putAt_mid_same (now := now) h hdst hr hst hnow hx hxe hsame
      refine ⟨p1, p2, SameRanges.refl I, p3, fun _ _ => trivial, ?_, fun _ _ => trivial⟩
      intro j hj _
      exact putAt_other hj fun s hs z hz => by rw [Elements.touch_id]; exact hoth j s hj hs z hz
    · have hne : ¬ ((x.tie == dst.id) = true) := by simpa using hsame
      simp only [if_neg hne]
      have hk : segIndex x.tie S 0 0 ≠ sidx := by
        intro hk
        rw [hk, hdst] at o1; simp at o1; subst o1; exact hsame o2.symm
      obtain ⟨t, ht, t1, t2⟩ := hl.seg
      have hxt : x ∈ t.elems := by
        obtain ⟨u, hu, hxu⟩ := mem_allElems.1 hx
        obtain ⟨j, hj⟩ := List.mem_iff_getElem?.1 hu
        by_cases hji : j = iidx
        · subst hji; rw [ht] at hj; simp at hj; subst hj; exact hxu
        · exact absurd hxe (hidxo j u hji hj x hxu)
      have hupd : Elements.update now (elemsAt I iidx) (e.asIndex dst.id) ≠ none := by
        unfold elemsAt
        rw [ht]
        simp only [Option.map_some, Option.getD_some]
        rw [Elements.update_eq _ _ _ (distinct_seg h.index (List.mem_of_getElem? ht)), if_pos ⟨x, hxt, hxe⟩]
        simp
      cases hu : Elements.update now (elemsAt I iidx) (e.asIndex dst.id) with
      | none => exact absurd hu hupd
      | some r =>
        simp only []
        have hoth : ∀ j s, j ≠ segIndex x.tie S 0 0 → S[j]? = some s → ∀ z ∈ s.elems, z.id ≠ e.id :=
          fun j s hj hs z hz hid => hj (o5 j s hs z hz hid)
        rw [onElems_move h.scores hk hoth,
          onElems_updateIn (e := e.asIndex dst.id) h.index (fun s hs => by
            rw [ht] at hs; simp at hs; subst hs; exact ⟨x, hxt, hxe⟩) (fun j s hj hs => hidxo j s hj hs)]
        obtain ⟨p1, p2, p3, p4, p5⟩ := putAt_mid (now := now) h hdst hr hst hnow hl
        refine ⟨p1, p2, p3, p4, p5, ?_, ?_⟩
        · intro j hj hjx
          have := hjx x rfl
          rw [hseg] at this
          exact putAt_other hj fun s hs z hz => by
            rw [Elements.touch_id]; exact hoth j s (Ne.symm this) hs z hz
        · intro j hj
          exact putAt_other hj fun s hs z hz => by rw [Elements.touch_id]; exact hidxo j s hj hs z hz


/-! ### The whole update -/

theorem splitElementsIdx_eq {segs : List Seg} {l : List Element} (hties : ∀ s ∈ segs, s.minTie < 2 ^ 32 ∧ s.maxTie < 2 ^ 32)
    (hs : ∀ e ∈ l, Storable e) (hf : Falling l) : ∀ {k : Nat},
    splitElementsIdx k segs l = (segs.zipIdx k).filterMap fun p =>
      if sel p.1 l = [] then none else some (p.2, sel p.1 l) := by
  induction segs with
  | nil => intro k; rfl
  | cons s ss ih =>
    intro k
    obtain ⟨h1, h2⟩ := filterIdx_sel (hties s (by simp)) hs hf
    unfold splitElementsIdx
    rw [List.zipIdx_cons, List.filterMap_cons]
    simp only [h1]
    rw [ih (fun s hs => hties s (by simp [hs]))]
    by_cases h : sel s l = []
    · simp only [if_pos h, if_pos (h2.2 h)]
    · simp only [if_neg h, if_neg (fun he => h (h2.1 he))]

theorem updateAll_eq {now : Nat} {org : List Seg} {loc : List (Nat × Nat × Option Element)} :
    ∀ (dst : List (Nat × List Element)) (st : List Seg × List Seg),
    updateAll now org loc dst st =
      (dst.flatMap fun d => d.2.map fun e => (d.1, e)).foldl (fun st p => updateOne now org loc p.1 st p.2) st
  | [], st => rfl
  | d :: dst, st => by
    have ih := updateAll_eq (now := now) (org := org) (loc := loc) dst
    unfold updateAll at *
    rw [List.foldl_cons, ih, List.flatMap_cons, List.foldl_append, List.foldl_map]

theorem updateFold_spec {now : Nat} {org : List Seg} {loc : List (Nat × Nat × Option Element)} {LS LI : List Nat}
    (hnow : now < 2 ^ 32 - 1) : ∀ {pairs : List (Nat × Element)} {S I : List Seg}, Mid S I → SameRanges S org →
    (∀ p ∈ pairs, Storable p.2 ∧ ∃ d, S[p.1]? = some d ∧ InRange d p.2) → (pairs.map (·.2.id)).Nodup →
    (∀ p ∈ pairs, Loc I p.2.id (located loc p.2.id).1 (located loc p.2.id).2) →
    (∀ p ∈ pairs, p.1 ∈ LS ∧ (∀ x, (located loc p.2.id).2 = some x → segIndex x.tie org 0 0 ∈ LS) ∧
      (located loc p.2.id).1 ∈ LI) →
    let r := pairs.foldl (fun st p => updateOne now org loc p.1 st p.2) (S, I)
    Mid r.1 r.2 ∧ SameRanges r.1 S ∧ SameRanges r.2 I ∧
    (allElems r.1).Perm ((pairs.map fun p => Elements.touch now p.2) ++
      (allElems S).filter fun a => !((pairs.map (·.2.id)).contains a.id)) ∧
    (∀ j, j ∉ LS → r.1[j]? = S[j]?) ∧ (∀ j, j ∉ LI → r.2[j]? = I[j]?)
  | [], S, I, h, _, _, _, _, _ => by
    refine ⟨h, SameRanges.refl S, SameRanges.refl I, ?_, fun _ _ => rfl, fun _ _ => rfl⟩
    simp only [List.foldl_nil, List.map_nil, List.nil_append, List.contains_nil, Bool.not_false]
    rw [List.filter_eq_self.2 (by simp)]
  | p :: ps, S, I, h, horg, hp, hnd, hloc, hL => by
    obtain ⟨hst, d, hd, hr⟩ := hp p (by simp)
    have hLp := hL p (by simp)
    obtain ⟨s1, s2, s3, s4, s5, s6, s7⟩ := updateOne_spec (now := now) (loc := loc) h horg hd hr hst hnow (hloc p (by simp))
    simp only [List.foldl_cons]
    generalize hq : updateOne now org loc p.1 (S, I) p.2 = q at *
    obtain ⟨S1, I1⟩ := q
    simp only [] at s1 s2 s3 s4 s5 s6 s7
    simp only [List.map_cons, List.nodup_cons] at hnd
    have hidne : ∀ p' ∈ ps, p'.2.id ≠ p.2.id := by
      intro p' hp' he
      exact hnd.1 (he ▸ List.mem_map.2 ⟨p', hp', rfl⟩)
    obtain ⟨r1, r2, r3, r4, r5, r6⟩ := updateFold_spec (now := now) (org := org) (loc := loc) (LS := LS) (LI := LI) hnow
      (pairs := ps) s1 (s2.trans horg)
      (by
        intro p' hp'
        obtain ⟨g1, d', g2, g3⟩ := hp p' (by simp [hp'])
        refine ⟨g1, ?_⟩
        rcases sameRanges_getElem? s2 p'.1 with ⟨-, e2⟩ | ⟨a, b, e1, e2, e3⟩
        · rw [e2] at g2; simp at g2
        · rw [e2] at g2; simp at g2; subst g2
          exact ⟨a, e1, (e3.inRange _).2 g3⟩)
      hnd.2
      (by
        intro p' hp'
        have hl := hloc p' (by simp [hp'])
        refine ⟨?_, ?_⟩
        · obtain ⟨t, ht, t1, t2⟩ := hl.seg
          rcases sameRanges_getElem? s3 (located loc p'.2.id).1 with ⟨-, e2⟩ | ⟨a, b, e1, e2, e3⟩
          · rw [e2] at ht; simp at ht
          · rw [e2] at ht; simp at ht; subst ht
            obtain ⟨-, m1, m2, -, -⟩ := e3
            exact ⟨a, e1, by omega, by omega⟩
        · intro x
          rw [hl.ex x]
          constructor
          · rintro ⟨hx, hid⟩
            exact ⟨(s5 x (by rw [hid]; exact hidne p' hp')).2 hx, hid⟩
          · rintro ⟨hx, hid⟩
            exact ⟨(s5 x (by rw [hid]; exact hidne p' hp')).1 hx, hid⟩)
      (fun p' hp' => hL p' (by simp [hp']))
    refine ⟨r1, r2.trans s2, r3.trans s3, ?_, ?_, ?_⟩
    · refine r4.trans ?_
      have e1 := s4.filter (fun a => !((ps.map (·.2.id)).contains a.id))
      refine (e1.append_left _).trans ?_
      rw [List.filter_cons_of_pos (by
        rw [Elements.touch_id]
        simp only [Bool.not_eq_true', List.contains_eq_mem, decide_eq_false_iff_not]
        exact hnd.1)]
      refine List.perm_middle.trans ?_
      rw [List.map_cons, List.cons_append]
      refine List.Perm.cons _ (List.Perm.append_left _ (.of_eq ?_))
      rw [List.filter_filter]
      apply List.filter_congr
      intro a _
      rw [Bool.eq_iff_iff]
      simp only [List.contains_eq_mem, Bool.and_eq_true, Bool.not_eq_true', decide_eq_false_iff_not, bne_iff_ne,
        ne_eq, List.map_cons, List.mem_cons, not_or]
      exact ⟨fun ⟨a, b⟩ => ⟨b, a⟩, fun ⟨a, b⟩ => ⟨b, a⟩⟩
    · intro j hj
      rw [r5 j hj]
      refine s6 j (fun he => hj (he ▸ hLp.1)) ?_
      intro x hx he
      exact hj (he ▸ hLp.2.1 x hx)
    · intro j hj
      rw [r6 j hj]
      exact s7 j (fun he => hj (he ▸ hLp.2.2))

theorem sort_idem_perm (l : List Nat) : (ElementIDs.sort (ElementIDs.sort l)).Perm l :=
  (ElementIDs.sort_perm _).trans (ElementIDs.sort_perm _)

/-- The lookup of index segments and existing index elements. -/
theorem locate_spec {I : List Seg} (h : IsIndex I) {ids : List Nat} (hid : ∀ v ∈ ids, v < 2 ^ 64) {id : Nat}
    (hm : id ∈ ids) : Loc I id (located (locate I ids) id).1 (located (locate I ids) id).2 ∧
      (located (locate I ids) id).1 ∈ (splitScores I ids).map (·.1) ∧
      (id, located (locate I ids) id) ∈ locate I ids := by
  have hsp := splitScores_eq h.ok.tiles h.aligned hid
  have hmem : ∀ r ∈ locate I ids, ∃ s, I[r.2.1]? = some s ∧ r.1 ∈ selScores s (ElementIDs.sort ids) ∧
      r.2.1 ∈ (splitScores I ids).map (·.1) ∧
      r.2.2 = Elements.find (Elements.firstWithScore s.elems (selScores s (ElementIDs.sort ids))) r.1 := by
    intro r hr
    unfold locate at hr
    obtain ⟨m, hm1, hm2⟩ := List.mem_flatMap.1 hr
    obtain ⟨v, hv, rfl⟩ := List.mem_map.1 hm2
    have hm1' := hm1
    rw [hsp] at hm1
    obtain ⟨⟨s, i⟩, hsi, he⟩ := List.mem_filterMap.1 hm1
    split at he
    · simp at he
    · simp only [Option.some.injEq] at he
      subst he
      simp only [] at hv ⊢
      obtain ⟨g1, g2⟩ := elemsAt_zipIdx hsi
      exact ⟨s, g1, hv, List.mem_map.2 ⟨_, hm1', rfl⟩, by rw [g2]⟩
  have hex : ∃ r ∈ locate I ids, r.1 = id := by
    obtain ⟨s, hs, h1, h2⟩ := tiles_exists h.ok.tiles (p := pos id 0) (pos_le_top (hid id hm) (by decide))
    have ha := h.aligned s hs
    have hr : s.min ≤ id ∧ id ≤ s.max := by
      simp only [lo, hi, pos] at h1 h2; rw [ha.1] at h1; rw [ha.2] at h2; omega
    have hsel : id ∈ selScores s (ElementIDs.sort ids) :=
      mem_selScores.2 ⟨(ElementIDs.sort_perm ids).mem_iff.2 hm, hr⟩
    obtain ⟨i, hi⟩ := List.mem_iff_getElem?.1 hs
    refine ⟨(id, i, Elements.find (Elements.firstWithScore (elemsAt I i) (selScores s (ElementIDs.sort ids))) id),
      ?_, rfl⟩
    · unfold locate
      refine List.mem_flatMap.2 ⟨(i, selScores s (ElementIDs.sort ids)), ?_, List.mem_map.2 ⟨id, hsel, rfl⟩⟩
      rw [hsp]
      refine List.mem_filterMap.2 ⟨(s, i), List.mk_mem_zipIdx_iff_getElem?.2 hi, ?_⟩
      rw [if_neg (by intro he; simp only [] at he; rw [he] at hsel; simp at hsel)]
  obtain ⟨r0, hr0, hr0id⟩ := hex
  have hfind : ∃ r ∈ locate I ids, r.1 = id ∧ located (locate I ids) id = r.2 := by
    unfold located
    cases hf : (locate I ids).find? (fun r => r.1 == id) with
    | none =>
      rw [List.find?_eq_none] at hf
      exact absurd (by simpa using hr0id) (hf r0 hr0)
    | some r =>
      exact ⟨r, List.mem_of_find?_eq_some hf, by simpa using List.find?_some hf, rfl⟩
  obtain ⟨r, hr, hrid, heq⟩ := hfind
  obtain ⟨s, g1, g2, g3, g4⟩ := hmem r hr
  rw [heq]
  subst hrid
  have hs := List.mem_of_getElem? g1
  refine ⟨⟨⟨s, g1, (mem_selScores.1 g2).2⟩, ?_⟩, g3, hr⟩
  intro x
  rw [g4]
  constructor
  · intro hx
    obtain ⟨h1, h2⟩ := find_some hx
    exact ⟨mem_allElems.2 ⟨s, hs, (Elements.firstWithScore_sublist _ _).subset h1⟩, h2⟩
  · rintro ⟨hx, hxid⟩
    obtain ⟨t, ht, hxt⟩ := mem_allElems.1 hx
    have hr : InRange s x := by
      rw [inRange_aligned (h.aligned s hs) (h.ok.storable x hx).tie, h.byID x hx, hxid]
      exact (mem_selScores.1 g2).2
    have hts : t = s := tiles_unique h.ok.tiles ht hs (h.ok.inRange t ht x hxt) hr
    subst hts
    have := ((firstWithScore_index h hs (scores := selScores t (ElementIDs.sort ids))
      ((ElementIDs.sort_sorted ids).filter _)).1 ⟨hxt, by rw [hxid]; exact g2⟩).1
    rw [← hxid]
    apply find_eq_some _ this
    have hd := distinct_seg h.ok hs
    unfold DistinctIDs at *
    exact List.Pairwise.sublist ((Elements.firstWithScore_sublist _ _).map _) hd

theorem refresh_spec {now : Nat} {loaded : List Nat} {segs org : List Seg} (h : SegsOK segs)
    (hun : ∀ j, j ∉ loaded → segs[j]? = org[j]?) (hc : Counted org) :
    SegsOK (refresh now loaded segs) ∧ SameRanges (refresh now loaded segs) segs ∧
    tagged (refresh now loaded segs) = tagged segs ∧ Counted (refresh now loaded segs) := by
  have hel : ∀ (l : List Seg) (k : Nat), tagged (mapFrom (fun i s =>
      if loaded.contains i then Segment.replace now s s.elems else s) k l) = tagged l := by
    intro l
    induction l with
    | nil => intro k; rfl
    | cons s ss ih =>
      intro k
      unfold mapFrom
      rw [tagged_cons, tagged_cons, ih]
      split <;> rfl
  have htag : tagged (refresh now loaded segs) = tagged segs := hel segs 0
  have hall : allElems (refresh now loaded segs) = allElems segs := by rw [← tagged_fst, htag, tagged_fst]
  have hsame : SameRanges (refresh now loaded segs) segs := by
    apply mapFrom_same
    intro i s
    split
    · exact ⟨rfl, rfl, rfl, rfl, rfl⟩
    · exact SameRange.refl s
  have hmem : ∀ s ∈ refresh now loaded segs, ∃ t ∈ segs, SameRange s t ∧ s.elems = t.elems := by
    intro s hs
    obtain ⟨j, hj⟩ := List.mem_iff_getElem?.1 hs
    unfold refresh at hj
    rw [mapFrom_getElem?, Nat.zero_add] at hj
    cases ht : segs[j]? with
    | none => simp [ht] at hj
    | some t =>
      simp only [ht, Option.map_some, Option.some.injEq] at hj
      refine ⟨t, List.mem_of_getElem? ht, ?_⟩
      rw [← hj]
      split
      · exact ⟨⟨rfl, rfl, rfl, rfl, rfl⟩, rfl⟩
      · exact ⟨SameRange.refl t, rfl⟩
  refine ⟨segsOK_of_same h hsame ?_ ?_ (by rw [hall]; exact h.distinct) (by rw [hall]; exact h.storable), hsame, htag, ?_⟩
  · intro s hs e he
    obtain ⟨t, ht, h1, h2⟩ := hmem s hs
    rw [h2] at he
    exact (h1.inRange e).2 (h.inRange t ht e he)
  · intro s hs
    obtain ⟨t, ht, h1, h2⟩ := hmem s hs
    rw [h2]; exact h.ranked t ht
  · intro s hs
    obtain ⟨j, hj⟩ := List.mem_iff_getElem?.1 hs
    unfold refresh at hj
    rw [mapFrom_getElem?, Nat.zero_add] at hj
    cases ht : segs[j]? with
    | none => simp [ht] at hj
    | some t =>
      simp only [ht, Option.map_some, Option.some.injEq] at hj
      rw [← hj]
      split
      · rfl
      · rename_i hl
        have hl' : j ∉ loaded := by simpa using hl
        have := hun j hl'
        rw [ht] at this
        exact hc t (List.mem_of_getElem? this.symm)

theorem refresh_unloaded {now : Nat} {loaded : List Nat} {segs : List Seg} {j : Nat} (hj : j ∉ loaded) :
    (refresh now loaded segs)[j]? = segs[j]? := by
  unfold refresh
  rw [mapFrom_getElem?, Nat.zero_add]
  have : loaded.contains j = false := by simpa using hj
  cases segs[j]? with
  | none => rfl
  | some s => simp [hj]

theorem filterMap_flatMap_zip {l : List Element} (segs : List Seg) (k : Nat) :
    ((((segs.zipIdx k).filterMap fun p =>
      if sel p.1 l = [] then none else some (p.2, sel p.1 l)).flatMap fun d => d.2.map fun e => (d.1, e)).map
        (·.2)) = segs.flatMap (sel · l) := by
  rw [filterMap_flatMap_eq, List.map_flatMap, ← zipIdx_flatMap _ segs k]
  apply flatMap_congr'
  rintro ⟨s, i⟩ _
  split
  · rename_i h
    simp only [] at h
    simp [h]
  · simp [Function.comp_def]

/-- `UpdateElements` with distinct IDs. -/
theorem updateElements_full {now : Nat} {sch : Sched} {st : ListState} {es : List Element} (h : ListOK st)
    (hes : ∀ e ∈ es, Storable e) (hd : DistinctIDs es) (hnow : now < 2 ^ 32 - 1) :
    ListOK (updateElements now sch st es) ∧
    (updateElements now sch st es).content.Perm (upsert st.content (es.map (stamp now))) ∧
    (updateElements now sch st es).mergeSize = st.mergeSize ∧
    (updateElements now sch st es).splitSize = st.splitSize ∧
    SameRanges (updateElements now sch st es).scores.segs st.scores.segs ∧
    SameRanges (updateElements now sch st es).index.segs st.index.segs ∧
    (updateElements now sch st es).scores.nextID = st.scores.nextID ∧
    (updateElements now sch st es).index.nextID = st.index.nextID ∧
    (∀ j, j ∉ loadedScores st es → (updateElements now sch st es).scores.segs[j]? = st.scores.segs[j]?) ∧
    (∀ j, j ∉ loadedIndex st es → (updateElements now sch st es).index.segs[j]? = st.index.segs[j]?) := by
  have hp := sortSlice_perm es
  have hst : ∀ e ∈ Elements.sortSlice es, Storable e := fun e he => hes e (hp.mem_iff.1 he)
  have hf : Falling (Elements.sortSlice es) := falling_of_ranked (sortSlice_ranked es) fun e he => (hst e he).tie
  have hids : ∀ v, v ∈ ElementIDs.sort (Elements.ids (Elements.sortSlice es)) ↔ ∃ e ∈ es, e.id = v := by
    intro v
    rw [(ElementIDs.sort_perm _).mem_iff]
    unfold Elements.ids
    rw [(hp.map _).mem_iff]
    exact List.mem_map
  generalize hidsE : ElementIDs.sort (Elements.ids (Elements.sortSlice es)) = ids at hids
  have hid64 : ∀ v ∈ ids, v < 2 ^ 64 := by
    intro v hv
    obtain ⟨e, he, rfl⟩ := (hids v).1 hv
    exact (hes e he).id
  have hdst := splitElementsIdx_eq (k := 0) h.scores.ties hst hf
  generalize hdE : splitElementsIdx 0 st.scores.segs (Elements.sortSlice es) = dst at hdst
  let pairs := (sch.order dst).flatMap fun d => d.2.map fun e => (d.1, e)
  have hpairs : pairs.Perm (dst.flatMap fun d => d.2.map fun e => (d.1, e)) := by
    exact (sch.perm dst).flatMap_right _
  have hpe : (pairs.map (·.2)).Perm es := by
    refine (hpairs.map _).trans ?_
    rw [hdst, filterMap_flatMap_zip, sel_flatMap h.scores.tiles hf fun e he => epos_le_top (hst e he)]
    exact hp
  have hpid : (pairs.map (·.2.id)).Perm (es.map (·.id)) := by
    have := hpe.map (·.id)
    rw [List.map_map] at this
    exact this
  have hpm : ∀ p ∈ pairs, p.2 ∈ es ∧ p.1 ∈ dst.map (·.1) ∧ ∃ d, st.scores.segs[p.1]? = some d ∧ InRange d p.2 := by
    intro p hpp
    have hpp' := hpairs.mem_iff.1 hpp
    obtain ⟨d, hd1, hd2⟩ := List.mem_flatMap.1 hpp'
    obtain ⟨e, he, rfl⟩ := List.mem_map.1 hd2
    have hd1' := hd1
    rw [hdst] at hd1
    obtain ⟨⟨s, i⟩, hsi, heq⟩ := List.mem_filterMap.1 hd1
    split at heq
    · simp at heq
    · simp only [Option.some.injEq] at heq
      subst heq
      simp only [] at he
      obtain ⟨m1, m2⟩ := mem_sel.1 he
      exact ⟨hp.mem_iff.1 m1, List.mem_map.2 ⟨_, hd1', rfl⟩, s, (elemsAt_zipIdx hsi).1, m2⟩
  have hmid : Mid st.scores.segs st.index.segs := ⟨h.scores, h.index, h.link, fun s hs => h.segID_lt hs⟩
  have hloc : ∀ p ∈ pairs, Loc st.index.segs p.2.id (located (locate st.index.segs ids) p.2.id).1
      (located (locate st.index.segs ids) p.2.id).2 ∧
      (located (locate st.index.segs ids) p.2.id).1 ∈ (splitScores st.index.segs ids).map (·.1) ∧
      (p.2.id, located (locate st.index.segs ids) p.2.id) ∈ locate st.index.segs ids := fun p hpp =>
    locate_spec h.isIndex hid64 ((hids _).2 ⟨p.2, (hpm p hpp).1, rfl⟩)
  let LS := dst.map (·.1) ++ (locate st.index.segs ids).filterMap fun l =>
    l.2.2.map fun ex => segIndex ex.tie st.scores.segs 0 0
  let LI := (splitScores st.index.segs ids).map (·.1)
  obtain ⟨r1, r2, r3, r4, r5, r6⟩ := updateFold_spec (now := now) (org := st.scores.segs)
    (loc := locate st.index.segs ids) (LS := LS) (LI := LI) hnow (pairs := pairs) hmid (SameRanges.refl _)
    (fun p hpp => ⟨hes _ (hpm p hpp).1, (hpm p hpp).2.2⟩) (hpid.nodup_iff.2 hd) (fun p hpp => (hloc p hpp).1)
    (by
      intro p hpp
      refine ⟨List.mem_append_left _ (hpm p hpp).2.1, ?_, (hloc p hpp).2.1⟩
      intro x hx
      refine List.mem_append_right _ (List.mem_filterMap.2 ⟨_, (hloc p hpp).2.2, ?_⟩)
      simp [hx])
  have hUE : ∃ R : List Seg × List Seg,
      R = pairs.foldl (fun s p => updateOne now st.scores.segs (locate st.index.segs ids) p.1 s p.2)
        (st.scores.segs, st.index.segs) ∧
      updateElements now sch st es =
      { st with
        scores := { st.scores with segs := refresh now LS R.1 }
        index := { st.index with segs := refresh now LI R.2 } } := by
    refine ⟨_, rfl, ?_⟩
    unfold updateElements loadedScores loadedIndex updateIDs
    simp only [hidsE, hdE, updateAll_eq]
    rfl
  obtain ⟨R, hR, hUE⟩ := hUE
  rw [hUE]
  simp only [← hR] at r1 r2 r3 r4 r5 r6
  obtain ⟨f1, f2, f3, f4⟩ := refresh_spec (now := now) (loaded := LS) r1.scores r5 h.scoresCount
  obtain ⟨g1, g2, g3, g4⟩ := refresh_spec (now := now) (loaded := LI) r1.index r6 h.indexCount
  have hcontent : allElems (refresh now LS R.1) = allElems R.1 := by rw [← tagged_fst, f3, tagged_fst]
  have hicontent : allElems (refresh now LI R.2) = allElems R.2 := by rw [← tagged_fst, g3, tagged_fst]
  refine ⟨⟨f1, g1, f4, g4, idsBelow_of_same (f2.trans r2) h.scoresIDs, idsBelow_of_same (g2.trans r3) h.indexIDs,
    ⟨?_, ?_, aligned_of_same (g2.trans r3) h.link.aligned⟩, h.flags⟩, ?_, rfl, rfl, f2.trans r2, g2.trans r3, rfl, rfl, ?_, ?_⟩
  · simp only []
    unfold indexed
    rw [hicontent, tagged_placement, f3, ← tagged_placement]
    exact r1.link.complete
  · simp only [hicontent]; exact r1.link.byID
  · unfold ListState.content
    simp only [hcontent]
    refine r4.trans ?_
    unfold upsert
    refine List.Perm.append ?_ (.of_eq ?_)
    · have := hpe.map (stamp now)
      rw [List.map_map] at this
      refine List.Perm.trans (.of_eq ?_) this
      apply List.map_congr_left
      intro p _
      exact touch_eq_stamp now p.2
    · apply List.filter_congr
      intro a _
      congr 1
      rw [Bool.eq_iff_iff, List.contains_iff_mem, List.contains_iff_mem, hpid.mem_iff]
      have : (es.map (stamp now)).map (·.id) = es.map (·.id) := by
        rw [List.map_map]
        apply List.map_congr_left
        intro e _
        show (stamp now e).id = e.id
        rw [← touch_eq_stamp, Elements.touch_id]
      rw [this]
  · have hLS : loadedScores st es = LS := by unfold loadedScores updateIDs; rw [hidsE, hdE]
    rw [hLS]
    intro j hj
    rw [← r5 j hj]
    exact refresh_unloaded hj
  · have hLI : loadedIndex st es = LI := by unfold loadedIndex updateIDs; rw [hidsE]
    rw [hLI]
    intro j hj
    rw [← r6 j hj]
    exact refresh_unloaded hj

theorem updateElements_spec {now : Nat} {sch : Sched} {st : ListState} {es : List Element} (h : ListOK st)
    (hes : ∀ e ∈ es, Storable e) (hd : DistinctIDs es) (hnow : now < 2 ^ 32 - 1) :
    ListOK (updateElements now sch st es) ∧
    (updateElements now sch st es).content.Perm (upsert st.content (es.map (stamp now))) ∧
    (updateElements now sch st es).mergeSize = st.mergeSize ∧
    (updateElements now sch st es).splitSize = st.splitSize := by
  obtain ⟨a, b, c, d, -⟩ := updateElements_full (sch := sch) h hes hd hnow
  exact ⟨a, b, c, d⟩

end Lists
end RankDB

import Verif.Spec.Repeat
import Verif.Proofs.Faults
import Verif.Proofs.Cost
/-
Proofs about repeated requests.
-/
namespace RankDB.Faults
open Segments Spec Lists Disk

theorem settle_ids {u v : Nat → Bool} {old new : List Seg} (h : new.map (·.id) = old.map (·.id)) :
    (settle u v old new).map (·.id) = old.map (·.id) := by
  rw [← h]
  apply List.ext_getElem?
  intro i
  unfold settle
  rw [List.getElem?_map, List.getElem?_map, mapFrom_getElem?, Nat.zero_add]
  cases hn : new[i]? with
  | none => rfl
  | some n =>
    have hi : (old.map (·.id))[i]? = some n.id := by rw [← h, List.getElem?_map, hn]; rfl
    rw [List.getElem?_map] at hi
    simp only [Option.map_some, Option.some.injEq]
    cases ho : old[i]? with
    | none => rw [ho] at hi; cases hi
    | some o =>
      rw [ho] at hi
      simp only [Option.map_some, Option.some.injEq] at hi
      simp only [Option.getD_some]
      split
      · exact hi
      · split <;> rfl

theorem deleteIdx_segIDs (now : Nat) (sch : Sched) (segs : List Seg) (idx : List Element) :
    (deleteElementsIdx now sch segs idx).1.map (·.id) = segs.map (·.id) := by
  unfold deleteElementsIdx
  apply List.ext_getElem?
  intro i
  simp only []
  rw [List.getElem?_map, List.getElem?_map, mapFrom_getElem?]
  cases segs[i]? with
  | none => rfl
  | some n =>
    simp only [Option.map_some, Option.some.injEq]
    unfold deleteIdxAt
    simp only []
    split <;> rfl

theorem deleteLoop_subset (now : Nat) : ∀ (segs : List Seg) (inp : List Element),
    ∀ x ∈ allElems (Segments.deleteElements now segs inp), x ∈ allElems segs
  | [], _ => fun _ hx => hx
  | s :: ss, inp => by
    intro x hx
    unfold Segments.deleteElements at hx
    simp only [] at hx
    split at hx
    · simp only [allElems, List.flatMap_cons, List.mem_append] at hx ⊢
      exact hx.imp_right (deleteLoop_subset now ss inp x)
    · simp only [allElems, List.flatMap_cons, List.mem_append] at hx ⊢
      refine hx.imp (fun h => ?_) (deleteLoop_subset now ss _ x)
      exact (List.mem_filter.1 h).1

theorem getIndexElements_mem {sch : Sched} {st : ListState} {ids : List Nat} {x : Element}
    (h : x ∈ getIndexElements sch st ids) : x ∈ allElems st.index.segs ∧ x.score ∈ ids := by
  unfold getIndexElements at h
  obtain ⟨h1, h2⟩ := List.mem_filter.1 h
  refine ⟨?_, mem_uniq.1 (List.contains_iff_mem.1 h2)⟩
  unfold getFirstWithScore at h1
  obtain ⟨l, hl, hx⟩ := List.mem_flatten.1 h1
  obtain ⟨m, -, rfl⟩ := List.mem_map.1 ((sch.perm _).mem_iff.1 hl)
  exact Cost.elemsAt_all ((Elements.firstWithScore_sublist _ _).subset hx)

/-- What attempts to delete leave of a list: the segments have their IDs, lost only named elements, the index has no
foreign entries, and it is untouched while there are named elements. -/
structure Left (st : ListState) (ids : List Nat) (st1 : ListState) : Prop where
  segIDs : st1.scores.segs.map (·.id) = st.scores.segs.map (·.id)
  kept : Each (fun a b => b.elems.filter (fun e => decide (e.id ∉ ids)) = a.elems.filter fun e => decide (e.id ∉ ids))
    st.scores.segs st1.scores.segs
  sub : Each (fun a b => ∀ x ∈ b.elems, x ∈ a.elems) st.scores.segs st1.scores.segs
  entries : ∀ x ∈ allElems st1.index.segs, x ∈ allElems st.index.segs
  index : (∀ x ∈ st1.content, x.id ∉ ids) ∨ st1.index = st.index

theorem Left.refl (st : ListState) (ids : List Nat) : Left st ids st :=
  ⟨rfl, Each.refl (R := fun a b => b.elems.filter (fun e => decide (e.id ∉ ids)) =
    a.elems.filter fun e => decide (e.id ∉ ids)) (fun _ => rfl) _, Each.refl (fun _ _ h => h) _, fun _ h => h, .inr rfl⟩

theorem each_superset {old new : List Seg} (h : Each (fun a b => ∀ x ∈ b.elems, x ∈ a.elems) old new) :
    ∀ x ∈ allElems new, x ∈ allElems old := by
  intro x hx
  obtain ⟨s, hs, hxs⟩ := mem_allElems.1 hx
  obtain ⟨i, hi⟩ := List.mem_iff_getElem?.1 hs
  have hlt : i < old.length := by
    have := (List.getElem?_eq_some_iff.1 hi).1
    have := h.1
    omega
  exact mem_allElems.2 ⟨old[i], List.getElem_mem hlt, h.2 i _ s (List.getElem?_eq_getElem hlt) hi x hxs⟩

/-- If the index is that of a well-formed list, the deletion of all elements that it finds removes all named ones. -/
theorem left_clear {st st1 : ListState} {ids : List Nat} (h : ListOK st) (hid : ∀ v ∈ ids, v < 2 ^ 64) (hl : Left st ids st1)
    (now : Nat) (sch : Sched) :
    ∀ x ∈ allElems (deleteElementsIdx now sch st1.scores.segs (getIndexElements sch st1 ids)).1, x.id ∉ ids := by
  intro x hx hin
  have hsub := deleteIdx_each (R := fun a b => ∀ x ∈ b, x ∈ a) (fun _ _ h => h) now sch st1.scores.segs
    (getIndexElements sch st1 ids) (fun i l x hx => (List.mem_filter.1 hx).1)
  rcases hl.index with hc | hc
  · exact hc x (each_superset hsub x hx) hin
  · obtain ⟨s, hs, hxs⟩ := mem_allElems.1 hx
    obtain ⟨i, hi⟩ := List.mem_iff_getElem?.1 hs
    have hlt1 : i < st1.scores.segs.length := by
      have := (List.getElem?_eq_some_iff.1 hi).1
      have := hsub.1
      omega
    have hlt : i < st.scores.segs.length := by
      have := hl.sub.1
      omega
    have h1 := List.getElem?_eq_getElem hlt1
    have h0 := List.getElem?_eq_getElem hlt
    generalize st1.scores.segs[i] = s1 at h1
    generalize st.scores.segs[i] = s0 at h0
    have hx1 : x ∈ s1.elems := hsub.2 i s1 s h1 hi x hxs
    have hx0 : x ∈ s0.elems := hl.sub.2 i s0 s1 h0 h1 x hx1
    have hid1 : s1.id = s0.id := by
      have := congrArg (fun l => l[i]?) hl.segIDs
      simp only [List.getElem?_map, h1, h0, Option.map_some, Option.some.injEq] at this
      exact this
    obtain ⟨ex, hex, hexe⟩ := List.mem_map.1 (h.link.complete.mem_iff.2
      (List.mem_flatMap.2 ⟨s0, List.mem_of_getElem? h0, List.mem_map.2 ⟨x, hx0, rfl⟩⟩))
    simp only [Prod.mk.injEq] at hexe
    have hidx : IsIndex st1.index.segs := by rw [hc]; exact h.isIndex
    have hE : ex ∈ getIndexElements sch st1 ids := by
      refine (getIndexElements_spec hidx hid).mem_iff.2 (List.mem_filter.2 ⟨by rw [hc]; exact hex, ?_⟩)
      rw [List.contains_iff_mem, hexe.1]
      exact hin
    have hnd : (st1.scores.segs.map (·.id)).Nodup := by rw [hl.segIDs]; exact h.scores.segIDs
    have hat : segIndex ex.tie st1.scores.segs 0 0 = i := by
      refine (segIndex_eq_iff hnd ?_ h1).2 ?_
      · rw [hexe.2, ← hid1]
        exact List.mem_map.2 ⟨s1, List.mem_of_getElem? h1, rfl⟩
      · rw [hexe.2, hid1]
    have hm : x.id ∈ idsAt st1.scores.segs (getIndexElements sch st1 ids) i := by
      unfold idsAt
      refine List.mem_map.2 ⟨ex, List.mem_filter.2 ⟨hE, ?_⟩, hexe.1⟩
      simpa using hat
    unfold deleteElementsIdx at hi
    simp only [] at hi
    rw [mapFrom_getElem?, h1, Nat.zero_add] at hi
    simp only [Option.map_some, Option.some.injEq] at hi
    subst hi
    unfold deleteIdxAt at hxs
    simp only [] at hxs
    split at hxs
    · rename_i he
      have : idsAt st1.scores.segs (getIndexElements sch st1 ids) i = [] := by simpa using he
      rw [this] at hm
      cases hm
    · have := (List.mem_filter.1 hxs).2
      rw [List.contains_iff_mem.2 hm] at this
      cases this

theorem left_idsAt {st st1 : ListState} {ids : List Nat} (h : ListOK st) (hl : Left st ids st1) {sch : Sched} {i id : Nat}
    (hm : id ∈ idsAt st1.scores.segs (getIndexElements sch st1 ids) i) : id ∈ ids := by
  unfold idsAt at hm
  obtain ⟨e, he, rfl⟩ := List.mem_map.1 hm
  obtain ⟨h1, h2⟩ := getIndexElements_mem (List.mem_filter.1 he).1
  rw [← h.link.byID e (hl.entries e h1)]
  exact h2

/-- Another attempt keeps this. -/
theorem left_delete {st st1 : ListState} {ids : List Nat} (h : ListOK st) (hid : ∀ v ∈ ids, v < 2 ^ 64) (hl : Left st ids st1)
    (f : Faults) (now : Nat) (sch : Sched) :
    Left st ids (delete f now sch st1 ids).2 ∧
    ((delete f now sch st1 ids).1 = true → ∀ x ∈ (delete f now sch st1 ids).2.content, x.id ∉ ids) := by
  have hkept := deleteIdx_each (R := fun a b => b.filter (fun e => decide (e.id ∉ ids)) =
      a.filter fun e => decide (e.id ∉ ids)) (fun _ => rfl) now sch st1.scores.segs (getIndexElements sch st1 ids) (by
    intro i l
    rw [List.filter_filter]
    apply List.filter_congr
    intro x _
    rw [Bool.eq_iff_iff]
    simp only [Bool.and_eq_true, decide_eq_true_eq, Bool.not_eq_true', List.contains_eq_mem, decide_eq_false_iff_not]
    exact ⟨fun h => h.1, fun hx => ⟨hx, fun hm => hx (left_idsAt h hl hm)⟩⟩)
  have hsub := deleteIdx_each (R := fun a b => ∀ x ∈ b, x ∈ a) (fun _ _ h => h) now sch st1.scores.segs
    (getIndexElements sch st1 ids) (fun i l x hx => (List.mem_filter.1 hx).1)
  have hclear := left_clear h hid hl now sch
  have hids := deleteIdx_segIDs now sch st1.scores.segs (getIndexElements sch st1 ids)
  have hu := deleteIdx_untouched now sch st1.scores.segs (getIndexElements sch st1 ids)
  unfold delete
  simp only []
  split
  · exact ⟨hl, nofun⟩
  · generalize hr : deleteElementsIdx now sch st1.scores.segs (getIndexElements sch st1 ids) = r at *
    have hk' := Each.trans (fun a b c h1 h2 => h2.trans h1) hl.kept
      (each_settle (R := fun a b => b.filter (fun e => decide (e.id ∉ ids)) = a.filter fun e => decide (e.id ∉ ids))
        (fun _ => rfl) hkept (fun i => f.readScores i 0) f.saveScores)
    have hs' := Each.trans (fun a b c h1 h2 x hx => h1 x (h2 x hx)) hl.sub
      (each_settle (R := fun a b => ∀ x ∈ b, x ∈ a) (fun _ _ h => h) hsub (fun i => f.readScores i 0) f.saveScores)
    have hi' := (settle_ids (u := fun i => f.readScores i 0) (v := f.saveScores) hids).trans hl.segIDs
    split
    · refine ⟨⟨hi', hk', hs', hl.entries, ?_⟩, nofun⟩
      refine hl.index.imp_left fun hc x hx => hc x ?_
      exact each_superset (each_settle (R := fun a b => ∀ x ∈ b, x ∈ a) (fun _ _ h => h) hsub _ _) x hx
    · rename_i h1
      simp only [Bool.or_eq_true, List.any_eq_true, not_or, not_exists, not_and, Bool.not_eq_true] at h1
      have hset := settle_eq (u := fun i => f.readScores i 0) (v := f.saveScores)
        (touched := touchedIdx st1.scores.segs (getIndexElements sch st1 ids)) (fun i hi => by simpa using h1.1 i hi) hu
      rw [hset] at hk' hs' hi' ⊢
      split
      · exact ⟨⟨hi', hk', hs', hl.entries, .inl hclear⟩, fun _ => hclear⟩
      · have he' : ∀ x ∈ allElems (settle (fun i => f.readIndex i 1) f.saveIndex st1.index.segs
            (Segments.deleteElements now st1.index.segs r.2)), x ∈ allElems st.index.segs :=
          settle_all hl.entries fun x hx => hl.entries x (deleteLoop_subset now _ _ x hx)
        split
        · exact ⟨⟨hi', hk', hs', he', .inl hclear⟩, nofun⟩
        · exact ⟨⟨hi', hk', hs', he', .inl hclear⟩, fun _ => hclear⟩

theorem left_tries {st : ListState} {ids : List Nat} (h : ListOK st) (hid : ∀ v ∈ ids, v < 2 ^ 64) :
    ∀ (tries : List Attempt) {st1 : ListState}, Left st ids st1 → Left st ids (deleteTries ids tries st1)
  | [], _, hl => hl
  | t :: ts, st1, hl => left_tries h hid ts (st1 := (delete t.faults t.now t.sch st1 ids).2) (left_delete h hid hl _ _ _).1

/-! ### Lists with entries of the index without an element -/

theorem forall₂_of_each {R : Seg → Seg → Prop} : ∀ {old new : List Seg}, Each R old new → Forall₂ (fun b a => R a b) new old
  | [], [], _ => .nil
  | [], _ :: _, h => by have := h.1; simp at this
  | _ :: _, [], h => by have := h.1; simp at this
  | a :: old, b :: new, h => .cons (h.2 0 a b rfl rfl)
      (forall₂_of_each ⟨by have := h.1; simpa using this, fun i x y hx hy => h.2 (i + 1) x y (by simpa using hx) (by simpa using hy)⟩)

theorem allElems_sublist : ∀ {old new : List Seg}, Forall₂ (fun b a => b.elems.Sublist a.elems) new old →
    (allElems new).Sublist (allElems old)
  | _, _, .nil => .refl _
  | _, _, .cons h t => by
    unfold allElems
    rw [List.flatMap_cons, List.flatMap_cons]
    exact h.append (allElems_sublist t)

theorem sameRanges_get {l l' : List Seg} (hl : SameRanges l l') : ∀ {i : Nat} {x y : Seg}, l[i]? = some x →
    l'[i]? = some y → SameRange x y := by
  induction hl with
  | nil => intro i x y hx; simp at hx
  | cons h1 _ ih =>
    intro i x y hx hy
    cases i with
    | zero => simp only [List.getElem?_cons_zero, Option.some.injEq] at hx hy; subst hx hy; exact h1
    | succ i => exact ih (by simpa using hx) (by simpa using hy)

/-- Segments with the same ranges and fewer elements are in order. -/
theorem segsOK_sublist {old new : List Seg} (h : SegsOK old) (hs : SameRanges new old)
    (he : Each (fun a b => b.elems.Sublist a.elems) old new) : SegsOK new := by
  have hsub := allElems_sublist (forall₂_of_each he)
  have hmem : ∀ s ∈ new, ∃ t ∈ old, SameRange s t ∧ s.elems.Sublist t.elems := by
    intro s hm
    obtain ⟨i, hi⟩ := List.mem_iff_getElem?.1 hm
    have hlt : i < old.length := by
      have := (List.getElem?_eq_some_iff.1 hi).1
      have := he.1
      omega
    have ho := List.getElem?_eq_getElem hlt
    have hsame : SameRange s old[i] := by
      exact sameRanges_get hs hi ho
    exact ⟨old[i], List.getElem_mem hlt, hsame, he.2 i _ s ho hi⟩
  refine segsOK_of_same h hs ?_ ?_ ?_ ?_
  · intro s hm e hx
    obtain ⟨t, ht, h1, h2⟩ := hmem s hm
    exact (h1.inRange e).2 (h.inRange t ht e (h2.subset hx))
  · intro s hm
    obtain ⟨t, ht, -, h2⟩ := hmem s hm
    exact List.Pairwise.sublist h2 (h.ranked t ht)
  · exact List.Pairwise.sublist (hsub.map _) h.distinct
  · exact fun e hx => h.storable e (hsub.subset hx)

theorem refresh_same (now : Nat) (loaded : List Nat) (segs : List Seg) : SameRanges (refresh now loaded segs) segs := by
  unfold refresh
  apply mapFrom_same
  intro i s
  split
  · exact ⟨rfl, rfl, rfl, rfl, rfl⟩
  · exact SameRange.refl s

theorem refresh_ok {now : Nat} {loaded : List Nat} {segs : List Seg} (h : SegsOK segs) : SegsOK (refresh now loaded segs) :=
  segsOK_sublist h (refresh_same now loaded segs)
    (refresh_each (R := fun a b => b.Sublist a) (fun _ => .refl _) now loaded segs)

theorem refresh_aligned {now : Nat} {loaded : List Nat} {segs : List Seg} (h : IsIndex segs) : IsIndex (refresh now loaded segs) := by
  refine ⟨refresh_ok h.ok, ?_, ?_⟩
  · rw [refresh_content]; exact h.byID
  · intro s hs
    obtain ⟨t, ht, h1⟩ := forall₂_mem (refresh_same now loaded segs) s hs
    obtain ⟨-, -, -, h4, h5⟩ := h1
    rw [h4, h5]
    exact h.aligned t ht

/-- The element is in no segment, but its entry in the index names the segment in which it belongs. -/
structure Blocked (st : ListState) (e : Element) (p : Nat) : Prop where
  scores : SegsOK st.scores.segs
  index : IsIndex st.index.segs
  entry : ∃ ex g, ex ∈ allElems st.index.segs ∧ ex.id = e.id ∧ st.scores.segs[p]? = some g ∧ InRange g e ∧
    g.id < 2 ^ 32 ∧ ex.tie = g.id
  missing : ∀ y ∈ st.content, y.id ≠ e.id

theorem blocked_update {st : ListState} {e : Element} {p : Nat} (h : Blocked st e p) (he : Storable e) (now : Nat) (sch : Sched) :
    Blocked (Lists.updateElements now sch st [e]) e p ∧ (Lists.updateElements now sch st [e]).content = st.content := by
  obtain ⟨ex, g, h1, h2, h3, h4, h5, h6⟩ := h.entry
  obtain ⟨hs, hi⟩ := update_blocked_segs (now := now) (sch := sch) h.scores h.index he h1 h2 h3 h4 h5 h6 h.missing
  have hc := update_blocked (now := now) (sch := sch) h.scores h.index he h1 h2 h3 h4 h5 h6 h.missing
  refine ⟨⟨by rw [hs]; exact refresh_ok h.scores, by rw [hi]; exact refresh_aligned h.index, ?_, by rw [hc]; exact h.missing⟩, hc⟩
  refine ⟨ex, (refresh now (loadedScores st [e]) st.scores.segs)[p]?.getD g, by rw [hi, refresh_content]; exact h1, h2, ?_⟩
  rw [hs]
  unfold refresh
  rw [mapFrom_getElem?, h3, Nat.zero_add]
  simp only [Option.map_some, Option.getD_some, true_and]
  split
  · exact ⟨h4, h5, h6⟩
  · exact ⟨h4, h5, h6⟩

/-- Repeating the update never changes that. -/
theorem blocked_tries {e : Element} {p : Nat} (he : Storable e) : ∀ (tries : List Attempt) {st : ListState},
    Blocked st e p → (∀ t ∈ tries, t.Stores) →
    Blocked (updateTries [e] tries st) e p ∧ (updateTries [e] tries st).content = st.content
  | [], _, h, _ => ⟨h, rfl⟩
  | t :: ts, st, h, ht => by
    obtain ⟨h1, h2, h3⟩ := ht t List.mem_cons_self
    have key : Blocked (update t.faults t.now t.sch st [e]).2 e p ∧ (update t.faults t.now t.sch st [e]).2.content = st.content := by
      rcases update_either h1 h2 h3 t.now t.sch st [e] with hu | hu
      · rw [hu]; exact ⟨h, rfl⟩
      · rw [hu]; exact blocked_update h he _ _
    obtain ⟨a, b⟩ := blocked_tries he ts key.1 fun t ht' => ht t (List.mem_cons_of_mem _ ht')
    exact ⟨a, b.trans key.2⟩

theorem eq_of_id : ∀ {l : List Element}, DistinctIDs l → ∀ {a b : Element}, a ∈ l → b ∈ l → a.id = b.id → a = b
  | [], _, _, _, ha, _, _ => by cases ha
  | x :: l, hd, a, b, ha, hb, h => by
    unfold DistinctIDs at hd
    rw [List.map_cons, List.nodup_cons] at hd
    rcases List.mem_cons.1 ha with rfl | ha <;> rcases List.mem_cons.1 hb with rfl | hb
    · rfl
    · exact absurd (h ▸ List.mem_map_of_mem (f := (·.id)) hb) hd.1
    · exact absurd (h ▸ List.mem_map_of_mem (f := (·.id)) (by assumption : a ∈ l)) hd.1
    · exact eq_of_id hd.2 ha hb h

/-- An update of one element whose new segment cannot be saved. -/
theorem blocked_unsaved {st : ListState} (h : ListOK st) {e x : Element} (he : Storable e) {now : Nat} (hnow : now < 2 ^ 32 - 1)
    (sch : Sched) {p : Nat} {g : Seg} (hx : x ∈ st.content) (hid : x.id = e.id) (hg : st.scores.segs[p]? = some g)
    (hr : InRange g e) (hmove : ¬ InRange g x) :
    Blocked (update { noFaults with saveScores := fun i => i == p } now sch st [e]).2 e p := by
  have hst : ∀ y ∈ [e], Storable y := fun y hy => by cases List.mem_singleton.1 hy; exact he
  obtain ⟨hok, hperm, -, -, hsr, hir, -⟩ := updateElements_full (now := now) (sch := sch) h hst (by simp [DistinctIDs]) hnow
  have hu : (update { noFaults with saveScores := fun i => i == p } now sch st [e]).2 =
      { Lists.updateElements now sch st [e] with
        scores := { st.scores with
          segs := settle (fun _ => false) (fun i => i == p) st.scores.segs (Lists.updateElements now sch st [e]).scores.segs }
        index := { st.index with segs := (Lists.updateElements now sch st [e]).index.segs } } := by
    rcases update_settled (f := { noFaults with saveScores := fun i => i == p }) (fun _ _ => rfl) now sch st [e] with hc | hc
    · unfold update at hc
      rw [if_neg (by simp [noFaults])] at hc
      simp only [noFaults, Prod.mk.injEq] at hc
      exact absurd hc.1 (by decide)
    · rw [hc]
      simp only [noFaults, settle_none]
  -- the other elements of the segments do not change
  have hfilter : Each (fun a b => b.elems.filter (fun y => decide (y.id ≠ e.id)) = a.elems.filter fun y => decide (y.id ≠ e.id))
      st.scores.segs (Lists.updateElements now sch st [e]).scores.segs := by
    have := update_each (R := fun a b => b.filter (fun y => decide (y.id ≠ e.id)) = a.filter fun y => decide (y.id ≠ e.id))
      (fun _ => rfl) (fun a b c h1 h2 => h2.trans h1) noFaults now sch st [e] (by
        intro y hy
        cases List.mem_singleton.1 hy
        have hP : ∀ z : Element, z.id = e.id → decide (z.id ≠ e.id) = false := fun z hz => by simp [hz]
        exact ⟨fun l => (addTo_cases now e l).1 _ hP, fun l => (updateIn_cases now e l).1 _ hP,
          fun l => (deleteIn_cases e.id l).1 _ hP⟩)
    rcases update_either (f := noFaults) (fun _ _ => rfl) (fun _ => rfl) (fun _ => rfl) now sch st [e] with hc | hc
    · unfold update at hc
      rw [if_neg (by simp [noFaults])] at hc
      simp only [noFaults, Prod.mk.injEq] at hc
      exact absurd hc.1 (by decide)
    · rw [hc] at this; exact this
  generalize hst' : Lists.updateElements now sch st [e] = st' at *
  have hsid : (stamp now e).id = e.id := by unfold stamp; split <;> rfl
  have hspos : ∀ s : Seg, InRange s (stamp now e) ↔ InRange s e := fun s => by unfold stamp; split <;> rfl
  obtain ⟨n, hn⟩ : ∃ n, st'.scores.segs[p]? = some n := by
    have hlt : p < st'.scores.segs.length := by
      have := (List.getElem?_eq_some_iff.1 hg).1
      have := hfilter.1
      omega
    exact ⟨_, List.getElem?_eq_getElem hlt⟩
  have hng := sameRanges_get hsr hn hg
  have hrn : InRange n e := (hng.inRange e).2 hr
  -- the element is not in the segment to which it moves
  have hgno : ∀ y ∈ g.elems, y.id ≠ e.id := by
    intro y hy hyid
    have hym : y ∈ st.content := mem_allElems.2 ⟨g, List.mem_of_getElem? hg, hy⟩
    have := eq_of_id h.scores.distinct hym hx (hyid.trans hid.symm)
    subst this
    exact hmove (h.scores.inRange g (List.mem_of_getElem? hg) y hy)
  -- afterwards it is there and nowhere else
  have hnew : ∀ y ∈ st'.content, y.id = e.id → y = stamp now e := by
    intro y hy hyid
    have := hperm.mem_iff.1 hy
    unfold upsert at this
    simp only [List.map_cons, List.map_nil, List.cons_append, List.nil_append, List.mem_cons, List.mem_filter] at this
    rcases this with h1 | ⟨-, h1⟩
    · exact h1
    · simp [hsid, hyid] at h1
  have hin : stamp now e ∈ st'.content := hperm.mem_iff.2 (by simp [upsert])
  have hat : ∀ {i : Nat} {s : Seg}, st'.scores.segs[i]? = some s → stamp now e ∈ s.elems → i = p ∧ s = n := by
    intro i s hs hm
    have h1 := (hspos s).1 (hok.scores.inRange s (List.mem_of_getElem? hs) _ hm)
    have h2 := tiles_unique hok.scores.tiles (List.mem_of_getElem? hs) (List.mem_of_getElem? hn) h1 hrn
    subst h2
    exact ⟨getElem?_unique hok.scores hs hn rfl, rfl⟩
  have hS : ∀ {i : Nat} {b : Seg}, (settle (fun _ => false) (fun i => i == p) st.scores.segs st'.scores.segs)[i]? = some b →
      (i = p ∧ b = { n with elems := g.elems }) ∨ (i ≠ p ∧ st'.scores.segs[i]? = some b) := by
    intro i b hb
    unfold settle at hb
    rw [mapFrom_getElem?, Nat.zero_add] at hb
    cases hm : st'.scores.segs[i]? with
    | none => rw [hm] at hb; cases hb
    | some m =>
      rw [hm] at hb
      simp only [Option.map_some, Option.some.injEq, Bool.false_eq_true, if_false] at hb
      by_cases hip : i = p
      · subst hip
        rw [hn] at hm
        cases hm
        simp only [beq_self_eq_true, if_true, elemsAt, hg, Option.map_some, Option.getD_some] at hb
        exact .inl ⟨rfl, hb.symm⟩
      · rw [if_neg (by simpa using hip)] at hb
        exact .inr ⟨hip, by rw [hb]⟩
  rw [hu]
  refine ⟨?_, hok.isIndex, ?_, ?_⟩
  · refine segsOK_sublist hok.scores ?_ ⟨settle_length _ _ _ _, fun i a b ha hb => ?_⟩
    · show SameRanges (settle _ _ _ _) _
      unfold settle
      apply mapFrom_same
      intro i s
      simp only [Bool.false_eq_true, if_false]
      split
      · exact ⟨rfl, rfl, rfl, rfl, rfl⟩
      · exact SameRange.refl s
    · rcases hS hb with ⟨rfl, rfl⟩ | ⟨-, hb'⟩
      · rw [hn] at ha
        cases ha
        have h1 := hfilter.2 i g n hg hn
        have h2 : g.elems.filter (fun y => decide (y.id ≠ e.id)) = g.elems :=
          List.filter_eq_self.2 fun y hy => decide_eq_true (hgno y hy)
        simp only [h2] at h1
        show g.elems.Sublist n.elems
        rw [← h1]
        exact List.filter_sublist
      · rw [ha] at hb'
        cases hb'
        exact .refl _
  · obtain ⟨s, hs, hms⟩ := mem_allElems.1 hin
    obtain ⟨i, hi⟩ := List.mem_iff_getElem?.1 hs
    obtain ⟨-, rfl⟩ := hat hi hms
    obtain ⟨ex, hex, hexe⟩ := List.mem_map.1 (hok.link.complete.mem_iff.2
      (List.mem_flatMap.2 ⟨s, hs, List.mem_map.2 ⟨_, hms, rfl⟩⟩))
    simp only [Prod.mk.injEq] at hexe
    refine ⟨ex, { s with elems := g.elems }, hex, hexe.1.trans hsid, ?_, hrn,
      Nat.lt_of_lt_of_le (hok.scoresIDs.1 s hs).2 hok.scoresIDs.2, hexe.2⟩
    show (settle _ _ _ _)[p]? = _
    unfold settle
    rw [mapFrom_getElem?, Nat.zero_add, hn]
    simp [elemsAt, hg]
  · intro y hy hyid
    obtain ⟨b, hb, hyb⟩ := mem_allElems.1 hy
    obtain ⟨i, hi⟩ := List.mem_iff_getElem?.1 hb
    rcases hS hi with ⟨-, rfl⟩ | ⟨hip, hi'⟩
    · exact hgno y hyb hyid
    · have := hnew y (mem_allElems.2 ⟨b, List.mem_of_getElem? hi', hyb⟩) hyid
      subst this
      exact hip (hat hi' hyb).1

end RankDB.Faults

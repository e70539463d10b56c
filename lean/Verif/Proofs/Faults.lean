import Verif.Model.Faults
import Verif.Proofs.Disk
/-
Proofs about changes of lists when the storage fails.
-/
namespace RankDB.Faults
open Segments Spec Lists Disk

/-! ### Sequences of segments, position by position -/

/-- The segments at the same positions are related. -/
def Each (R : Seg → Seg → Prop) (old new : List Seg) : Prop :=
  new.length = old.length ∧ ∀ (i : Nat) (a b : Seg), old[i]? = some a → new[i]? = some b → R a b

theorem Each.refl {R : Seg → Seg → Prop} (hr : ∀ a, R a a) (l : List Seg) : Each R l l :=
  ⟨rfl, fun i a b ha hb => by rw [ha] at hb; cases hb; exact hr a⟩

theorem Each.trans {R : Seg → Seg → Prop} (ht : ∀ a b c, R a b → R b c → R a c) {x y z : List Seg}
    (h1 : Each R x y) (h2 : Each R y z) : Each R x z := by
  refine ⟨h2.1.trans h1.1, fun i a c ha hc => ?_⟩
  have hlt : i < y.length := by
    have := (List.getElem?_eq_some_iff.1 ha).1
    have := h1.1
    omega
  exact ht _ _ _ (h1.2 i a y[i] ha (List.getElem?_eq_getElem hlt)) (h2.2 i y[i] c (List.getElem?_eq_getElem hlt) hc)

theorem mapFrom_length (f : Nat → Seg → Seg) : ∀ (l : List Seg) (k : Nat), (mapFrom f k l).length = l.length
  | [], _ => rfl
  | _ :: ss, k => by simp [mapFrom, mapFrom_length f ss (k + 1)]

theorem modifyAt_length (f : Seg → Seg) : ∀ (l : List Seg) (i : Nat), (modifyAt f i l).length = l.length
  | [], _ => by simp [modifyAt]
  | _ :: _, 0 => by simp [modifyAt]
  | _ :: ss, i + 1 => by simp [modifyAt, modifyAt_length f ss i]

theorem sameRanges_length {a b : List Seg} (h : SameRanges a b) : a.length = b.length := by
  induction h with
  | nil => rfl
  | cons _ _ ih => simp [ih]

theorem each_onElems {R : Seg → Seg → Prop} (hr : ∀ a, R a a) {f : List Element → List Element}
    (hf : ∀ a : Seg, R a { a with elems := f a.elems }) (i : Nat) (segs : List Seg) : Each R segs (onElems f i segs) := by
  refine ⟨modifyAt_length _ _ _, fun j a b ha hb => ?_⟩
  unfold onElems at hb
  rw [modifyAt_getElem?, ha] at hb
  simp only [Option.map_some, Option.some.injEq] at hb
  rw [← hb]
  split
  · exact hf a
  · exact hr a

theorem each_mapFrom {R : Seg → Seg → Prop} {f : Nat → Seg → Seg} (hf : ∀ i a, R a (f i a)) (segs : List Seg) :
    Each R segs (mapFrom f 0 segs) := by
  refine ⟨mapFrom_length _ _ _, fun j a b ha hb => ?_⟩
  rw [mapFrom_getElem?, ha] at hb
  simp only [Option.map_some, Option.some.injEq] at hb
  rw [← hb]
  exact hf _ a

/-- What holds for the elements from before and from after holds for those that are stored. -/
theorem each_settle {R : List Element → List Element → Prop} (hr : ∀ a, R a a) {old new : List Seg}
    (h : Each (fun a b => R a.elems b.elems) old new) (u v : Nat → Bool) :
    Each (fun a b => R a.elems b.elems) old (settle u v old new) := by
  unfold settle
  refine ⟨(mapFrom_length _ _ _).trans h.1, fun i a b ha hb => ?_⟩
  rw [mapFrom_getElem?, Nat.zero_add] at hb
  cases hn : new[i]? with
  | none => rw [hn] at hb; cases hb
  | some n =>
    rw [hn] at hb
    simp only [Option.map_some, Option.some.injEq, ha, Option.getD_some, elemsAt] at hb
    rw [← hb]
    split
    · exact hr _
    · split
      · exact hr _
      · exact h.2 i a n ha hn

theorem settle_length (u v : Nat → Bool) (old new : List Seg) : (settle u v old new).length = new.length :=
  mapFrom_length _ _ _

/-- The stored segments are the new ones if those that are replaced could be read and saved. -/
theorem settle_eq {u v : Nat → Bool} {old new : List Seg} {touched : List Nat}
    (ht : ∀ i ∈ touched, u i = false ∧ v i = false) (hun : ∀ j, j ∉ touched → new[j]? = old[j]?) :
    settle u v old new = new := by
  apply List.ext_getElem?
  intro i
  unfold settle
  rw [mapFrom_getElem?, Nat.zero_add]
  cases hn : new[i]? with
  | none => rfl
  | some n =>
    simp only [Option.map_some, Option.some.injEq]
    by_cases hi : i ∈ touched
    · simp [ht i hi]
    · have := hun i hi
      rw [hn] at this
      simp only [← this, Option.getD_some, elemsAt]
      split
      · rfl
      · split <;> rfl

theorem settle_none (old new : List Seg) : settle (fun _ => false) (fun _ => false) old new = new := by
  apply List.ext_getElem?
  intro i
  unfold settle
  rw [mapFrom_getElem?, Nat.zero_add]
  cases new[i]? <;> simp

/-- Every stored element satisfies what old and new elements satisfy. -/
theorem settle_all {Q : Element → Prop} {u v : Nat → Bool} {old new : List Seg}
    (ho : ∀ x ∈ allElems old, Q x) (hn : ∀ x ∈ allElems new, Q x) : ∀ x ∈ allElems (settle u v old new), Q x := by
  intro x hx
  obtain ⟨s, hs, hxs⟩ := mem_allElems.1 hx
  obtain ⟨i, hi⟩ := List.mem_iff_getElem?.1 hs
  unfold settle at hi
  rw [mapFrom_getElem?, Nat.zero_add] at hi
  cases hn' : new[i]? with
  | none => rw [hn'] at hi; cases hi
  | some n =>
    have hnm := List.mem_of_getElem? hn'
    rw [hn'] at hi
    simp only [Option.map_some, Option.some.injEq] at hi
    have hold : ∀ x ∈ elemsAt old i, Q x := by
      intro x hx
      unfold elemsAt at hx
      cases ho' : old[i]? with
      | none => rw [ho'] at hx; cases hx
      | some o =>
        rw [ho'] at hx
        exact ho x (mem_allElems.2 ⟨o, List.mem_of_getElem? ho', hx⟩)
    rw [← hi] at hxs
    split at hxs
    · cases ho' : old[i]? with
      | none =>
        rw [ho'] at hxs
        exact hn x (mem_allElems.2 ⟨n, hnm, hxs⟩)
      | some o =>
        rw [ho'] at hxs
        exact ho x (mem_allElems.2 ⟨o, List.mem_of_getElem? ho', hxs⟩)
    · split at hxs
      · exact hold x hxs
      · exact hn x (mem_allElems.2 ⟨n, hnm, hxs⟩)

/-- Filters that agree at every position agree for the whole list. -/
theorem each_filter {P : Element → Bool} {old new : List Seg}
    (h : Each (fun a b => b.elems.filter P = a.elems.filter P) old new) :
    (allElems new).filter P = (allElems old).filter P := by
  have hmap : new.map (fun s => s.elems.filter P) = old.map fun s => s.elems.filter P := by
    apply List.ext_getElem?
    intro i
    rw [List.getElem?_map, List.getElem?_map]
    cases hn : new[i]? with
    | none =>
      have : old[i]? = none := by
        rw [List.getElem?_eq_none_iff] at hn ⊢
        have := h.1
        omega
      rw [this]
    | some b =>
      have hlt : i < old.length := by
        have := (List.getElem?_eq_some_iff.1 hn).1
        have := h.1
        omega
      rw [List.getElem?_eq_getElem hlt]
      simp only [Option.map_some, Option.some.injEq]
      exact h.2 i _ b (List.getElem?_eq_getElem hlt) hn
  unfold allElems
  rw [List.filter_flatMap, List.filter_flatMap, List.flatMap_def, List.flatMap_def, hmap]

/-- What is kept at every position is kept. -/
theorem each_subset {old new : List Seg} (h : Each (fun a b => ∀ x ∈ a.elems, x ∈ b.elems) old new) :
    ∀ x ∈ allElems old, x ∈ allElems new := by
  intro x hx
  obtain ⟨s, hs, hxs⟩ := mem_allElems.1 hx
  obtain ⟨i, hi⟩ := List.mem_iff_getElem?.1 hs
  have hlt : i < new.length := by
    have := (List.getElem?_eq_some_iff.1 hi).1
    have := h.1
    omega
  exact mem_allElems.2 ⟨new[i], List.getElem_mem hlt, h.2 i s _ hi (List.getElem?_eq_getElem hlt) x hxs⟩

theorem each_of_same {R : Seg → Seg → Prop} {old new : List Seg} (hs : SameRanges new old)
    (h : ∀ (i : Nat) (a b : Seg), old[i]? = some a → new[i]? = some b → R a b) : Each R old new := ⟨sameRanges_length hs, h⟩

/-! ### Slices -/

theorem insert_filter {P : Element → Bool} {e : Element} (he : P e = false) : ∀ (l : List Element),
    (Elements.insert l e).1.filter P = l.filter P
  | [] => by simp [Elements.insert, he]
  | a :: l => by
    unfold Elements.insert
    split
    · show (a :: (Elements.insert l e).1).filter P = _
      rw [List.filter_cons, List.filter_cons, insert_filter he l]
    · show (e :: a :: l).filter P = _
      rw [List.filter_cons_of_neg (by simpa using he)]

theorem delete_filter {P : Element → Bool} {id : Nat} (hP : ∀ x : Element, x.id = id → P x = false) :
    ∀ {l l' : List Element}, Elements.delete l id = some l' → l'.filter P = l.filter P
  | [], _, h => by simp [Elements.delete] at h
  | a :: l, l', h => by
    unfold Elements.delete at h
    split at h
    · rename_i ha
      cases h
      rw [List.filter_cons_of_neg (by simpa using hP a (by simpa using ha))]
    · cases hd : Elements.delete l id with
      | none => rw [hd] at h; cases h
      | some l2 =>
        rw [hd] at h
        cases h
        rw [List.filter_cons, List.filter_cons, delete_filter hP hd]

theorem delete_subset {id : Nat} : ∀ {l l' : List Element}, Elements.delete l id = some l' → ∀ x ∈ l', x ∈ l
  | [], _, h => by simp [Elements.delete] at h
  | a :: l, l', h => by
    unfold Elements.delete at h
    split at h
    · cases h
      exact fun x hx => List.mem_cons_of_mem _ hx
    · cases hd : Elements.delete l id with
      | none => rw [hd] at h; cases h
      | some l2 =>
        rw [hd] at h
        cases h
        intro x hx
        rcases List.mem_cons.1 hx with rfl | hx
        · exact List.mem_cons_self
        · exact List.mem_cons_of_mem _ (delete_subset hd x hx)

theorem update_some {now : Nat} {l : List Element} {e : Element} {r : List Element × Option Elements.Rank}
    (h : Elements.update now l e = some r) :
    ∃ l', Elements.delete l e.id = some l' ∧ r.1 = (Elements.insert l' (Elements.touch now e)).1 := by
  unfold Elements.update at h
  simp only [Elements.touch_id] at h
  cases hd : Elements.delete l e.id with
  | none => rw [hd] at h; cases h
  | some l' =>
    rw [hd] at h
    simp only [Option.some.injEq] at h
    exact ⟨l', rfl, by rw [← h]⟩

/-- `Add` changes nothing about other IDs and adds only the element with its time set. -/
theorem addTo_cases (now : Nat) (e : Element) (l : List Element) :
    (∀ P : Element → Bool, (∀ x : Element, x.id = e.id → P x = false) → (addTo now e l).filter P = l.filter P) ∧
    ∀ x ∈ addTo now e l, x ∈ l ∨ x = Elements.touch now e := by
  unfold addTo Elements.add
  simp only [Elements.touch_id]
  split
  · split
    · rename_i r hu
      obtain ⟨l', hd, hr⟩ := update_some hu
      rw [Elements.touch_id] at hd
      rw [Elements.touch_touch] at hr
      rw [hr]
      refine ⟨fun P hP => ?_, fun x hx => ?_⟩
      · rw [insert_filter (hP _ (Elements.touch_id now e)), delete_filter hP hd]
      · rcases List.mem_cons.1 ((Elements.insert_perm _ _).mem_iff.1 hx) with h | h
        · exact .inr h
        · exact .inl (delete_subset hd x h)
    · exact ⟨fun _ _ => rfl, fun x hx => .inl hx⟩
  · refine ⟨fun P hP => insert_filter (hP _ (Elements.touch_id now e)) l, fun x hx => ?_⟩
    rcases List.mem_cons.1 ((Elements.insert_perm _ _).mem_iff.1 hx) with h | h
    · exact .inr h
    · exact .inl h

theorem updateIn_cases (now : Nat) (e : Element) (l : List Element) :
    (∀ P : Element → Bool, (∀ x : Element, x.id = e.id → P x = false) → (updateIn now e l).filter P = l.filter P) ∧
    ∀ x ∈ updateIn now e l, x ∈ l ∨ x = Elements.touch now e := by
  unfold updateIn
  split
  · rename_i r hu
    obtain ⟨l', hd, hr⟩ := update_some hu
    rw [hr]
    refine ⟨fun P hP => ?_, fun x hx => ?_⟩
    · rw [insert_filter (hP _ (Elements.touch_id now e)), delete_filter hP hd]
    · rcases List.mem_cons.1 ((Elements.insert_perm _ _).mem_iff.1 hx) with h | h
      · exact .inr h
      · exact .inl (delete_subset hd x h)
  · exact ⟨fun _ _ => rfl, fun x hx => .inl hx⟩

theorem deleteIn_cases (id : Nat) (l : List Element) :
    (∀ P : Element → Bool, (∀ x : Element, x.id = id → P x = false) → (deleteIn id l).filter P = l.filter P) ∧
    ∀ x ∈ deleteIn id l, x ∈ l := by
  unfold deleteIn
  cases hd : Elements.delete l id with
  | none => exact ⟨fun _ _ => rfl, fun x hx => hx⟩
  | some l' => exact ⟨fun P hP => delete_filter hP hd, delete_subset hd⟩

/-! ### Update -/

theorem load_scores (f : Faults) (i : Nat) (w : Work) : (load f i w).2.scores = w.scores ∧ (load f i w).2.index = w.index := by
  unfold load
  split
  · exact ⟨rfl, rfl⟩
  · split <;> exact ⟨rfl, rfl⟩

theorem loadExisting_scores (f : Faults) (org : List Seg) : ∀ (loc : List (Nat × Nat × Option Element)) (w : Work),
    (loadExisting f org loc w).scores = w.scores ∧ (loadExisting f org loc w).index = w.index
  | [], w => ⟨rfl, rfl⟩
  | (_, _, none) :: loc, w => loadExisting_scores f org loc w
  | (_, _, some ex) :: loc, w => by
    obtain ⟨h1, h2⟩ := loadExisting_scores f org loc (load f (segIndex ex.tie org 0 0) w).2
    exact ⟨h1.trans (load_scores f _ w).1, h2.trans (load_scores f _ w).2⟩

/-- A relation between slices that the changes of one element keep. -/
theorem updateOne_each {R : List Element → List Element → Prop} (hr : ∀ a, R a a) (ht : ∀ a b c, R a b → R b c → R a c)
    {f : Faults} {now : Nat} {org : List Seg} {loc : List (Nat × Nat × Option Element)} {sidx : Nat} {e : Element}
    (hadd : ∀ l, R l (addTo now e l)) (hupd : ∀ l, R l (updateIn now e l)) (hdel : ∀ l, R l (deleteIn e.id l)) (w : Work) :
    Each (fun a b => R a.elems b.elems) w.scores (updateOne f now org loc sidx w e).scores := by
  have hone : ∀ {g : List Element → List Element} (_ : ∀ l, R l (g l)) (i : Nat) (segs : List Seg),
      Each (fun a b => R a.elems b.elems) segs (onElems g i segs) := fun hg i segs =>
    each_onElems (fun a => hr a.elems) (fun a => hg a.elems) i segs
  unfold updateOne
  simp only []
  split
  · exact hone hadd _ _
  · split
    · exact hone hupd _ _
    · split
      · exact hone hadd _ _
      · split
        · refine Each.trans (fun a b c => ht a.elems b.elems c.elems) ?_ (hone hdel _ _)
          rw [(load_scores f _ _).1]
          exact hone hadd _ _
        · rw [(load_scores f _ _).1]
          exact hone hadd _ _

theorem updateFold_each {R : List Element → List Element → Prop} (hr : ∀ a, R a a) (ht : ∀ a b c, R a b → R b c → R a c)
    {f : Faults} {now : Nat} {org : List Seg} {loc : List (Nat × Nat × Option Element)} {sidx : Nat} :
    ∀ (es : List Element) (w : Work), (∀ e ∈ es, (∀ l, R l (addTo now e l)) ∧ (∀ l, R l (updateIn now e l)) ∧
      ∀ l, R l (deleteIn e.id l)) →
    Each (fun a b => R a.elems b.elems) w.scores (es.foldl (updateOne f now org loc sidx) w).scores
  | [], w, _ => Each.refl (fun a => hr a.elems) _
  | e :: es, w, h => by
    rw [List.foldl_cons]
    obtain ⟨h1, h2, h3⟩ := h e List.mem_cons_self
    exact Each.trans (fun a b c => ht a.elems b.elems c.elems) (updateOne_each hr ht h1 h2 h3 w)
      (updateFold_each hr ht es _ fun e he => h e (List.mem_cons_of_mem _ he))

theorem updateSegments_each {R : List Element → List Element → Prop} (hr : ∀ a, R a a) (ht : ∀ a b c, R a b → R b c → R a c)
    {f : Faults} {now : Nat} {org : List Seg} {loc : List (Nat × Nat × Option Element)} :
    ∀ (dst : List (Nat × List Element)) (w : Work), (∀ d ∈ dst, ∀ e ∈ d.2, (∀ l, R l (addTo now e l)) ∧
      (∀ l, R l (updateIn now e l)) ∧ ∀ l, R l (deleteIn e.id l)) →
    Each (fun a b => R a.elems b.elems) w.scores (dst.foldl (updateSegment f now org loc) w).scores
  | [], w, _ => Each.refl (fun a => hr a.elems) _
  | d :: dst, w, h => by
    rw [List.foldl_cons]
    refine Each.trans (fun a b c => ht a.elems b.elems c.elems) ?_
      (updateSegments_each hr ht dst _ fun d hd => h d (List.mem_cons_of_mem _ hd))
    unfold updateSegment
    simp only []
    split
    · have := updateFold_each (f := f) (now := now) (org := org) (loc := loc) (sidx := d.1) hr ht d.2 (load f d.1 w).2
        (h d List.mem_cons_self)
      rw [(load_scores f d.1 w).1] at this
      exact this
    · rw [(load_scores f d.1 w).1]
      exact Each.refl (fun a => hr a.elems) _

theorem refresh_each {R : List Element → List Element → Prop} (hr : ∀ a, R a a) (now : Nat) (loaded : List Nat)
    (segs : List Seg) : Each (fun a b => R a.elems b.elems) segs (refresh now loaded segs) := by
  unfold refresh
  apply each_mapFrom
  intro i a
  split <;> exact hr _

/-- The elements of the pieces are the elements of the call. -/
theorem splitElementsIdx_mem : ∀ (segs : List Seg) (k : Nat) (l : List Element), ∀ d ∈ splitElementsIdx k segs l, ∀ e ∈ d.2, e ∈ l
  | [], _, _ => by simp [splitElementsIdx]
  | s :: ss, k, l => by
    unfold splitElementsIdx
    simp only []
    split
    · exact splitElementsIdx_mem ss (k + 1) l
    · intro d hd e he
      rcases List.mem_cons.1 hd with rfl | hd
      · exact List.mem_of_mem_take (List.mem_of_mem_drop he)
      · exact splitElementsIdx_mem ss (k + 1) l d hd e he

/-- A relation between slices that every change keeps holds between before and after, whatever fails. -/
theorem update_each {R : List Element → List Element → Prop} (hr : ∀ a, R a a) (ht : ∀ a b c, R a b → R b c → R a c)
    (f : Faults) (now : Nat) (sch : Sched) (st : ListState) (es : List Element)
    (h : ∀ e ∈ es, (∀ l, R l (addTo now e l)) ∧ (∀ l, R l (updateIn now e l)) ∧ ∀ l, R l (deleteIn e.id l)) :
    Each (fun a b => R a.elems b.elems) st.scores.segs (update f now sch st es).2.scores.segs := by
  unfold update
  split
  · exact Each.refl (fun a => hr a.elems) _
  · apply each_settle hr
    refine Each.trans (fun a b c => ht a.elems b.elems c.elems) ?_ (refresh_each hr _ _ _)
    have := updateSegments_each (f := f) (now := now) (org := st.scores.segs)
      (loc := locate st.index.segs (updateIDs es)) hr ht
      (sch.order (splitElementsIdx 0 st.scores.segs (Elements.sortSlice es)))
      (loadExisting f st.scores.segs (locate st.index.segs (updateIDs es)) ⟨st.scores.segs, st.index.segs, [], 0⟩)
      (fun d hd e he => h e ((sortSlice_perm es).mem_iff.1
        (splitElementsIdx_mem _ _ _ d ((sch.perm _).mem_iff.1 hd) e he)))
    rw [(loadExisting_scores f _ _ _).1] at this
    exact this

/-- Whatever fails, elements that are not named are as before. -/
theorem update_unnamed (f : Faults) (now : Nat) (sch : Sched) (st : ListState) (es : List Element) :
    (update f now sch st es).2.content.filter (fun e => decide (e.id ∉ es.map (·.id))) =
      st.content.filter fun e => decide (e.id ∉ es.map (·.id)) := by
  apply each_filter
  refine update_each (R := fun a b => b.filter (fun e => decide (e.id ∉ es.map (·.id))) =
    a.filter fun e => decide (e.id ∉ es.map (·.id))) (fun _ => rfl) (fun a b c h1 h2 => h2.trans h1) f now sch st es ?_
  intro e he
  have hP : ∀ x : Element, x.id = e.id → decide (x.id ∉ es.map (·.id)) = false := by
    intro x hx
    rw [decide_eq_false_iff_not, hx]
    exact fun h => h (List.mem_map.2 ⟨e, he, rfl⟩)
  exact ⟨fun l => (addTo_cases now e l).1 _ hP, fun l => (updateIn_cases now e l).1 _ hP,
    fun l => (deleteIn_cases e.id l).1 _ hP⟩

/-- Whatever fails, every element is one from before or one of the update. -/
theorem update_values (f : Faults) (now : Nat) (sch : Sched) (st : ListState) (es : List Element) :
    ∀ x ∈ (update f now sch st es).2.content, x ∈ st.content ∨ x ∈ es.map (stamp now) := by
  have h := update_each (R := fun a b => ∀ x ∈ b, x ∈ a ∨ x ∈ es.map (stamp now)) (fun _ x hx => .inl hx)
    (fun a b c h1 h2 x hx => (h2 x hx).elim (h1 x) .inr) f now sch st es (by
      intro e he
      have hs : Elements.touch now e ∈ es.map (stamp now) := by
        rw [touch_eq_stamp]; exact List.mem_map.2 ⟨e, he, rfl⟩
      refine ⟨fun l x hx => ?_, fun l x hx => ?_, fun l x hx => .inl ((deleteIn_cases e.id l).2 x hx)⟩
      · rcases (addTo_cases now e l).2 x hx with h | rfl
        · exact .inl h
        · exact .inr hs
      · rcases (updateIn_cases now e l).2 x hx with h | rfl
        · exact .inl h
        · exact .inr hs)
  intro x hx
  obtain ⟨s, hs, hxs⟩ := mem_allElems.1 hx
  obtain ⟨i, hi⟩ := List.mem_iff_getElem?.1 hs
  have hlt : i < st.scores.segs.length := by
    have := (List.getElem?_eq_some_iff.1 hi).1
    have := h.1
    omega
  rcases h.2 i _ s (List.getElem?_eq_getElem hlt) hi x hxs with h1 | h1
  · exact .inl (mem_allElems.2 ⟨_, List.getElem_mem hlt, h1⟩)
  · exact .inr h1

/-! ### Updates without failures of the scores -/

theorem load_ok {f : Faults} (hf : ∀ i t, f.readScores i t = false) (i : Nat) (w : Work) :
    (load f i w).1 = true ∧ ∀ j, j ∈ (load f i w).2.loaded ↔ j = i ∨ j ∈ w.loaded := by
  unfold load
  split
  · rename_i hc
    refine ⟨rfl, fun j => ⟨.inr, ?_⟩⟩
    rintro (rfl | h)
    · simpa using hc
    · exact h
  · rw [hf]
    exact ⟨rfl, fun j => List.mem_cons⟩

/-- The positions of the segments in which the elements are (`loadedScores`). -/
def existing (org : List Seg) (loc : List (Nat × Nat × Option Element)) : List Nat :=
  loc.filterMap fun l => l.2.2.map fun ex => segIndex ex.tie org 0 0

theorem loadExisting_ok {f : Faults} (hf : ∀ i t, f.readScores i t = false) (org : List Seg) :
    ∀ (loc : List (Nat × Nat × Option Element)) (w : Work) (j : Nat),
    j ∈ (loadExisting f org loc w).loaded ↔ j ∈ existing org loc ∨ j ∈ w.loaded
  | [], w, j => by simp [loadExisting, existing]
  | (_, _, none) :: loc, w, j => by
    rw [loadExisting, loadExisting_ok hf org loc w j]
    simp [existing]
  | (_, _, some ex) :: loc, w, j => by
    rw [loadExisting, loadExisting_ok hf org loc _ j, (load_ok hf _ w).2 j]
    simp only [existing, List.filterMap_cons, Option.map_some, List.mem_cons]
    constructor
    · rintro (h | h | h)
      · exact .inl (.inr h)
      · exact .inl (.inl h)
      · exact .inr h
    · rintro ((h | h) | h)
      · exact .inr (.inl h)
      · exact .inl h
      · exact .inr (.inr h)

theorem located_existing {org : List Seg} {loc : List (Nat × Nat × Option Element)} {id i : Nat} {ex : Element}
    (h : located loc id = (i, some ex)) : segIndex ex.tie org 0 0 ∈ existing org loc := by
  unfold located at h
  split at h
  · rename_i r hr
    refine List.mem_filterMap.2 ⟨r, List.mem_of_find?_eq_some hr, ?_⟩
    rw [h]; rfl
  · cases h

theorem updateOne_ok {f : Faults} (hf : ∀ i t, f.readScores i t = false) (now : Nat) (org : List Seg)
    (loc : List (Nat × Nat × Option Element)) (sidx : Nat) (w : Work) (e : Element) :
    ((updateOne f now org loc sidx w e).scores, (updateOne f now org loc sidx w e).index) =
      Lists.updateOne now org loc sidx (w.scores, w.index) e ∧
    (∀ j ∈ w.loaded, j ∈ (updateOne f now org loc sidx w e).loaded) ∧
    ∀ j ∈ (updateOne f now org loc sidx w e).loaded, j ∈ existing org loc ∨ j ∈ w.loaded := by
  unfold updateOne Lists.updateOne
  simp only []
  cases hl : located loc e.id with
  | mk iidx o =>
    cases o with
    | none => exact ⟨rfl, fun j h => h, fun j h => .inr h⟩
    | some ex =>
      simp only []
      split
      · exact ⟨rfl, fun j h => h, fun j h => .inr h⟩
      · cases hu : Elements.update now (elemsAt w.index iidx) (e.asIndex (((org[sidx]?).map (·.id)).getD 0)) with
        | none => exact ⟨rfl, fun j h => h, fun j h => .inr h⟩
        | some r =>
          simp only []
          rw [if_pos (load_ok hf _ _).1]
          refine ⟨?_, fun j h => ?_, fun j h => ?_⟩
          · simp only [(load_scores f _ _).1, (load_scores f _ _).2]
          · exact ((load_ok hf _ _).2 j).2 (.inr h)
          · rcases ((load_ok hf _ _).2 j).1 h with rfl | h
            · exact .inl (located_existing hl)
            · exact .inr h

theorem updateFold_ok {f : Faults} (hf : ∀ i t, f.readScores i t = false) (now : Nat) (org : List Seg)
    (loc : List (Nat × Nat × Option Element)) (sidx : Nat) : ∀ (es : List Element) (w : Work),
    ((es.foldl (updateOne f now org loc sidx) w).scores, (es.foldl (updateOne f now org loc sidx) w).index) =
      es.foldl (Lists.updateOne now org loc sidx) (w.scores, w.index) ∧
    (∀ j ∈ w.loaded, j ∈ (es.foldl (updateOne f now org loc sidx) w).loaded) ∧
    ∀ j ∈ (es.foldl (updateOne f now org loc sidx) w).loaded, j ∈ existing org loc ∨ j ∈ w.loaded
  | [], w => ⟨rfl, fun j h => h, fun j h => .inr h⟩
  | e :: es, w => by
    obtain ⟨a1, a2, a3⟩ := updateOne_ok hf now org loc sidx w e
    obtain ⟨b1, b2, b3⟩ := updateFold_ok hf now org loc sidx es (updateOne f now org loc sidx w e)
    rw [List.foldl_cons, List.foldl_cons, ← a1]
    exact ⟨b1, fun j h => b2 j (a2 j h), fun j h => (b3 j h).elim .inl (a3 j)⟩

theorem updateSegments_ok {f : Faults} (hf : ∀ i t, f.readScores i t = false) (now : Nat) (org : List Seg)
    (loc : List (Nat × Nat × Option Element)) : ∀ (dst : List (Nat × List Element)) (w : Work),
    ((dst.foldl (updateSegment f now org loc) w).scores, (dst.foldl (updateSegment f now org loc) w).index) =
      updateAll now org loc dst (w.scores, w.index) ∧
    (∀ j, j ∈ dst.map (·.1) ∨ j ∈ w.loaded → j ∈ (dst.foldl (updateSegment f now org loc) w).loaded) ∧
    ∀ j ∈ (dst.foldl (updateSegment f now org loc) w).loaded, j ∈ dst.map (·.1) ∨ j ∈ existing org loc ∨ j ∈ w.loaded
  | [], w => ⟨rfl, fun j h => h.elim (fun h => by cases h) id, fun j h => .inr (.inr h)⟩
  | d :: dst, w => by
    have hseg : updateSegment f now org loc w d = d.2.foldl (updateOne f now org loc d.1) (load f d.1 w).2 := by
      unfold updateSegment
      simp only []
      rw [if_pos (load_ok hf _ _).1]
    obtain ⟨a1, a2, a3⟩ := updateFold_ok hf now org loc d.1 d.2 (load f d.1 w).2
    rw [← hseg] at a1 a2 a3
    rw [(load_scores f _ _).1, (load_scores f _ _).2] at a1
    obtain ⟨b1, b2, b3⟩ := updateSegments_ok hf now org loc dst (updateSegment f now org loc w d)
    rw [List.foldl_cons]
    refine ⟨?_, fun j h => b2 j ?_, fun j h => ?_⟩
    · rw [b1, a1]; rfl
    · rcases h with h | h
      · rw [List.map_cons, List.mem_cons] at h
        rcases h with rfl | h
        · exact .inr (a2 _ (((load_ok hf _ _).2 _).2 (.inl rfl)))
        · exact .inl h
      · exact .inr (a2 _ (((load_ok hf _ _).2 _).2 (.inr h)))
    · rw [List.map_cons, List.mem_cons]
      rcases b3 j h with h | h | h
      · exact .inl (.inr h)
      · exact .inr (.inl h)
      · rcases a3 j h with h | h
        · exact .inr (.inl h)
        · rcases ((load_ok hf _ _).2 j).1 h with h | h
          · exact .inl (.inl h)
          · exact .inr (.inr h)

theorem refresh_congr {now : Nat} {a b : List Nat} {segs : List Seg} (h : ∀ j, j ∈ a ↔ j ∈ b) :
    refresh now a segs = refresh now b segs := by
  unfold refresh
  congr 1
  funext i s
  have : a.contains i = b.contains i := by
    rw [Bool.eq_iff_iff, List.contains_iff_mem, List.contains_iff_mem]
    exact h i
  rw [this]

/-- If the scores can be read, an update is refused or does what it says, except for what cannot be saved. -/
theorem update_settled {f : Faults} (hr : ∀ i t, f.readScores i t = false) (now : Nat) (sch : Sched) (st : ListState)
    (es : List Element) :
    update f now sch st es = (false, st) ∨ update f now sch st es = (!f.late,
      { Lists.updateElements now sch st es with
        scores := { st.scores with
          segs := settle (fun _ => false) f.saveScores st.scores.segs (Lists.updateElements now sch st es).scores.segs }
        index := { st.index with
          segs := settle (fun _ => false) f.saveIndex st.index.segs (Lists.updateElements now sch st es).index.segs } }) := by
  unfold update
  split
  · exact .inl rfl
  · right
    unfold Lists.updateElements
    simp only []
    obtain ⟨a1, a2, a3⟩ := updateSegments_ok hr now st.scores.segs (locate st.index.segs (updateIDs es))
      (sch.order (splitElementsIdx 0 st.scores.segs (Elements.sortSlice es)))
      (loadExisting f st.scores.segs (locate st.index.segs (updateIDs es)) ⟨st.scores.segs, st.index.segs, [], 0⟩)
    rw [(loadExisting_scores f _ _ _).1, (loadExisting_scores f _ _ _).2] at a1
    have hp := sch.perm (splitElementsIdx 0 st.scores.segs (Elements.sortSlice es))
    simp only [loadExisting_ok hr, List.not_mem_nil, or_false] at a2 a3
    generalize hw : List.foldl (updateSegment f now st.scores.segs (locate st.index.segs (updateIDs es))) _ _ = w at a1 a2 a3 ⊢
    have hl : ∀ j, j ∈ w.loaded ↔ j ∈ loadedScores st es := by
      intro j
      unfold loadedScores
      rw [List.mem_append]
      constructor
      · intro h
        rcases a3 j h with h | h | h
        · exact .inl ((hp.map _).mem_iff.1 h)
        · exact .inr h
        · exact .inr h
      · rintro (h | h)
        · exact a2 j (.inl ((hp.map _).mem_iff.2 h))
        · exact a2 j (.inr h)
    rw [refresh_congr hl, ← a1]

/-- If the scores can be read and everything saved, an update is refused or does what it says. -/
theorem update_either {f : Faults} (hr : ∀ i t, f.readScores i t = false) (hs : ∀ i, f.saveScores i = false)
    (hi : ∀ i, f.saveIndex i = false) (now : Nat) (sch : Sched) (st : ListState) (es : List Element) :
    update f now sch st es = (false, st) ∨ (update f now sch st es).2 = Lists.updateElements now sch st es := by
  have hs' : f.saveScores = fun _ => false := funext hs
  have hi' : f.saveIndex = fun _ => false := funext hi
  rcases update_settled hr now sch st es with h | h
  · exact .inl h
  · right
    rw [h, hs', hi']
    simp only [settle_none]
    rfl

theorem update_ok {f : Faults} (hr : ∀ i t, f.readScores i t = false) (hs : ∀ i, f.saveScores i = false)
    (hi : ∀ i, f.saveIndex i = false) (now : Nat) (sch : Sched) (st : ListState) (es : List Element)
    (hack : (update f now sch st es).1 = true) : (update f now sch st es).2 = Lists.updateElements now sch st es := by
  rcases update_either hr hs hi now sch st es with h | h
  · rw [h] at hack; cases hack
  · exact h

/-! ### Updates of one element that are dropped -/

theorem updateSegments_unread {f : Faults} {now : Nat} {org : List Seg} {loc : List (Nat × Nat × Option Element)} :
    ∀ (dst : List (Nat × List Element)) (w : Work), (∀ d ∈ dst, (∀ t, f.readScores d.1 t = true) ∧ d.1 ∉ w.loaded) →
    (dst.foldl (updateSegment f now org loc) w).scores = w.scores
  | [], _, _ => rfl
  | d :: dst, w, h => by
    obtain ⟨h1, h2⟩ := h d List.mem_cons_self
    have : updateSegment f now org loc w d = { w with tries := w.tries + 1 } := by
      unfold updateSegment load
      simp [h2, h1]
    rw [List.foldl_cons, this]
    exact updateSegments_unread dst _ fun d hd => h d (List.mem_cons_of_mem _ hd)

theorem load_unread {f : Faults} {p : Nat} (hf : ∀ t, f.readScores p t = true) (i : Nat) (w : Work) (h : p ∉ w.loaded) :
    p ∉ (load f i w).2.loaded := by
  unfold load
  split
  · exact h
  · split
    · exact h
    · rename_i hr
      rw [List.mem_cons, not_or]
      refine ⟨?_, h⟩
      rintro rfl
      exact hr (hf _)

theorem loadExisting_unread {f : Faults} {p : Nat} (hf : ∀ t, f.readScores p t = true) (org : List Seg) :
    ∀ (loc : List (Nat × Nat × Option Element)) (w : Work), p ∉ w.loaded → p ∉ (loadExisting f org loc w).loaded
  | [], _, h => h
  | (_, _, none) :: loc, w, h => loadExisting_unread hf org loc w h
  | (_, _, some _) :: loc, w, h => loadExisting_unread hf org loc _ (load_unread hf _ w h)

theorem each_content {old new : List Seg} (h : Each (fun a b => b.elems = a.elems) old new) :
    allElems new = allElems old := by
  have := each_filter (P := fun _ => true) (old := old) (new := new)
    ⟨h.1, fun i a b ha hb => by show b.elems.filter _ = a.elems.filter _; rw [h.2 i a b ha hb]⟩
  rwa [List.filter_eq_self.2 (fun _ _ => rfl), List.filter_eq_self.2 (fun _ _ => rfl)] at this

theorem refresh_content (now : Nat) (loaded : List Nat) (segs : List Seg) : allElems (refresh now loaded segs) = allElems segs :=
  each_content (refresh_each (R := fun a b => b = a) (fun _ => rfl) now loaded segs)

theorem sel_one (e : Element) (s : Seg) : sel s [e] = if InRange s e then [e] else [] := by
  unfold sel
  by_cases hs : InRange s e
  · rw [if_pos hs, List.filter_cons_of_pos (by simpa using hs)]; rfl
  · rw [if_neg hs, List.filter_cons_of_neg (by simpa using hs)]; rfl

theorem sel_zip (e : Element) (p : Nat) : ∀ (l : List Seg) (k : Nat), (∀ i s, l[i]? = some s → (InRange s e ↔ k + i = p)) →
    ((l.zipIdx k).filterMap fun q => if sel q.1 [e] = [] then none else some (q.2, sel q.1 [e])) =
      if k ≤ p ∧ p < k + l.length then [(p, [e])] else [] := by
  intro l
  induction l with
  | nil => intro k _; simp only [List.zipIdx_nil, List.filterMap_nil, List.length_nil]; rw [if_neg (by omega)]
  | cons s l ih =>
    intro k hk
    rw [List.zipIdx_cons]
    have h0 := hk 0 s rfl
    have ih' := ih (k + 1) fun i t ht => by
      have := hk (i + 1) t (by simpa using ht)
      rw [this]; omega
    by_cases hs : InRange s e
    · have hkp := h0.1 hs
      have hse : sel s [e] = [e] := by rw [sel_one, if_pos hs]
      have hne : sel s [e] ≠ [] := by rw [hse]; exact List.cons_ne_nil _ _
      rw [List.filterMap_cons_some (b := (k, [e])) (by dsimp only; rw [if_neg hne, hse])]
      have hk' : k = p := hkp
      rw [ih', if_neg (fun hc => by have := hc.1; omega),
        if_pos ⟨by omega, by rw [List.length_cons]; omega⟩, hk']
    · have hkp : ¬ k + 0 = p := fun h => hs (h0.2 h)
      have hse : sel s [e] = [] := by rw [sel_one, if_neg hs]
      rw [List.filterMap_cons_none (by dsimp only; rw [if_pos hse]), ih', List.length_cons]
      by_cases hc : k + 1 ≤ p ∧ p < k + 1 + l.length
      · rw [if_pos hc, if_pos (by omega)]
      · rw [if_neg hc, if_neg (by omega)]

/-- The positions to which a single element goes are those of segments with its score. -/
theorem splitElementsIdx_one {segs : List Seg} (h : SegsOK segs) {e : Element} (he : Storable e) {p : Nat} {g : Seg}
    (hg : segs[p]? = some g) (hr : InRange g e) : splitElementsIdx 0 segs (Elements.sortSlice [e]) = [(p, [e])] := by
  have hss : Elements.sortSlice [e] = [e] := List.perm_singleton.1 (sortSlice_perm [e])
  have hst : ∀ x ∈ [e], Storable x := fun x hx => by cases List.mem_singleton.1 hx; exact he
  rw [hss, splitElementsIdx_eq h.ties hst (falling_of_ranked (by simp [Spec.Ranked]) fun x hx => (hst x hx).tie)]
  rw [sel_zip e p segs 0 ?_, if_pos ?_]
  · have := (List.getElem?_eq_some_iff.1 hg).1
    omega
  · intro i s hs
    rw [Nat.zero_add]
    constructor
    · intro hse
      have := tiles_unique h.tiles (List.mem_of_getElem? hs) (List.mem_of_getElem? hg) hse hr
      subst this
      exact getElem?_unique h hs hg rfl
    · rintro rfl
      rw [hg] at hs
      cases hs
      exact hr

/-- An update of one element whose segment cannot be read changes no element. -/
theorem update_dropped {f : Faults} {now : Nat} {sch : Sched} {st : ListState} (h : ListOK st) {e : Element}
    (he : Storable e) {p : Nat} {g : Seg} (hg : st.scores.segs[p]? = some g) (hr : InRange g e)
    (hf : ∀ t, f.readScores p t = true) : (update f now sch st [e]).2.content = st.content := by
  unfold update
  split
  · rfl
  · unfold ListState.content
    simp only []
    have hdst : sch.order (splitElementsIdx 0 st.scores.segs (Elements.sortSlice [e])) = [(p, [e])] := by
      rw [splitElementsIdx_one h.scores he hg hr]
      exact List.perm_singleton.1 (sch.perm _)
    rw [hdst, updateSegments_unread, (loadExisting_scores f _ _ _).1]
    · exact each_content (each_settle (R := fun a b => b = a) (fun _ => rfl)
        (refresh_each (R := fun a b => b = a) (fun _ => rfl) _ _ _) _ _)
    · intro d hd
      cases List.mem_singleton.1 hd
      exact ⟨hf, loadExisting_unread hf _ _ _ (by simp)⟩

/-! ### Insert -/

theorem insert_untouched (now : Nat) (sch : Sched) (segs : List Seg) (l : List Element) (j : Nat)
    (hj : j ∉ touched 0 segs (Elements.sortSlice l)) : (Segments.insert now sch segs l).1[j]? = segs[j]? :=
  insertLoop_untouched now segs 0 _ j (by rw [Nat.zero_add]; exact hj)

theorem insertChunk_ok {f : Faults} {now : Nat} {sch : Sched} {st : ListState} {e : List Element}
    (h : (insertChunk f now sch st e).1 = true) : (insertChunk f now sch st e).2 = Lists.insertChunk now sch st e := by
  unfold insertChunk at h ⊢
  simp only [] at h ⊢
  split at h
  · cases h
  · rename_i h1
    rw [if_neg h1]
    split at h
    · cases h
    · rename_i h2
      rw [if_neg h2]
      simp only [Bool.or_eq_true, List.any_eq_true, not_or, not_exists, not_and, Bool.not_eq_true] at h1 h2
      rw [settle_eq (touched := touched 0 st.scores.segs (Elements.sortSlice (Elements.sortSlice e)))
          (fun i hi => by simpa using h1.1 i hi)
          (fun j hj => insert_untouched now sch _ _ j hj),
        settle_eq (touched := touched 0 st.index.segs (Elements.sortSlice (Elements.sortSlice
            (Segments.insert now sch st.scores.segs (Elements.sortSlice e)).2)))
          (fun i hi => by simpa using h2.1 i hi)
          (fun j hj => insert_untouched now sch _ _ j hj)]
      rfl

theorem insertChunks_ok {fs : Nat → Faults} {now : Nat} {sch : Sched} : ∀ {cs : List (List Element)} {k : Nat} {st : ListState},
    (insertChunks fs now sch k st cs).1 = true → (insertChunks fs now sch k st cs).2 = cs.foldl (Lists.insertChunk now sch) st
  | [], _, _, _ => rfl
  | c :: cs, k, st, h => by
    unfold insertChunks at h ⊢
    simp only [] at h ⊢
    split at h
    · rename_i h1
      rw [if_pos h1, insertChunks_ok h, insertChunk_ok h1]
      rfl
    · rename_i h1
      exact absurd h h1

theorem insertLoop_each (now : Nat) : ∀ (segs : List Seg) (inp : List Element),
    Each (fun a b => ∀ x ∈ a.elems, x ∈ b.elems) segs (insertLoop now segs inp).1
  | [], _ => Each.refl (fun _ _ h => h) _
  | s :: ss, inp => by
    have hcons : ∀ {a b : Seg} {x y : List Seg}, (∀ e ∈ a.elems, e ∈ b.elems) →
        Each (fun a b => ∀ x ∈ a.elems, x ∈ b.elems) x y → Each (fun a b => ∀ x ∈ a.elems, x ∈ b.elems) (a :: x) (b :: y) := by
      intro a b x y hab hxy
      refine ⟨by simp [hxy.1], fun i c d hc hd => ?_⟩
      cases i with
      | zero =>
        simp only [List.getElem?_cons_zero, Option.some.injEq] at hc hd
        subst hc hd; exact hab
      | succ i => exact hxy.2 i c d (by simpa using hc) (by simpa using hd)
    unfold insertLoop
    simp only []
    split
    · exact hcons (fun _ h => h) (insertLoop_each now ss inp)
    · refine hcons (fun x hx => ?_) (insertLoop_each now ss _)
      exact (Elements.merge_perm _ _ _ _).mem_iff.2 (List.mem_append_left _ hx)

theorem insertLoop_values (now : Nat) : ∀ (segs : List Seg) (inp : List Element),
    ∀ x ∈ allElems (insertLoop now segs inp).1, x ∈ allElems segs ∨ x ∈ inp
  | [], _ => by intro x hx; exact .inl hx
  | s :: ss, inp => by
    unfold insertLoop
    simp only []
    split
    · intro x hx
      simp only [allElems, List.flatMap_cons, List.mem_append] at hx ⊢
      rcases hx with h | h
      · exact .inl (.inl h)
      · rcases insertLoop_values now ss inp x h with h | h
        · exact .inl (.inr h)
        · exact .inr h
    · intro x hx
      simp only [allElems, List.flatMap_cons, List.mem_append] at hx ⊢
      rcases hx with h | h
      · rcases List.mem_append.1 ((Elements.merge_perm _ _ _ _).mem_iff.1 h) with h | h
        · exact .inl (.inl h)
        · exact .inr (List.mem_of_mem_take (List.mem_of_mem_drop h))
      · rcases insertLoop_values now ss _ x h with h | h
        · exact .inl (.inr h)
        · exact .inr (List.mem_of_mem_drop h)

theorem insertChunk_kept (f : Faults) (now : Nat) (sch : Sched) (st : ListState) (e : List Element) :
    (∀ x ∈ st.content, x ∈ (insertChunk f now sch st e).2.content) ∧
    ∀ x ∈ (insertChunk f now sch st e).2.content, x ∈ st.content ∨ x ∈ e := by
  have hsc : (insertChunk f now sch st e).2.scores.segs = settle (fun i => f.readScores i 0) f.saveScores st.scores.segs
      (Segments.insert now sch st.scores.segs (Elements.sortSlice e)).1 := by
    unfold insertChunk
    simp only []
    split
    · rfl
    · split <;> rfl
  unfold ListState.content
  rw [hsc]
  constructor
  · exact each_subset (each_settle (R := fun a b => ∀ x ∈ a, x ∈ b) (fun _ _ h => h) (insertLoop_each now _ _) _ _)
  · apply settle_all (Q := fun x => x ∈ allElems st.scores.segs ∨ x ∈ e)
    · exact fun x hx => .inl hx
    · intro x hx
      rcases insertLoop_values now _ _ x hx with h | h
      · exact .inl h
      · exact .inr ((sortSlice_perm _).mem_iff.1 ((sortSlice_perm _).mem_iff.1 h))

theorem insertChunks_kept (fs : Nat → Faults) (now : Nat) (sch : Sched) : ∀ (cs : List (List Element)) (k : Nat) (st : ListState),
    (∀ x ∈ st.content, x ∈ (insertChunks fs now sch k st cs).2.content) ∧
    ∀ x ∈ (insertChunks fs now sch k st cs).2.content, x ∈ st.content ∨ x ∈ cs.flatten
  | [], _, _ => ⟨fun _ h => h, fun _ h => .inl h⟩
  | c :: cs, k, st => by
    obtain ⟨a1, a2⟩ := insertChunk_kept (fs k) now sch st c
    unfold insertChunks
    simp only [List.flatten_cons, List.mem_append]
    split
    · obtain ⟨b1, b2⟩ := insertChunks_kept fs now sch cs (k + 1) (insertChunk (fs k) now sch st c).2
      refine ⟨fun x hx => b1 x (a1 x hx), fun x hx => ?_⟩
      rcases b2 x hx with h | h
      · rcases a2 x h with h | h
        · exact .inl h
        · exact .inr (.inl h)
      · exact .inr (.inr h)
    · exact ⟨a1, fun x hx => (a2 x hx).elim .inl fun h => .inr (.inl h)⟩

/-! ### Delete -/

theorem delete_scores (f : Faults) (now : Nat) (sch : Sched) (st : ListState) (ids : List Nat) :
    (delete f now sch st ids).2.scores.segs = st.scores.segs ∨
    (delete f now sch st ids).2.scores.segs = settle (fun i => f.readScores i 0) f.saveScores st.scores.segs
      (deleteElementsIdx now sch st.scores.segs (getIndexElements sch st ids)).1 := by
  unfold delete
  simp only []
  split
  · exact .inl rfl
  · right
    split
    · rfl
    · split
      · rfl
      · split <;> rfl

/-- A deletion that is reported as done has removed the elements, even if the index could not be saved. -/
theorem delete_ok {f : Faults} {now : Nat} {sch : Sched} {st : ListState} {ids : List Nat}
    (h : (delete f now sch st ids).1 = true) :
    (delete f now sch st ids).2.scores.segs = (Lists.deleteElements now sch st ids).scores.segs := by
  have hsc : (Lists.deleteElements now sch st ids).scores.segs =
      (deleteElementsIdx now sch st.scores.segs (getIndexElements sch st ids)).1 := by
    unfold Lists.deleteElements
    simp only []
    split <;> rfl
  rw [hsc]
  unfold delete at h ⊢
  simp only [] at h ⊢
  split at h
  · cases h
  · rename_i h0
    rw [if_neg h0]
    split at h
    · cases h
    · rename_i h1
      rw [if_neg h1]
      simp only [Bool.or_eq_true, List.any_eq_true, not_or, not_exists, not_and, Bool.not_eq_true] at h1
      have := settle_eq (u := fun i => f.readScores i 0) (v := f.saveScores)
        (touched := touchedIdx st.scores.segs (getIndexElements sch st ids))
        (fun i hi => by simpa using h1.1 i hi) (deleteIdx_untouched now sch st.scores.segs (getIndexElements sch st ids))
      split
      · exact this
      · split <;> exact this

/-- If also the index can be saved, it is the deletion without failures. -/
theorem delete_whole {f : Faults} {now : Nat} {sch : Sched} {st : ListState} {ids : List Nat}
    (hi : ∀ i, f.saveIndex i = false) (h : (delete f now sch st ids).1 = true) :
    (delete f now sch st ids).2 = Lists.deleteElements now sch st ids := by
  have hsc := delete_ok h
  unfold delete Lists.deleteElements at *
  simp only [] at h hsc ⊢
  split at h
  · cases h
  · rename_i h0
    rw [if_neg h0] at hsc ⊢
    split at h
    · cases h
    · rename_i h1
      rw [if_neg h1] at hsc ⊢
      split at h
      · rename_i h2
        rw [if_pos h2, if_pos h2] at hsc
        rw [if_pos h2, if_pos h2]
        simp only [] at hsc ⊢
        rw [hsc]
      · rename_i h2
        split at h
        · cases h
        · rename_i h3
          rw [if_neg h2, if_neg h3, if_neg h2] at hsc
          rw [if_neg h2, if_neg h3, if_neg h2]
          simp only [] at hsc ⊢
          simp only [Bool.or_eq_true, List.any_eq_true, not_or, not_exists, not_and, Bool.not_eq_true] at h3
          rw [hsc]
          have := settle_eq (u := fun i => f.readIndex i 1) (v := f.saveIndex)
            (touched := touched 0 st.index.segs (deleteElementsIdx now sch st.scores.segs (getIndexElements sch st ids)).2)
            (fun i hm => ⟨h3.1 i hm, hi i⟩) (fun j hj => deleteLoop_untouched now _ 0 _ j (by rw [Nat.zero_add]; exact hj))
          rw [this]

theorem deleteIdx_ids {sch : Sched} {st : ListState} (h : ListOK st) {ids : List Nat} (hid : ∀ v ∈ ids, v < 2 ^ 64) {i id : Nat}
    (hm : id ∈ idsAt st.scores.segs (getIndexElements sch st ids) i) : id ∈ ids := by
  unfold idsAt at hm
  obtain ⟨e, he, rfl⟩ := List.mem_map.1 hm
  have := (List.mem_filter.1 ((getIndexElements_spec h.isIndex hid).mem_iff.1 (List.mem_filter.1 he).1)).2
  simpa using this

theorem deleteIdx_each {R : List Element → List Element → Prop} (hr : ∀ a, R a a) (now : Nat) (sch : Sched) (segs : List Seg)
    (idx : List Element) (h : ∀ i l, R l (l.filter fun e => !((idsAt segs idx i).contains e.id))) :
    Each (fun a b => R a.elems b.elems) segs (deleteElementsIdx now sch segs idx).1 := by
  unfold deleteElementsIdx
  apply each_mapFrom
  intro i a
  unfold deleteIdxAt
  simp only []
  split
  · exact hr _
  · exact h i a.elems

/-- Whatever fails, a deletion keeps the elements that are not named and adds none. -/
theorem delete_kept {st : ListState} (h : ListOK st) {ids : List Nat} (hid : ∀ v ∈ ids, v < 2 ^ 64) (f : Faults) (now : Nat)
    (sch : Sched) :
    (delete f now sch st ids).2.content.filter (fun e => decide (e.id ∉ ids)) =
      st.content.filter (fun e => decide (e.id ∉ ids)) ∧
    ∀ x ∈ (delete f now sch st ids).2.content, x ∈ st.content := by
  have key : ∀ segs, segs = st.scores.segs ∨ segs = settle (fun i => f.readScores i 0) f.saveScores st.scores.segs
      (deleteElementsIdx now sch st.scores.segs (getIndexElements sch st ids)).1 →
      (allElems segs).filter (fun e => decide (e.id ∉ ids)) =
        (allElems st.scores.segs).filter (fun e => decide (e.id ∉ ids)) ∧
      ∀ x ∈ allElems segs, x ∈ allElems st.scores.segs := by
    rintro segs (rfl | rfl)
    · exact ⟨rfl, fun _ hx => hx⟩
    · constructor
      · apply each_filter
        refine each_settle (R := fun a b => b.filter (fun e => decide (e.id ∉ ids)) = a.filter fun e => decide (e.id ∉ ids))
          (fun _ => rfl) (deleteIdx_each (R := fun a b => b.filter (fun e => decide (e.id ∉ ids)) =
            a.filter fun e => decide (e.id ∉ ids)) (fun _ => rfl) now sch _ _ ?_) _ _
        intro i l
        rw [List.filter_filter]
        apply List.filter_congr
        intro x _
        rw [Bool.eq_iff_iff]
        simp only [Bool.and_eq_true, decide_eq_true_eq, Bool.not_eq_true', List.contains_eq_mem, decide_eq_false_iff_not]
        exact ⟨fun h => h.1, fun hx => ⟨hx, fun hm => hx (deleteIdx_ids h hid hm)⟩⟩
      · apply settle_all (Q := fun x => x ∈ allElems st.scores.segs) (fun _ hx => hx)
        intro x hx
        have := deleteIdx_each (R := fun a b => ∀ x ∈ b, x ∈ a) (fun _ _ h => h) now sch st.scores.segs
          (getIndexElements sch st ids) (fun i l x hx => (List.mem_filter.1 hx).1)
        obtain ⟨s, hs, hxs⟩ := mem_allElems.1 hx
        obtain ⟨i, hi⟩ := List.mem_iff_getElem?.1 hs
        have hlt : i < st.scores.segs.length := by
          have h1 := (List.getElem?_eq_some_iff.1 hi).1
          have h2 := this.1
          omega
        exact mem_allElems.2 ⟨_, List.getElem_mem hlt, this.2 i _ s (List.getElem?_eq_getElem hlt) hi x hxs⟩
  exact key _ (delete_scores f now sch st ids)

/-! ### Entries of the index without an element -/

theorem elements_delete_none {id : Nat} : ∀ {l : List Element}, (∀ y ∈ l, y.id ≠ id) → Elements.delete l id = none
  | [], _ => rfl
  | a :: l, h => by
    have ha := h a List.mem_cons_self
    unfold Elements.delete
    rw [if_neg (by simpa using ha), elements_delete_none fun y hy => h y (List.mem_cons_of_mem _ hy)]
    rfl

theorem updateIn_missing {now : Nat} {e : Element} {l : List Element} (h : ∀ y ∈ l, y.id ≠ e.id) : updateIn now e l = l := by
  have hid : (Elements.touch now e).id = e.id := by
    rw [touch_eq_stamp]; unfold stamp; split <;> rfl
  have : Elements.update now l e = none := by
    unfold Elements.update
    simp only [hid, elements_delete_none h]
  unfold updateIn
  rw [this]

/-- An update of an element that is in no segment, but whose entry in the index names its segment, does nothing. -/
theorem update_blocked_segs {now : Nat} {sch : Sched} {st : ListState} (hs : SegsOK st.scores.segs) (hi : IsIndex st.index.segs)
    {e ex : Element} (he : Storable e) (hex : ex ∈ allElems st.index.segs) (hid : ex.id = e.id) {p : Nat} {g : Seg}
    (hg : st.scores.segs[p]? = some g) (hr : InRange g e) (hgid : g.id < 2 ^ 32) (htie : ex.tie = g.id)
    (hno : ∀ y ∈ st.content, y.id ≠ e.id) :
    (Lists.updateElements now sch st [e]).scores.segs = refresh now (loadedScores st [e]) st.scores.segs ∧
    (Lists.updateElements now sch st [e]).index.segs = refresh now (loadedIndex st [e]) st.index.segs := by
  have hdst : sch.order (splitElementsIdx 0 st.scores.segs (Elements.sortSlice [e])) = [(p, [e])] := by
    rw [splitElementsIdx_one hs he hg hr]
    exact List.perm_singleton.1 (sch.perm _)
  have hids : updateIDs [e] = [e.id] := by
    have hss : Elements.sortSlice [e] = [e] := List.perm_singleton.1 (sortSlice_perm [e])
    unfold updateIDs
    rw [hss]
    rfl
  have hloc := (locate_spec hi (ids := updateIDs [e]) (id := e.id)
    (fun v hv => by rw [hids] at hv; cases List.mem_singleton.1 hv; exact he.id) (by rw [hids]; exact List.mem_cons_self)).1
  unfold Lists.updateElements
  simp only []
  rw [hdst]
  unfold updateAll
  simp only [List.foldl_cons, List.foldl_nil]
  have hsome := (hloc.ex ex).2 ⟨hex, hid⟩
  have : located (locate st.index.segs (updateIDs [e])) e.id =
      ((located (locate st.index.segs (updateIDs [e])) e.id).1, some ex) := by
    rw [← hsome]
  unfold Lists.updateOne
  simp only []
  rw [this]
  simp only [hg, Option.map_some, Option.getD_some, Nat.mod_eq_of_lt hgid, htie, beq_self_eq_true, if_true]
  refine ⟨congrArg _ (List.ext_getElem? fun j => ?_), trivial⟩
  unfold onElems
  rw [modifyAt_getElem?]
  cases ha : st.scores.segs[j]? with
  | none => rfl
  | some a =>
    simp only [Option.map_some, Option.some.injEq]
    split
    · rw [updateIn_missing fun y hy => hno y (mem_allElems.2 ⟨a, List.mem_of_getElem? ha, hy⟩)]
    · rfl

theorem update_blocked {now : Nat} {sch : Sched} {st : ListState} (hs : SegsOK st.scores.segs) (hi : IsIndex st.index.segs)
    {e ex : Element} (he : Storable e) (hex : ex ∈ allElems st.index.segs) (hid : ex.id = e.id) {p : Nat} {g : Seg}
    (hg : st.scores.segs[p]? = some g) (hr : InRange g e) (hgid : g.id < 2 ^ 32) (htie : ex.tie = g.id)
    (hno : ∀ y ∈ st.content, y.id ≠ e.id) : (Lists.updateElements now sch st [e]).content = st.content := by
  unfold ListState.content
  rw [(update_blocked_segs hs hi he hex hid hg hr hgid htie hno).1, refresh_content]

/-- A deletion that is cancelled once the elements are deleted: the scores of a complete deletion, the old index. -/
theorem delete_cancelled (now : Nat) (sch : Sched) (st : ListState) (ids : List Nat) :
    delete { noFaults with cancelled := fun n => n == 1 } now sch st ids =
      (false, { st with scores := (Lists.deleteElements now sch st ids).scores }) := by
  have h0 : ∀ l : List Nat, (l.any fun _ => false) = false := fun l => by simp
  unfold delete
  simp only [noFaults, h0, Bool.or_false, Bool.false_or, beq_self_eq_true, if_true]
  rw [if_neg (by decide)]
  have : settle (fun _ => false) (fun _ => false) st.scores.segs
      (deleteElementsIdx now sch st.scores.segs (getIndexElements sch st ids)).1 =
      (deleteElementsIdx now sch st.scores.segs (getIndexElements sch st ids)).1 :=
    settle_eq (touched := touchedIdx st.scores.segs (getIndexElements sch st ids)) (fun _ _ => ⟨rfl, rfl⟩)
      (deleteIdx_untouched now sch st.scores.segs (getIndexElements sch st ids))
  rw [this]
  unfold Lists.deleteElements
  simp only []
  split <;> rfl

/-! ### Nothing fails -/

theorem delete_noFaults (now : Nat) (sch : Sched) (st : ListState) (ids : List Nat) :
    delete noFaults now sch st ids = (true, Lists.deleteElements now sch st ids) := by
  have h0 : ∀ l : List Nat, (l.any fun _ => false) = false := fun l => by simp
  unfold delete Lists.deleteElements
  simp only [noFaults, h0, Bool.or_false, settle_none, Bool.not_false]
  rw [if_neg (by decide), if_neg (by decide)]
  split
  · rfl
  · rw [if_neg (by decide)]

theorem insertChunk_noFaults (now : Nat) (sch : Sched) (st : ListState) (e : List Element) :
    insertChunk noFaults now sch st e = (true, Lists.insertChunk now sch st e) := by
  have h0 : ∀ l : List Nat, (l.any fun _ => false) = false := fun l => by simp
  have h1 : (insertChunk noFaults now sch st e).1 = true := by
    unfold insertChunk
    simp only [noFaults, h0, Bool.or_false]
    rw [if_neg (by decide), if_neg (by decide)]
  exact Prod.ext h1 (insertChunk_ok h1)

theorem insert_noFaults (now : Nat) (sch : Sched) (st : ListState) (e : List Element) :
    insert (fun _ => noFaults) now sch st e = (Lists.insert now sch st e).map fun st' => (true, st') := by
  have key : ∀ (cs : List (List Element)) (k : Nat) (st : ListState), insertChunks (fun _ => noFaults) now sch k st cs =
      (true, cs.foldl (Lists.insertChunk now sch) st) := by
    intro cs
    induction cs with
    | nil => intro k st; rfl
    | cons c cs ih =>
      intro k st
      unfold insertChunks
      simp only [insertChunk_noFaults, if_true, ih, List.foldl_cons]
  unfold insert Lists.insert
  rw [Option.map_map]
  congr 1
  funext cs
  exact key cs 0 st

end RankDB.Faults

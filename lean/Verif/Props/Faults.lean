import Verif.Proofs.Faults
import Verif.Props.Lists
/-
Property C88: updates, deletions and insertions during which reads or writes of the storage fail, or which are
cancelled. `Faults` says what fails during a call, `update`, `delete` and `insert` return whether the call reports
success and the list as later calls see it. Specification: `Verif/Spec/Lists.lean`.
-/
namespace RankDB.Props
open Spec Faults

/-! ### Updates -/

/-- An update that reports success has updated or added the elements, if the elements could be read and saved.
Missing: the same if they could not, which is false (`C88_update_dropped`, `C88_update_twice`, `C88_update_lost`). -/
theorem C88_update_partial (f : Faults) (now : Nat) (sch : Sched) (st : ListState) (es : List Element) (h : ListOK st)
    (hes : ∀ e ∈ es, Storable e) (hd : DistinctIDs es) (hnow : now < 2 ^ 32 - 1)
    (hread : ∀ i t, f.readScores i t = false) (hsave : ∀ i, f.saveScores i = false) (hindex : ∀ i, f.saveIndex i = false)
    (hack : (update f now sch st es).1 = true) :
    ListOK (update f now sch st es).2 ∧ (update f now sch st es).2.content = ranking (upsert st.content (es.map (stamp now))) := by
  rw [update_ok hread hsave hindex now sch st es hack]
  exact C16_update_upserts now sch st es h hes hd hnow

/-- An update that is refused because the index could not be read or the request was cancelled has changed nothing. -/
theorem C88_update_refused (f : Faults) (now : Nat) (sch : Sched) (st : ListState) (es : List Element)
    (hlate : f.late = false) (hack : (update f now sch st es).1 = false) : (update f now sch st es).2 = st := by
  unfold update at hack ⊢
  split
  · rfl
  · rename_i hc
    rw [if_neg hc] at hack
    simp only [hlate, Bool.not_false] at hack
    cases hack

/-- Whatever fails, an update keeps all elements whose IDs are not given, as they are and in their order. -/
theorem C88_update_others (f : Faults) (now : Nat) (sch : Sched) (st : ListState) (es : List Element) :
    (update f now sch st es).2.content.filter (fun e => decide (e.id ∉ es.map (·.id))) =
      st.content.filter fun e => decide (e.id ∉ es.map (·.id)) :=
  update_unnamed f now sch st es

/-- Whatever fails, every element after an update is an old element or one of the update: none has the score of one
and the payload of another. -/
theorem C88_update_values (f : Faults) (now : Nat) (sch : Sched) (st : ListState) (es : List Element) :
    ∀ x ∈ (update f now sch st es).2.content, x ∈ st.content ∨ x ∈ es.map (stamp now) :=
  update_values f now sch st es

/-- When nothing fails, updates, deletions and insertions report success and are those without failures. -/
theorem C88_no_faults (now : Nat) (sch : Sched) (st : ListState) (es : List Element) (ids : List Nat) :
    update noFaults now sch st es = (true, Lists.updateElements now sch st es) ∧
    delete noFaults now sch st ids = (true, Lists.deleteElements now sch st ids) ∧
    insert (fun _ => noFaults) now sch st es = (Lists.insert now sch st es).map fun st' => (true, st') := by
  refine ⟨?_, delete_noFaults now sch st ids, insert_noFaults now sch st es⟩
  have hack : (update noFaults now sch st es).1 = true := by
    unfold update
    rw [if_neg (by simp [noFaults])]
    rfl
  exact Prod.ext hack (update_ok (fun _ _ => rfl) (fun _ => rfl) (fun _ => rfl) now sch st es hack)

/-- The index cannot be read: the update is refused. The context ends while it is read: the same. -/
example : (update { noFaults with readIndex := fun i _ => i == 1 } 11 .inOrder exList [⟨12, 6, [], 0, 5⟩]).1 = false ∧
    (update { noFaults with cancelled := fun n => n == 0 } 11 .inOrder exList [⟨12, 6, [], 0, 5⟩]).1 = false ∧
    (update { noFaults with readIndex := fun i _ => i == 0 } 11 .inOrder exList [⟨12, 6, [], 0, 5⟩]).1 = true ∧
    (update { noFaults with readIndex := fun i _ => i == 0 } 11 .inOrder exList [⟨12, 6, [], 0, 5⟩]).2.content.map (·.id) =
      [3, 1, 2, 9, 5, 8, 7, 6, 4] := by decide +kernel

/-- The code drops updates: if the segment to which an element belongs cannot be read, the update is reported as
done and no element has changed, for every list, element and time. -/
theorem C88_update_dropped (now : Nat) (sch : Sched) (st : ListState) (e : Element) (p : Nat) (g : Seg) (h : ListOK st)
    (he : Storable e) (hg : st.scores.segs[p]? = some g) (hr : InRange g e) :
    (update { noFaults with readScores := fun i _ => i == p } now sch st [e]).1 = true ∧
    (update { noFaults with readScores := fun i _ => i == p } now sch st [e]).2.content = st.content := by
  refine ⟨?_, update_dropped h he hg hr (fun t => by simp)⟩
  unfold update
  rw [if_neg (by simp [noFaults])]
  rfl

/-- Score 12 belongs to the last segment. -/
example : ∃ g, exList.scores.segs[2]? = some g ∧ InRange g ⟨12, 6, [], 0, 5⟩ ∧ Storable ⟨12, 6, [], 0, 5⟩ ∧ ListOK exList :=
  ⟨exList.scores.segs[2]?.getD default, by decide +kernel, by decide +kernel, by decide +kernel, exList_ok⟩

/-- The code can store an element twice: if the segment from which the element must be removed cannot be read, the
update is reported as done and the element is in the list with both scores. -/
theorem C88_update_twice :
    ∃ (f : Faults) (now : Nat) (sch : Sched) (st : ListState) (e : Element), ListOK st ∧ Storable e ∧
      f.saveScores = noFaults.saveScores ∧ f.saveIndex = noFaults.saveIndex ∧
      (update f now sch st [e]).1 = true ∧
      (update f now sch st [e]).2.content.filter (·.id == e.id) =
        st.content.filter (·.id == e.id) ++ [e] ∧
      (st.content.filter (·.id == e.id)).length = 1 :=
  ⟨{ noFaults with readScores := fun i _ => i == 0 }, 11, .inOrder, exList, ⟨12, 6, [], 0, 5⟩, exList_ok, by decide +kernel,
    rfl, rfl, by decide +kernel, by decide +kernel, by decide +kernel⟩

/-- The code can lose an element: if the segment to which the element moves cannot be saved, the update is reported
as done and the element is not in the list. -/
theorem C88_update_lost :
    ∃ (f : Faults) (now : Nat) (sch : Sched) (st : ListState) (e : Element), ListOK st ∧ Storable e ∧
      f.readScores = noFaults.readScores ∧ f.saveIndex = noFaults.saveIndex ∧
      (update f now sch st [e]).1 = true ∧ (∃ x ∈ st.content, x.id = e.id) ∧
      ∀ x ∈ (update f now sch st [e]).2.content, x.id ≠ e.id :=
  ⟨{ noFaults with saveScores := fun i => i == 2 }, 11, .inOrder, exList, ⟨12, 6, [], 0, 5⟩, exList_ok, by decide +kernel,
    rfl, rfl, by decide +kernel, by decide +kernel, by decide +kernel⟩

/-! ### Insertions -/

/-- An insertion that reports success has inserted the elements, whatever failed. -/
theorem C88_insert (fs : Nat → Faults) (now : Nat) (sch : Sched) (st st' : ListState) (l : List Element) (h : ListOK st)
    (hl : ∀ e ∈ l, Storable e) (hd : DistinctIDs l) (hnew : ∀ e ∈ l, ∀ x ∈ st.content, e.id ≠ x.id)
    (hi : insert fs now sch st l = some (true, st')) : ListOK st' ∧ st'.content = ranking (st.content ++ l) := by
  unfold Faults.insert at hi
  cases hc : Lists.chunks (Lists.insertLimit st) l.length l with
  | none => rw [hc] at hi; cases hi
  | some cs =>
    rw [hc, Option.map_some, Option.some.injEq] at hi
    have := insertChunks_ok (fs := fs) (now := now) (sch := sch) (cs := cs) (k := 0) (st := st) (by rw [hi])
    rw [hi] at this
    refine C15_insert now sch st st' l h hl hd hnew ?_
    unfold Lists.insert
    rw [hc, Option.map_some]
    exact congrArg some this.symm

/-- Whatever fails and whatever it reports, an insertion keeps all elements and adds only given ones. -/
theorem C88_insert_others (fs : Nat → Faults) (now : Nat) (sch : Sched) (st : ListState) (l : List Element)
    (r : Bool × ListState) (hi : insert fs now sch st l = some r) :
    (∀ x ∈ st.content, x ∈ r.2.content) ∧ ∀ x ∈ r.2.content, x ∈ st.content ∨ x ∈ l := by
  unfold Faults.insert at hi
  cases hc : Lists.chunks (Lists.insertLimit st) l.length l with
  | none => rw [hc] at hi; cases hi
  | some cs =>
    rw [hc, Option.map_some, Option.some.injEq] at hi
    subst hi
    rw [← Lists.chunks_flatten hc]
    exact insertChunks_kept fs now sch cs 0 st

/-- One of three elements belongs to a segment that cannot be saved: the insertion is refused, and has inserted
the others. -/
example : (insert (fun _ => { noFaults with saveScores := fun i => i == 2 }) 11 .inOrder exList
      [⟨80, 20, [], 0, 5⟩, ⟨12, 21, [], 0, 5⟩, ⟨40, 22, [], 0, 5⟩]).map
      (fun r => (r.1, r.2.content.map (·.id))) = some (false, [6, 20, 3, 1, 2, 22, 9, 5, 8, 7, 4]) ∧
    (insert (fun _ => { noFaults with saveScores := fun i => i == 1 }) 11 .inOrder exList
      [⟨80, 20, [], 0, 5⟩, ⟨12, 21, [], 0, 5⟩]).map
      (fun r => (r.1, r.2.content.map (·.id))) = some (true, [6, 20, 3, 1, 2, 9, 5, 8, 7, 21, 4]) := by decide +kernel

/-! ### Deletions -/

/-- A deletion that reports success has removed exactly the named elements, whatever failed. -/
theorem C88_delete (f : Faults) (now : Nat) (sch : Sched) (st : ListState) (ids : List Nat) (h : ListOK st)
    (hid : ∀ v ∈ ids, v < 2 ^ 64) (hack : (delete f now sch st ids).1 = true) :
    (delete f now sch st ids).2.content = st.content.filter (fun e => decide (e.id ∉ ids)) := by
  unfold ListState.content
  rw [delete_ok hack]
  exact (C17_delete now sch st ids h hid).2

/-- If the index could be saved, the list is well-formed after a deletion that reports success, so that everything
that is proved about well-formed lists holds for later calls. -/
theorem C88_delete_whole (f : Faults) (now : Nat) (sch : Sched) (st : ListState) (ids : List Nat) (h : ListOK st)
    (hid : ∀ v ∈ ids, v < 2 ^ 64) (hindex : ∀ i, f.saveIndex i = false) (hack : (delete f now sch st ids).1 = true) :
    ListOK (delete f now sch st ids).2 := by
  rw [delete_whole hindex hack]
  exact (C17_delete now sch st ids h hid).1

/-- Whatever fails and whatever it reports, a deletion keeps the elements that are not named and adds none. -/
theorem C88_delete_others (f : Faults) (now : Nat) (sch : Sched) (st : ListState) (ids : List Nat) (h : ListOK st)
    (hid : ∀ v ∈ ids, v < 2 ^ 64) :
    (delete f now sch st ids).2.content.filter (fun e => decide (e.id ∉ ids)) =
      st.content.filter (fun e => decide (e.id ∉ ids)) ∧
    ∀ x ∈ (delete f now sch st ids).2.content, x ∈ st.content :=
  delete_kept h hid f now sch

/-- A segment of the scores cannot be read: the deletion is refused, the elements of other segments are deleted. The
index cannot be saved: the deletion is reported as done. -/
example : ((delete { noFaults with readScores := fun i _ => i == 0 } 11 .inOrder exList [6, 4]).1 = false ∧
      (delete { noFaults with readScores := fun i _ => i == 0 } 11 .inOrder exList [6, 4]).2.content.map (·.id) =
        [6, 3, 1, 2, 9, 5, 8, 7]) ∧
    (delete { noFaults with saveIndex := fun _ => true } 11 .inOrder exList [6, 4]).1 = true := by decide +kernel

/-- The code leaves an entry in the index when the client of a deletion goes away between the deletion of the
elements and that of their entries. From then on updates of the element that belong to the same segment do nothing,
although nothing fails and they are reported as done: for every list, every element of it and every such update. -/
theorem C88_delete_blocks (now now' : Nat) (sch sch' : Sched) (st : ListState) (g : Seg) (x e : Element) (h : ListOK st)
    (hg : g ∈ st.scores.segs) (hx : x ∈ g.elems) (he : Storable e) (hid : e.id = x.id) (hr : InRange g e) :
    let r := delete { noFaults with cancelled := fun n => n == 1 } now sch st [x.id]
    r.1 = false ∧ (∀ y ∈ r.2.content, y.id ≠ e.id) ∧
      (update noFaults now' sch' r.2 [e]).1 = true ∧
      (update noFaults now' sch' r.2 [e]).2.content = r.2.content := by
  have hidx : ∀ v ∈ [x.id], v < 2 ^ 64 := fun v hv => by cases List.mem_singleton.1 hv; rw [← hid]; exact he.id
  obtain ⟨hok, hc⟩ := C17_delete now sch st [x.id] h hidx
  have hst : ∃ p : Nat, ∃ g' : Seg, (Lists.deleteElements now sch st [x.id]).scores.segs[p]? = some g' ∧ InRange g' e ∧ g'.id = g.id := by
    obtain ⟨p, hp⟩ := List.mem_iff_getElem?.1 hg
    have hsc : (Lists.deleteElements now sch st [x.id]).scores.segs =
        (Segments.deleteElementsIdx now sch st.scores.segs (Lists.getIndexElements sch st [x.id])).1 := by
      unfold Lists.deleteElements
      simp only []
      split <;> rfl
    rw [hsc]
    unfold Segments.deleteElementsIdx
    simp only []
    refine ⟨p, Segments.deleteIdxAt now st.scores.segs (Lists.getIndexElements sch st [x.id]) p g, ?_, ?_⟩
    · rw [mapFrom_getElem?, hp]; simp
    · unfold Segments.deleteIdxAt
      simp only []
      split
      · exact ⟨hr, rfl⟩
      · exact ⟨hr, rfl⟩
  obtain ⟨p, g', hp, hr', hgid⟩ := hst
  simp only [delete_cancelled, (C88_no_faults now' sch' _ [e] []).1]
  have hno : ∀ y ∈ (Lists.deleteElements now sch st [x.id]).content, y.id ≠ e.id := by
    intro y hy
    rw [hc] at hy
    have := (List.mem_filter.1 hy).2
    rw [hid]
    simpa using this
  have hpl : (x.id, g.id) ∈ placement st.scores.segs :=
    List.mem_flatMap.2 ⟨g, hg, List.mem_map.2 ⟨x, hx, rfl⟩⟩
  obtain ⟨ex, hex, hexe⟩ := List.mem_map.1 (h.link.complete.mem_iff.2 hpl)
  simp only [Prod.mk.injEq] at hexe
  refine ⟨trivial, hno, trivial, ?_⟩
  exact update_blocked (st := { st with scores := (Lists.deleteElements now sch st [x.id]).scores }) hok.scores h.isIndex he hex
    (hexe.1.trans hid.symm) hp hr' (by rw [hgid]; exact Nat.lt_of_lt_of_le (h.scoresIDs.1 g hg).2 h.scoresIDs.2) (hexe.2.trans hgid.symm) hno

/-- Element 6 is in the first segment, which has scores from 50. -/
example : ∃ g ∈ exList.scores.segs, ⟨90, 6, [], 0, 7⟩ ∈ g.elems ∧ InRange g ⟨91, 6, [], 0, 5⟩ ∧ ListOK exList :=
  ⟨exList.scores.segs[0]?.getD default, by decide +kernel, by decide +kernel, by decide +kernel, exList_ok⟩

/-- Repeating the deletion does not help, since it finds no element to delete. The same happens when the index could
not be saved, and then the deletion itself is reported as done. -/
theorem C88_delete_blocks_on :
    ∃ (st : ListState) (e : Element) (f g : Faults), ListOK st ∧ Storable e ∧
      (let d := delete f 11 .inOrder st [e.id]
       let d' := delete noFaults 12 .inOrder d.2 [e.id]
       let u := update noFaults 13 .inOrder d'.2 [e]
       d.1 = false ∧ d'.1 = true ∧ u.1 = true ∧ ∀ y ∈ u.2.content, y.id ≠ e.id) ∧
      (let d := delete g 11 .inOrder st [e.id]
       let u := update noFaults 13 .inOrder d.2 [e]
       d.1 = true ∧ u.1 = true ∧ ∀ y ∈ u.2.content, y.id ≠ e.id) :=
  ⟨exList, ⟨91, 6, [], 0, 5⟩, { noFaults with cancelled := fun n => n == 1 }, { noFaults with saveIndex := fun _ => true },
    exList_ok, by decide +kernel, by decide +kernel, by decide +kernel⟩

end RankDB.Props

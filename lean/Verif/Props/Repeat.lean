import Verif.Proofs.Repeat
import Verif.Props.Faults
import Verif.Props.Crash
/-
Property C111: repeating a request that failed, or whose answer was lost. Specification: `Verif/Spec/Repeat.lean`.
-/
namespace RankDB.Props
open Spec Faults Disk

/-! ### Deletions -/

/-- However often a deletion was attempted and whatever failed, once it reports success exactly the named elements are
gone, as if the first attempt had succeeded. -/
theorem C111_delete_retry (st : ListState) (ids : List Nat) (tries : List Attempt) (last : Attempt) (h : ListOK st)
    (hid : ∀ v ∈ ids, v < 2 ^ 64)
    (hack : (delete last.faults last.now last.sch (deleteTries ids tries st) ids).1 = true) :
    (delete last.faults last.now last.sch (deleteTries ids tries st) ids).2.content =
      st.content.filter (fun e => decide (e.id ∉ ids)) := by
  obtain ⟨hl, hc⟩ := left_delete h hid (left_tries h hid tries (Left.refl st ids)) last.faults last.now last.sch
  have hk := each_filter hl.kept
  rw [← List.filter_eq_self.2 (fun x hx => decide_eq_true (hc hack x hx))]
  exact hk

/-- Until then no other element is lost or changed, and none is added. -/
theorem C111_delete_meanwhile (st : ListState) (ids : List Nat) (tries : List Attempt) (h : ListOK st)
    (hid : ∀ v ∈ ids, v < 2 ^ 64) :
    (deleteTries ids tries st).content.filter (fun e => decide (e.id ∉ ids)) =
      st.content.filter (fun e => decide (e.id ∉ ids)) ∧
    ∀ x ∈ (deleteTries ids tries st).content, x ∈ st.content :=
  let hl := left_tries h hid tries (Left.refl st ids)
  ⟨each_filter hl.kept, each_superset hl.sub⟩

/-- Two refused attempts and a third one. -/
def exTries : List Attempt :=
  [⟨{ noFaults with readScores := fun i _ => i == 0 }, 11, .inOrder⟩, ⟨{ noFaults with cancelled := fun n => n == 1 }, 12, .inOrder⟩]

example : ListOK exList ∧ (deleteTries [6, 4, 9] (exTries.take 1) exList).content.map (·.id) = [6, 3, 1, 2, 5, 8, 7] ∧
    (delete noFaults 13 .inOrder (deleteTries [6, 4, 9] exTries exList) [6, 4, 9]).1 = true ∧
    (delete noFaults 13 .inOrder (deleteTries [6, 4, 9] exTries exList) [6, 4, 9]).2.content.map (·.id) = [3, 1, 2, 5, 8, 7] :=
  ⟨exList_ok, by decide +kernel, by decide +kernel, by decide +kernel⟩

/-! ### Updates -/

theorem upsert_congr {c c' es : List Element} (now : Nat)
    (h : c'.filter (fun e => decide (e.id ∉ es.map (·.id))) = c.filter fun e => decide (e.id ∉ es.map (·.id))) :
    upsert c' (es.map (stamp now)) = upsert c (es.map (stamp now)) := by
  have hm : (es.map (stamp now)).map (·.id) = es.map (·.id) := by
    rw [List.map_map]
    apply List.map_congr_left
    intro x _
    show (stamp now x).id = x.id
    unfold stamp
    split <;> rfl
  have hp : ∀ l : List Element, (l.filter fun e => !(((es.map (stamp now)).map (·.id)).contains e.id)) =
      l.filter fun e => decide (e.id ∉ es.map (·.id)) := by
    intro l
    apply List.filter_congr
    intro x _
    rw [hm, Bool.eq_iff_iff]
    simp
  unfold upsert
  rw [hp, hp, h]

theorem updateTries_ok {es : List Element} (hes : ∀ e ∈ es, Storable e) (hd : DistinctIDs es) :
    ∀ (tries : List Attempt) (st : ListState), ListOK st → (∀ t ∈ tries, t.Stores ∧ t.now < 2 ^ 32 - 1) →
    ListOK (updateTries es tries st) ∧
    (updateTries es tries st).content.filter (fun e => decide (e.id ∉ es.map (·.id))) =
      st.content.filter fun e => decide (e.id ∉ es.map (·.id))
  | [], _, h, _ => ⟨h, rfl⟩
  | t :: ts, st, h, ht => by
    obtain ⟨⟨h1, h2, h3⟩, h4⟩ := ht t List.mem_cons_self
    have hok : ListOK (update t.faults t.now t.sch st es).2 := by
      rcases update_either h1 h2 h3 t.now t.sch st es with hu | hu
      · rw [hu]; exact h
      · rw [hu]; exact (C16_update_upserts t.now t.sch st es h hes hd h4).1
    obtain ⟨a, b⟩ := updateTries_ok hes hd ts _ hok fun t ht' => ht t (List.mem_cons_of_mem _ ht')
    exact ⟨a, b.trans (update_unnamed t.faults t.now t.sch st es)⟩

/-- However often an update was attempted, once it reports success the list is as if only the last attempt had been made.
Segments of the index may have been unreadable, clients may have gone away and answers may have been lost. Missing: score
segments that cannot be read or segments that cannot be saved, for which it is false (`C111_update_twice_stays`,
`C111_update_lost_stays`). -/
theorem C111_update_retry_partial (st : ListState) (es : List Element) (tries : List Attempt) (last : Attempt) (h : ListOK st)
    (hes : ∀ e ∈ es, Storable e) (hd : DistinctIDs es) (ht : ∀ t ∈ tries, t.Stores ∧ t.now < 2 ^ 32 - 1)
    (hl : last.Stores) (hnow : last.now < 2 ^ 32 - 1)
    (hack : (update last.faults last.now last.sch (updateTries es tries st) es).1 = true) :
    ListOK (update last.faults last.now last.sch (updateTries es tries st) es).2 ∧
    (update last.faults last.now last.sch (updateTries es tries st) es).2.content =
      ranking (upsert st.content (es.map (stamp last.now))) := by
  obtain ⟨h1, h2⟩ := updateTries_ok hes hd tries st h ht
  obtain ⟨h3, h4⟩ := C88_update_partial last.faults last.now last.sch _ es h1 hes hd hnow hl.1 hl.2.1 hl.2.2 hack
  exact ⟨h3, h4.trans (by rw [upsert_congr last.now h2])⟩

/-- The index cannot be read, then the answer is lost after the update was made. -/
example : ListOK exList ∧ (∀ e ∈ exUpdate, Storable e) ∧ DistinctIDs exUpdate ∧
    (let t : List Attempt := [⟨{ noFaults with readIndex := fun i _ => i == 1 }, 11, .inOrder⟩, ⟨{ noFaults with late := true }, 12, .inOrder⟩]
     (∀ x ∈ t, (update x.faults x.now x.sch exList exUpdate).1 = false) ∧
     (updateTries exUpdate t exList).content.map (fun e => (e.id, e.updated)) =
       [(3, 7), (8, 12), (30, 12), (1, 7), (2, 7), (9, 7), (5, 7), (7, 7), (4, 8), (6, 12)] ∧
     (update noFaults 13 .inOrder (updateTries exUpdate t exList) exUpdate).1 = true) ∧
    (⟨noFaults, 13, .inOrder⟩ : Attempt).Stores :=
  ⟨exList_ok, by decide +kernel, by decide +kernel, by decide +kernel, fun _ _ => rfl, fun _ => rfl, fun _ => rfl⟩

/-! ### After a crash -/

theorem filter_eq_of_mem {a b : ListState} (ha : ListOK a) (hb : ListOK b) (P : Element → Bool)
    (h : ∀ x, P x = true → (x ∈ a.content ↔ x ∈ b.content)) : a.content.filter P = b.content.filter P := by
  have hnd : ∀ {s : ListState}, ListOK s → (s.content.filter P).Nodup := fun hs =>
    (Spec.DistinctIDs.nodup hs.scores.distinct).sublist List.filter_sublist
  have hp : (a.content.filter P).Perm (b.content.filter P) := by
    rw [List.perm_ext_iff_of_nodup (hnd ha) (hnd hb)]
    intro x
    rw [List.mem_filter, List.mem_filter]
    exact ⟨fun hx => ⟨(h x hx.2).1 hx.1, hx.2⟩, fun hx => ⟨(h x hx.2).2 hx.1, hx.2⟩⟩
  have hr : ∀ {s : ListState}, ListOK s → Ranked (s.content.filter P) := fun hs =>
    (ranked_of_strict hs.scores.strict).filter _
  have hdd : DistinctIDs (b.content.filter P) := (hb.scores.distinct).sublist (List.filter_sublist.map _)
  exact (eq_ranking hdd (hr ha) hp).trans (eq_ranking hdd (hr hb) (.refl _)).symm

/-- The process crashed at any moment of a deletion, and the list was repaired at the start of the next one. However often
the deletion is attempted from then on, once it reports success exactly the named elements are gone. -/
theorem C111_delete_crash (now now' : Nat) (sch sch' shuffle : Sched) (reduce : Nat → Nat) (d : Store) (ent : Entry)
    (st : ListState) (ids : List Nat) (k : Nat) (hne : ent.scores ≠ ent.index) (h : reload d ent = some st)
    (hok : ListOK st) (hid : ∀ v ∈ ids, v < 2 ^ 64) (hlen : 2 * st.content.length + 2 ≤ 2 ^ 32)
    (hred : ∀ n, 0 < n → 0 < reduce n) (hs : 4 ≤ ent.splitSize) :
    ∃ r, Disk.repair now' sch' shuffle reduce (crash k d (Disk.deleteElements now sch ent st ids)) ent = some r ∧
      ∀ (tries : List Attempt) (last : Attempt),
        (delete last.faults last.now last.sch (deleteTries ids tries r) ids).1 = true →
        (delete last.faults last.now last.sch (deleteTries ids tries r) ids).2.content =
          st.content.filter (fun e => decide (e.id ∉ ids)) := by
  obtain ⟨r, hr, hrok, h1, h2⟩ := C51_delete now now' sch sch' shuffle reduce d ent st ids k hne h hok hid hlen hred hs
  refine ⟨r, hr, fun tries last hack => ?_⟩
  rw [C111_delete_retry r ids tries last hrok hid hack]
  exact filter_eq_of_mem hrok hok _ fun x hx => ⟨h2 x, fun hm => h1 x hm (by simpa using hx)⟩

example : reload exStore exEntry = some exList ∧ ListOK exList ∧ exEntry.scores ≠ exEntry.index ∧
    4 ≤ exEntry.splitSize ∧ (crash 1 exStore (Disk.deleteElements 11 .inOrder exEntry exList [6, 4])).elems exEntry.scores 1 ≠
      exStore.elems exEntry.scores 1 :=
  ⟨exStore_reload, exList_ok, by decide +kernel, by decide +kernel, by decide +kernel⟩

/-- The process crashed at any moment of an update, and the list was repaired. Repeating the update, if everything can be
read and saved, gives the list that the update was to give; elements that the crash lost (`C51_update_lost`) are there
again. Missing: failing reads and saves, as in `C111_update_retry_partial`. -/
theorem C111_update_crash_partial (now now' : Nat) (sch sch' shuffle : Sched) (reduce : Nat → Nat) (d : Store) (ent : Entry)
    (st : ListState) (es : List Element) (k : Nat) (hne : ent.scores ≠ ent.index) (h : reload d ent = some st)
    (hok : ListOK st) (hes : ∀ e ∈ es, Storable e) (hd : DistinctIDs es) (hnow : now < 2 ^ 32 - 1)
    (hlen : 2 * st.content.length + es.length + 2 ≤ 2 ^ 32) (hred : ∀ n, 0 < n → 0 < reduce n)
    (hs : 4 ≤ ent.splitSize) :
    ∃ r, Disk.repair now' sch' shuffle reduce (crash k d (Disk.updateElements now sch ent st es)) ent = some r ∧
      ∀ (tries : List Attempt) (last : Attempt), (∀ t ∈ tries, t.Stores ∧ t.now < 2 ^ 32 - 1) → last.Stores →
        last.now < 2 ^ 32 - 1 → (update last.faults last.now last.sch (updateTries es tries r) es).1 = true →
        ListOK (update last.faults last.now last.sch (updateTries es tries r) es).2 ∧
        (update last.faults last.now last.sch (updateTries es tries r) es).2.content =
          ranking (upsert st.content (es.map (stamp last.now))) := by
  obtain ⟨r, hr, hrok, h1, h2, -⟩ :=
    C51_update_partial now now' sch sch' shuffle reduce d ent st es k hne h hok hes hd hnow hlen hred hs
  refine ⟨r, hr, fun tries last ht hl hn hack => ?_⟩
  obtain ⟨h3, h4⟩ := C111_update_retry_partial r es tries last hrok hes hd ht hl hn hack
  refine ⟨h3, h4.trans ?_⟩
  rw [upsert_congr last.now (filter_eq_of_mem hrok hok _ fun x hx => ?_)]
  have hx' : ∀ y ∈ es, y.id ≠ x.id := by
    intro y hy hyx
    have : x.id ∉ es.map (·.id) := by simpa using hx
    exact this (List.mem_map.2 ⟨y, hy, hyx⟩)
  refine ⟨fun hm => ?_, fun hm => h1 x hm hx'⟩
  rcases h2 x hm with hm | ⟨y, hy, rfl⟩
  · exact hm
  · refine absurd ?_ (hx' y hy)
    unfold stamp
    split <;> rfl

/-- The crash of `C51_update_lost` loses element 6, repeating the update brings it back. -/
example : reload exStore exEntry = some exList ∧ ListOK exList ∧ (∀ y ∈ (exCrashed.getD default).content, y.id ≠ 6) ∧
    (update noFaults 201 .inOrder (exCrashed.getD default) exUpdate).1 = true ∧
    (update noFaults 201 .inOrder (exCrashed.getD default) exUpdate).2.content.map (fun e => (e.id, e.score)) =
      [(3, 70), (8, 60), (30, 55), (1, 50), (2, 50), (9, 33), (5, 20), (7, 15), (4, 10), (6, 1)] :=
  ⟨exStore_reload, exList_ok, by decide +kernel, by decide +kernel, by decide +kernel⟩

/-! ### What repeating does not help against -/

/-- An element that is in the list twice, since the segment with its old score could not be read (`C88_update_twice`), stays
there with its old score for good: repeating the update, deleting the element and deleting it again all report success. -/
theorem C111_update_twice_stays :
    ∃ (f : Faults) (st : ListState) (e x : Element), ListOK st ∧ Storable e ∧ x ∈ st.content ∧ x.id = e.id ∧ x.score ≠ e.score ∧
      f.saveScores = noFaults.saveScores ∧ f.saveIndex = noFaults.saveIndex ∧
      (let u := update f 11 .inOrder st [e]
       let u' := update noFaults 12 .inOrder u.2 [e]
       let d := delete noFaults 13 .inOrder u'.2 [e.id]
       let d' := delete noFaults 14 .inOrder d.2 [e.id]
       u.1 = true ∧ u'.1 = true ∧ d.1 = true ∧ d'.1 = true ∧ u'.2.content.filter (·.id == e.id) = [x, e] ∧
       d.2.content.filter (·.id == e.id) = [x] ∧ d'.2.content.filter (·.id == e.id) = [x]) :=
  ⟨{ noFaults with readScores := fun i _ => i == 0 }, exList, ⟨12, 6, [], 0, 5⟩, ⟨90, 6, [], 0, 7⟩, exList_ok, by decide +kernel,
    by decide +kernel, rfl, by decide, rfl, rfl, by decide +kernel⟩

/-- An element that was lost, since the segment with its new score could not be saved (`C88_update_lost`), stays lost:
repeating the update reports success and does nothing, also after a deletion of the element. -/
theorem C111_update_lost_stays :
    ∃ (f : Faults) (st : ListState) (e : Element), ListOK st ∧ Storable e ∧ (∃ x ∈ st.content, x.id = e.id) ∧
      f.readScores = noFaults.readScores ∧ f.saveIndex = noFaults.saveIndex ∧
      (let u := update f 11 .inOrder st [e]
       let u' := update noFaults 12 .inOrder u.2 [e]
       let d := delete noFaults 13 .inOrder u'.2 [e.id]
       let u'' := update noFaults 14 .inOrder d.2 [e]
       u.1 = true ∧ u'.1 = true ∧ d.1 = true ∧ u''.1 = true ∧ (∀ y ∈ u'.2.content, y.id ≠ e.id) ∧
       ∀ y ∈ u''.2.content, y.id ≠ e.id) :=
  ⟨{ noFaults with saveScores := fun i => i == 2 }, exList, ⟨12, 6, [], 0, 5⟩, exList_ok, by decide +kernel,
    by decide +kernel, rfl, rfl, by decide +kernel⟩

/-- This is so for every list, every element that moves to another segment, and any number of repetitions: the update whose
new segment could not be saved is reported as done, the element is gone, and no repetition changes the list, although
nothing fails and every one that is not disturbed reports success. -/
theorem C111_lost_for_ever (now : Nat) (sch : Sched) (st : ListState) (e x : Element) (p : Nat) (g : Seg) (h : ListOK st)
    (he : Storable e) (hnow : now < 2 ^ 32 - 1) (hx : x ∈ st.content) (hid : x.id = e.id) (hg : st.scores.segs[p]? = some g)
    (hr : InRange g e) (hmove : ¬ InRange g x) :
    let r := update { noFaults with saveScores := fun i => i == p } now sch st [e]
    r.1 = true ∧ (∀ y ∈ r.2.content, y.id ≠ e.id) ∧
    ∀ tries : List Attempt, (∀ t ∈ tries, t.Stores) →
      (updateTries [e] tries r.2).content = r.2.content ∧
      ∀ now' sch', (update noFaults now' sch' (updateTries [e] tries r.2) [e]).1 = true := by
  have hb := blocked_unsaved h he hnow sch hx hid hg hr hmove
  refine ⟨?_, hb.missing, fun tries ht => ⟨(blocked_tries he tries hb ht).2, fun now' sch' => ?_⟩⟩
  · unfold update
    rw [if_neg (by simp [noFaults])]
    rfl
  · rw [(C88_no_faults now' sch' _ [e] []).1]

/-- Element 6 moves from the first segment to the last. -/
example : ∃ g, ListOK exList ∧ Storable ⟨12, 6, [], 0, 5⟩ ∧ ⟨90, 6, [], 0, 7⟩ ∈ exList.content ∧ exList.scores.segs[2]? = some g ∧
    InRange g ⟨12, 6, [], 0, 5⟩ ∧ ¬ InRange g ⟨90, 6, [], 0, 7⟩ :=
  ⟨exList.scores.segs[2]?.getD default, exList_ok, by decide +kernel, by decide +kernel, by decide +kernel, by decide +kernel,
    by decide +kernel⟩

/-- The same after a deletion whose client went away before the entry in the index was deleted: no update that belongs to
the segment of the deleted element ever brings it back (`C88_delete_blocks` is the first of these updates). -/
theorem C111_deleted_for_ever (now : Nat) (sch : Sched) (st : ListState) (g : Seg) (x e : Element) (h : ListOK st)
    (hg : g ∈ st.scores.segs) (hx : x ∈ g.elems) (he : Storable e) (hid : e.id = x.id) (hr : InRange g e)
    (tries : List Attempt) (ht : ∀ t ∈ tries, t.Stores) :
    let r := delete { noFaults with cancelled := fun n => n == 1 } now sch st [x.id]
    (updateTries [e] tries r.2).content = r.2.content ∧ ∀ y ∈ r.2.content, y.id ≠ e.id := by
  have hidx : ∀ v ∈ [x.id], v < 2 ^ 64 := fun v hv => by cases List.mem_singleton.1 hv; rw [← hid]; exact he.id
  obtain ⟨hok, hc⟩ := C17_delete now sch st [x.id] h hidx
  obtain ⟨p, hp⟩ := List.mem_iff_getElem?.1 hg
  have hsc : (Lists.deleteElements now sch st [x.id]).scores.segs =
      (Segments.deleteElementsIdx now sch st.scores.segs (Lists.getIndexElements sch st [x.id])).1 := by
    unfold Lists.deleteElements
    simp only []
    split <;> rfl
  have hst : ∃ g' : Seg, (Lists.deleteElements now sch st [x.id]).scores.segs[p]? = some g' ∧ InRange g' e ∧ g'.id = g.id := by
    rw [hsc]
    unfold Segments.deleteElementsIdx
    simp only []
    refine ⟨Segments.deleteIdxAt now st.scores.segs (Lists.getIndexElements sch st [x.id]) p g, ?_, ?_⟩
    · rw [mapFrom_getElem?, hp]; simp
    · unfold Segments.deleteIdxAt
      simp only []
      split
      · exact ⟨hr, rfl⟩
      · exact ⟨hr, rfl⟩
  obtain ⟨g', hp', hr', hgid⟩ := hst
  obtain ⟨ex, hex, hexe⟩ := List.mem_map.1 (h.link.complete.mem_iff.2
    (List.mem_flatMap.2 ⟨g, hg, List.mem_map.2 ⟨x, hx, rfl⟩⟩))
  simp only [Prod.mk.injEq] at hexe
  simp only [delete_cancelled]
  have hno : ∀ y ∈ (Lists.deleteElements now sch st [x.id]).content, y.id ≠ e.id := by
    intro y hy
    rw [hc] at hy
    rw [hid]
    simpa using (List.mem_filter.1 hy).2
  have hb : Blocked { st with scores := (Lists.deleteElements now sch st [x.id]).scores } e p :=
    ⟨hok.scores, h.isIndex, ⟨ex, g', hex, hexe.1.trans hid.symm, hp', hr',
      by rw [hgid]; exact Nat.lt_of_lt_of_le (h.scoresIDs.1 g hg).2 h.scoresIDs.2, hexe.2.trans hgid.symm⟩, hno⟩
  exact ⟨(blocked_tries he tries hb ht).2, hno⟩

example : ∃ g ∈ exList.scores.segs, ⟨90, 6, [], 0, 7⟩ ∈ g.elems ∧ InRange g ⟨91, 6, [], 0, 5⟩ ∧ ListOK exList ∧
    Storable ⟨91, 6, [], 0, 5⟩ :=
  ⟨exList.scores.segs[0]?.getD default, by decide +kernel, by decide +kernel, by decide +kernel, exList_ok, by decide +kernel⟩

/-- The list after an insertion of element 20 whose client went away before the index was changed. -/
def exRefused : ListState :=
  ((insert (fun _ => { noFaults with cancelled := fun n => n == 0 }) 11 .inOrder exList [⟨80, 20, [], 0, 5⟩]).map (·.2)).getD exList

/-- An insertion that was refused, since the client went away between the insertion of the element and that of its index
entry, cannot be repeated: a query for the element finds nothing, and the repetition inserts it a second time. A later
update moves one of the two, and then the other cannot be deleted. -/
theorem C111_insert_again :
    ∃ (f : Faults) (st s1 s2 : ListState) (e e' : Element), ListOK st ∧ Storable e ∧ e'.id = e.id ∧
      (∀ x ∈ st.content, x.id ≠ e.id) ∧
      insert (fun _ => f) 11 .inOrder st [e] = some (false, s1) ∧ Lists.getElements .inOrder s1 [e.id] 0 = [] ∧
      insert (fun _ => noFaults) 12 .inOrder s1 [e] = some (true, s2) ∧ s2.content.filter (·.id == e.id) = [e, e] ∧
      (Lists.updateElements 13 .inOrder s2 [e']).content.filter (·.id == e.id) = [e, e'] ∧
      (Lists.deleteElements 14 .inOrder (Lists.updateElements 13 .inOrder s2 [e']) [e.id]).content.filter (·.id == e.id) = [e] :=
  ⟨{ noFaults with cancelled := fun n => n == 0 }, exList, exRefused,
    ((insert (fun _ => noFaults) 12 .inOrder exRefused [⟨80, 20, [], 0, 5⟩]).map (·.2)).getD exList,
    ⟨80, 20, [], 0, 5⟩, ⟨12, 20, [], 0, 5⟩, exList_ok, by decide +kernel, rfl, by decide +kernel, by decide +kernel,
    by decide +kernel, by decide +kernel, by decide +kernel, by decide +kernel, by decide +kernel⟩

end RankDB.Props

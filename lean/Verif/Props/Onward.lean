import Verif.Proofs.Onward
import Verif.Props.Repeat
/-
Property C112: going on after a crash without a repair. The process stopped at any moment of a request, a new process
reads the list from the store and serves requests. Attempts: `Verif/Spec/Repeat.lean`.
-/
namespace RankDB.Props
open Spec Faults Disk Onward

/-! ### What is still there -/

/-- A crash at any moment of an insertion: a new process can read the list, its elements are in order, no element is in it
twice, the old ones are all there, unchanged, and the others are elements of the insertion. -/
theorem C112_insert (now : Nat) (sch : Sched) (d : Store) (ent : Entry) (st : ListState) (l : List Element) (k : Nat)
    (hne : ent.scores ≠ ent.index) (h : reload d ent = some st) (hok : ListOK st) (hl : ∀ e ∈ l, Storable e)
    (hd : DistinctIDs (st.content ++ l)) :
    ∃ st1, reload (crash k d (Disk.insert now sch ent st l)) ent = some st1 ∧ Ranked st1.content ∧ DistinctIDs st1.content ∧
      (∀ e ∈ st.content, e ∈ st1.content) ∧ ∀ e ∈ st1.content, e ∈ st.content ∨ e ∈ l := by
  obtain ⟨hs, hi, -⟩ := reload_iff.1 h
  unfold Disk.insert
  cases hc : Lists.chunks (Lists.insertLimit st) l.length l with
  | none =>
    refine ⟨st, ?_, ranked_of_strict hok.scores.strict, hok.scores.distinct, fun _ he => he, fun _ he => .inl he⟩
    simp only [crash, List.take_nil]
    exact h
  | some cs =>
    have hfl := Lists.chunks_flatten hc
    obtain ⟨st1, h1, h2, h3, h4⟩ := insertChunks_torn (now := now) (sch := sch) hne (cs := cs) k hok (kept_of_holds hs)
      (kept_of_holds hi) (by rw [hfl]; exact hl) (by rw [hfl]; exact hd)
    exact ⟨st1, h1, ranked_of_strict h2.strict, h2.distinct, h3, by rw [hfl] at h4; exact h4⟩

/-- The insertion of the examples: elements 20 and 21. -/
def exIns2 : List Element := [⟨80, 20, [], 0, 5⟩, ⟨40, 21, [], 0, 5⟩]

example : reload exStore exEntry = some exList ∧ ListOK exList ∧ exEntry.scores ≠ exEntry.index ∧ (∀ e ∈ exIns2, Storable e) ∧
    DistinctIDs (exList.content ++ exIns2) ∧ (Disk.insert 11 .inOrder exEntry exList exIns2).length = 5 ∧
    (reload (crash 1 exStore (Disk.insert 11 .inOrder exEntry exList exIns2)) exEntry).map (fun s => s.content.map (·.id)) =
      some [6, 20, 3, 1, 2, 9, 5, 8, 7, 4] :=
  ⟨exStore_reload, exList_ok, by decide +kernel, by decide +kernel, by decide +kernel, by decide +kernel, by decide +kernel⟩

/-- A crash at any moment of a deletion: a new process can read the list, its elements are in order, all that were not
named are there, unchanged, and none is added. However often the deletion is attempted from then on, whatever fails, once it reports success
exactly the named elements are gone. No repair is needed. -/
theorem C112_delete (now : Nat) (sch : Sched) (d : Store) (ent : Entry) (st : ListState) (ids : List Nat) (k : Nat)
    (hne : ent.scores ≠ ent.index) (h : reload d ent = some st) (hok : ListOK st) (hid : ∀ v ∈ ids, v < 2 ^ 64) :
    ∃ st1, reload (crash k d (Disk.deleteElements now sch ent st ids)) ent = some st1 ∧ Ranked st1.content ∧
      st1.content.filter (fun e => decide (e.id ∉ ids)) = st.content.filter (fun e => decide (e.id ∉ ids)) ∧
      (∀ e ∈ st1.content, e ∈ st.content) ∧
      ∀ (tries : List Attempt) (last : Attempt),
        (delete last.faults last.now last.sch (deleteTries ids tries st1) ids).1 = true →
        (delete last.faults last.now last.sch (deleteTries ids tries st1) ids).2.content =
          st.content.filter (fun e => decide (e.id ∉ ids)) := by
  obtain ⟨st1, h1, hl, -, -, -, hr⟩ := delete_crash_left hne h hok hid now sch k
  refine ⟨st1, h1, ranked_of_strict hr, each_filter hl.kept, each_superset hl.sub, fun tries last hack => ?_⟩
  obtain ⟨hl', hc⟩ := left_delete hok hid (left_tries hok hid tries hl) last.faults last.now last.sch
  rw [← List.filter_eq_self.2 (fun x hx => decide_eq_true (hc hack x hx))]
  exact each_filter hl'.kept

/-- After one write element 6 is gone and element 4 is not; the repetition finishes the deletion. -/
example : reload exStore exEntry = some exList ∧ ListOK exList ∧
    (let s := (reload (crash 1 exStore (Disk.deleteElements 11 .inOrder exEntry exList [6, 4])) exEntry).getD default
     s.content.map (·.id) = [3, 1, 2, 9, 5, 8, 7, 4] ∧ (delete noFaults 13 .inOrder (deleteTries [6, 4] exTries s) [6, 4]).1 = true ∧
     (delete noFaults 13 .inOrder (deleteTries [6, 4] exTries s) [6, 4]).2.content.map (·.id) = [3, 1, 2, 9, 5, 8, 7]) :=
  ⟨exStore_reload, exList_ok, by decide +kernel⟩

/-- A crash at any moment of an update: a new process can read the list, its elements are in order, those that were not
named are all there, unchanged, and a named one has its old or its new data. Missing: that a named element is there once
(`C112_put_never`, `C112_update_torn`). -/
theorem C112_update_partial (now : Nat) (sch : Sched) (d : Store) (ent : Entry) (st : ListState) (es : List Element) (k : Nat)
    (hne : ent.scores ≠ ent.index) (h : reload d ent = some st) (hok : ListOK st) (hes : ∀ e ∈ es, Storable e)
    (hd : DistinctIDs es) (hnow : now < 2 ^ 32 - 1) :
    ∃ st1, reload (crash k d (Disk.updateElements now sch ent st es)) ent = some st1 ∧ Ranked st1.content ∧
      st1.content.filter (fun e => decide (e.id ∉ es.map (·.id))) =
        st.content.filter (fun e => decide (e.id ∉ es.map (·.id))) ∧
      ∀ e ∈ st1.content, e ∈ st.content ∨ ∃ y ∈ es, e = stamp now y := by
  obtain ⟨st1, h1, ht, -⟩ := update_crash hne h hok hes hd hnow sch k
  obtain ⟨hok', hperm, -, -, hsr, -⟩ := Lists.updateElements_full (now := now) (sch := sch) hok hes hd hnow
  obtain ⟨hr, hm⟩ := torn_strict hok.scores hok'.scores hsr ht
  refine ⟨st1, h1, ranked_of_strict hr, each_filter (torn_each (R := fun a b =>
    b.filter (fun y => decide (y.id ∉ es.map (·.id))) = a.filter fun y => decide (y.id ∉ es.map (·.id)))
    (fun _ => rfl) ht hsr (updateElements_filter now sch st es)), fun e he => ?_⟩
  rcases hm e he with he | he
  · exact .inl he
  · have := hperm.mem_iff.1 he
    unfold upsert at this
    rcases List.mem_append.1 this with h2 | h2
    · obtain ⟨y, hy, rfl⟩ := List.mem_map.1 h2
      exact .inr ⟨y, hy, rfl⟩
    · exact .inl (List.mem_filter.1 h2).1

example : reload exStore exEntry = some exList ∧ ListOK exList ∧ (∀ e ∈ exUpdate, Storable e) ∧ DistinctIDs exUpdate ∧
    exEntry.scores ≠ exEntry.index ∧ 3 < (Disk.updateElements 11 .inOrder exEntry exList exUpdate).length :=
  ⟨exStore_reload, exList_ok, by decide +kernel, by decide +kernel, by decide +kernel, by decide +kernel⟩

/-! ### What goes wrong without a repair -/

/-- For every list and every new element there is a moment of the put at which a crash keeps the element out of the list
for good: however often the put is repeated, the list does not change, although every undisturbed repetition reports
success. -/
theorem C112_put_never (now : Nat) (sch : Sched) (d : Store) (ent : Entry) (st : ListState) (e : Element)
    (hne : ent.scores ≠ ent.index) (h : reload d ent = some st) (hok : ListOK st) (he : Storable e)
    (hnew : ∀ x ∈ st.content, x.id ≠ e.id) (hnow : now < 2 ^ 32 - 1) :
    ∃ k st1, reload (crash k d (Disk.updateElements now sch ent st [e])) ent = some st1 ∧ st1.content = st.content ∧
      ∀ tries : List Attempt, (∀ t ∈ tries, t.Stores) → (updateTries [e] tries st1).content = st.content ∧
        ∀ now' sch', (update noFaults now' sch' (updateTries [e] tries st1) [e]).1 = true := by
  obtain ⟨st1, p, h1, h2, hb⟩ := blocked_crash hne h hok he hnew hnow sch
  refine ⟨_, st1, h1, h2, fun tries ht => ⟨(blocked_tries he tries hb ht).2.trans h2, fun now' sch' => ?_⟩⟩
  rw [(C88_no_faults now' sch' _ [e] []).1]

example : reload exStore exEntry = some exList ∧ ListOK exList ∧ exEntry.scores ≠ exEntry.index ∧ Storable ⟨55, 30, [], 0, 0⟩ ∧
    (∀ x ∈ exList.content, x.id ≠ 30) :=
  ⟨exStore_reload, exList_ok, by decide +kernel, by decide +kernel, by decide +kernel⟩

/-- For every list and every element of it there is a moment of its deletion at which a crash deletes it and keeps it out of
the list: no put of it that belongs to the same segment, for example one with its old score, ever brings it back. -/
theorem C112_deleted_never (now : Nat) (sch : Sched) (d : Store) (ent : Entry) (st : ListState) (g : Seg) (x e : Element)
    (hne : ent.scores ≠ ent.index) (h : reload d ent = some st) (hok : ListOK st) (he : Storable e)
    (hg : g ∈ st.scores.segs) (hx : x ∈ g.elems) (hid : x.id = e.id) (hr : InRange g e) :
    ∃ k st1, reload (crash k d (Disk.deleteElements now sch ent st [e.id])) ent = some st1 ∧
      st1.content = st.content.filter (fun y => decide (y.id ≠ e.id)) ∧
      ∀ tries : List Attempt, (∀ t ∈ tries, t.Stores) →
        (updateTries [e] tries st1).content = st.content.filter (fun y => decide (y.id ≠ e.id)) ∧
        ∀ now' sch', (update noFaults now' sch' (updateTries [e] tries st1) [e]).1 = true := by
  obtain ⟨p, hp⟩ := List.mem_iff_getElem?.1 hg
  obtain ⟨st1, h1, h2, hb⟩ := blocked_deleted hne h hok (mem_allElems.2 ⟨g, hg, hx⟩) hid hp
    (hok.scores.inRange g hg x hx) hr now sch
  refine ⟨_, st1, h1, h2, fun tries ht => ⟨(blocked_tries he tries hb ht).2.trans h2, fun now' sch' => ?_⟩⟩
  rw [(C88_no_faults now' sch' _ [e] []).1]

example : ∃ g ∈ exList.scores.segs, ⟨90, 6, [], 0, 7⟩ ∈ g.elems ∧ InRange g ⟨90, 6, [], 0, 7⟩ ∧ reload exStore exEntry = some exList ∧
    ListOK exList ∧ Storable ⟨90, 6, [], 0, 7⟩ :=
  ⟨exList.scores.segs[0]?.getD default, by decide +kernel, by decide +kernel, by decide +kernel, exStore_reload, exList_ok,
    by decide +kernel⟩

/-- After a crash in an insertion the length and the pages of a list are wrong: the list has eleven elements and says nine,
the first two pages of three leave out the element of rank 3, and an element that the pages show cannot be looked up. A
later put of that element with another score stores it twice. -/
theorem C112_insert_torn :
    ∃ (d : Store) (ent : Entry) (st st1 : ListState) (l : List Element) (k : Nat) (e x : Element), reload d ent = some st ∧
      ListOK st ∧ ent.scores ≠ ent.index ∧ (∀ e ∈ l, Storable e) ∧ DistinctIDs (st.content ++ l) ∧
      reload (crash k d (Disk.insert 11 .inOrder ent st l)) ent = some st1 ∧
      st1.content.length = 11 ∧ Lists.len st1 = 9 ∧ st1.content[3]? = some x ∧
      (∃ a b, Lists.getRankTop st1 0 3 = some a ∧ Lists.getRankTop st1 3 3 = some b ∧ a.length = 3 ∧ b.length = 3 ∧ e ∈ a ∧ x ∉ a ++ b) ∧
      Lists.getElements .inOrder st1 [e.id] 0 = [] ∧
      (Lists.updateElements 12 .inOrder st1 [{ e with score := 1 }]).content.filter (·.id == e.id) =
        [e, stamp 12 { e with score := 1 }] :=
  ⟨exStore, exEntry, exList, (reload (crash 2 exStore (Disk.insert 11 .inOrder exEntry exList exIns2)) exEntry).getD default,
    exIns2, 2, ⟨80, 20, [], 0, 5⟩, ⟨50, 1, [], 3, 7⟩, exStore_reload, exList_ok, by decide +kernel, by decide +kernel, by decide +kernel,
    by decide +kernel, by decide +kernel, by decide +kernel, by decide +kernel,
    ⟨_, _, rfl, rfl, by decide +kernel, by decide +kernel, by decide +kernel, by decide +kernel⟩, by decide +kernel, by decide +kernel⟩

/-- A crash in an update of an element that moves to another segment. After one write it has its old score, cannot be looked
up, and repeating the update does not help. After two writes it is in the list twice, and stays so. -/
theorem C112_update_torn :
    ∃ (d : Store) (ent : Entry) (st s1 s2 : ListState) (e x : Element), reload d ent = some st ∧ ListOK st ∧
      ent.scores ≠ ent.index ∧ Storable e ∧ x ∈ st.content ∧ x.id = e.id ∧ x.score ≠ e.score ∧
      reload (crash 1 d (Disk.updateElements 11 .inOrder ent st [e])) ent = some s1 ∧
      s1.content.filter (·.id == e.id) = [x] ∧ Lists.getElements .inOrder s1 [e.id] 0 = [] ∧
      (Lists.updateElements 12 .inOrder s1 [e]).content.filter (·.id == e.id) = [x] ∧
      reload (crash 2 d (Disk.updateElements 11 .inOrder ent st [e])) ent = some s2 ∧
      s2.content.filter (·.id == e.id) = [x, e] ∧
      (Lists.updateElements 12 .inOrder s2 [e]).content.filter (·.id == e.id) = [x, e] ∧
      (Lists.deleteElements 13 .inOrder (Lists.updateElements 12 .inOrder s2 [e]) [e.id]).content.filter (·.id == e.id) = [x] :=
  ⟨exStore, exEntry, exList,
    (reload (crash 1 exStore (Disk.updateElements 11 .inOrder exEntry exList [⟨12, 6, [], 0, 5⟩])) exEntry).getD default,
    (reload (crash 2 exStore (Disk.updateElements 11 .inOrder exEntry exList [⟨12, 6, [], 0, 5⟩])) exEntry).getD default,
    ⟨12, 6, [], 0, 5⟩, ⟨90, 6, [], 0, 7⟩, exStore_reload, exList_ok, by decide +kernel, by decide +kernel, by decide +kernel, rfl,
    by decide, by decide +kernel, by decide +kernel, by decide +kernel, by decide +kernel, by decide +kernel, by decide +kernel,
    by decide +kernel, by decide +kernel⟩

end RankDB.Props

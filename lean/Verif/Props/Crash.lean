import Verif.Proofs.Disk
import Verif.Props.Lists
import Verif.Props.Example
/-
C51, C67: what the storage has after an operation, and after a crash in the middle of one.
`Disk.crash k d ws` is the storage `d` after the first `k` of the writes `ws`. The order in which goroutines and
maps write is given by the schedule.
-/
namespace RankDB.Props
open Spec Disk

/-- The name of a list, its segments "s" and "i" and the sizes of `exList`. -/
def exEntry : Entry := { scores := [115], index := [105], mergeSize := 2, splitSize := 4 }

/-- A storage with the given list. -/
def exStoreOf (st : ListState) : Store :=
  { heads := fun p => if p = [115] then some (head st.scores) else if p = [105] then some (head st.index) else none
    elems := fun p i =>
      if p = [115] then (st.scores.segs.find? (·.id = i)).map (·.elems)
      else if p = [105] then (st.index.segs.find? (·.id = i)).map (·.elems) else none }

def exStore : Store := exStoreOf exList

theorem exStore_reload : reload exStore exEntry = some exList := by decide +kernel

/-! ### C67 durability -/

/-- After an insertion a new process reads the list as the insertion left it. -/
theorem C67_insert_durable (now : Nat) (sch : Sched) (d : Store) (ent : Entry) (st st' : ListState) (l : List Element)
    (hne : ent.scores ≠ ent.index) (h : reload d ent = some st) (hok : ListOK st) (hl : ∀ e ∈ l, Storable e)
    (hd : DistinctIDs (st.content ++ l)) (hi : Lists.insert now sch st l = some st') :
    reload (writes d (Disk.insert now sch ent st l)) ent = some st' ∧ ListOK st' ∧
      st'.content = ranking (st.content ++ l) := by
  obtain ⟨h1, h2, -⟩ := Lists.insert_spec hok hl hd hi
  refine ⟨?_, h1, content_eq_ranking h1 h2⟩
  obtain ⟨-, -, hm, hs⟩ := reload_iff.1 h
  unfold Lists.insert at hi
  unfold Disk.insert
  cases hc : Lists.chunks (Lists.insertLimit st) l.length l with
  | none => simp [hc] at hi
  | some cs =>
    simp only [hc, Option.map_some, Option.some.injEq] at hi
    have hfl := Lists.chunks_flatten hc
    subst hi
    exact insertChunks_reload hne hok (ready_of_reload h).toStored (by rw [hfl]; exact hl) (by rw [hfl]; exact hd) hm hs

example : reload exStore exEntry = some exList ∧ ListOK exList ∧
    (∀ e ∈ [⟨60, 20, [], 0, 9⟩, ⟨5, 21, [], 0, 9⟩], Storable e) ∧
    DistinctIDs (exList.content ++ [⟨60, 20, [], 0, 9⟩, ⟨5, 21, [], 0, 9⟩]) ∧
    (Lists.insert 200 .inOrder exList [⟨60, 20, [], 0, 9⟩, ⟨5, 21, [], 0, 9⟩]).isSome :=
  ⟨exStore_reload, exList_ok, by decide +kernel, by decide +kernel, by decide +kernel⟩

/-- After a deletion a new process reads the list as the deletion left it. -/
theorem C67_delete_durable (now : Nat) (sch : Sched) (d : Store) (ent : Entry) (st : ListState) (ids : List Nat)
    (hne : ent.scores ≠ ent.index) (h : reload d ent = some st) (hok : ListOK st) (hid : ∀ v ∈ ids, v < 2 ^ 64) :
    reload (writes d (Disk.deleteElements now sch ent st ids)) ent = some (Lists.deleteElements now sch st ids) ∧
      (Lists.deleteElements now sch st ids).content = remove st.content ids := by
  obtain ⟨h1, h2, h3, h4⟩ := Lists.deleteElements_spec (now := now) (sch := sch) hok hid
  obtain ⟨-, -, hm, hs⟩ := reload_iff.1 h
  obtain ⟨ws, hw, hst⟩ := deleteElements_step now sch ent st ids
  refine ⟨?_, h2⟩
  rw [hw]
  exact step_reload hne h1 (ready_of_reload h).toStored hst (hm.trans h3.symm) (hs.trans h4.symm)

example : reload exStore exEntry = some exList ∧ ListOK exList ∧ (∀ v ∈ [1, 6, 77], v < 2 ^ 64) :=
  ⟨exStore_reload, exList_ok, by decide⟩

/-- After an update a new process reads the list as the update left it. -/
theorem C67_update_durable (now : Nat) (sch : Sched) (d : Store) (ent : Entry) (st : ListState) (es : List Element)
    (hne : ent.scores ≠ ent.index) (h : reload d ent = some st) (hok : ListOK st) (hes : ∀ e ∈ es, Storable e)
    (hd : DistinctIDs es) (hnow : now < 2 ^ 32 - 1) :
    reload (writes d (Disk.updateElements now sch ent st es)) ent = some (Lists.updateElements now sch st es) ∧
      (Lists.updateElements now sch st es).content = ranking (upsert st.content (es.map (stamp now))) := by
  obtain ⟨h1, h2, h3, h4, -⟩ := Lists.updateElements_full (now := now) (sch := sch) hok hes hd hnow
  obtain ⟨-, -, hm, hs⟩ := reload_iff.1 h
  obtain ⟨ws, hw, hst⟩ := updateElements_step (now := now) (sch := sch) (ent := ent) hok hes hd hnow
  refine ⟨?_, content_eq_ranking h1 h2⟩
  rw [hw]
  exact step_reload hne h1 (ready_of_reload h).toStored hst (hm.trans h3.symm) (hs.trans h4.symm)

/-- Element 6 moves from the first to the last place, 8 moves up, 30 is new. -/
def exUpdate : List Element := [⟨1, 6, [5], 0, 0⟩, ⟨60, 8, [], 0, 0⟩, ⟨55, 30, [], 0, 0⟩]

example : reload exStore exEntry = some exList ∧ ListOK exList ∧ (∀ e ∈ exUpdate, Storable e) ∧ DistinctIDs exUpdate :=
  ⟨exStore_reload, exList_ok, by decide +kernel, by decide +kernel⟩

/-! ### C51 crashes -/

/-- A crash at any moment of an insertion: repairing gives a list with all old elements, and with nothing but old
and inserted elements. -/
theorem C51_insert (now now' : Nat) (sch sch' shuffle : Sched) (reduce : Nat → Nat) (d : Store) (ent : Entry)
    (st : ListState) (l : List Element) (k : Nat) (hne : ent.scores ≠ ent.index) (h : reload d ent = some st)
    (hok : ListOK st) (hl : ∀ e ∈ l, Storable e) (hd : DistinctIDs (st.content ++ l))
    (hlen : 2 * (st.content.length + l.length) + 2 ≤ 2 ^ 32) (hred : ∀ n, 0 < n → 0 < reduce n)
    (hs : 4 ≤ ent.splitSize) :
    ∃ r, Disk.repair now' sch' shuffle reduce (crash k d (Disk.insert now sch ent st l)) ent = some r ∧ ListOK r ∧
      (∀ e ∈ st.content, e ∈ r.content) ∧ (∀ e ∈ r.content, e ∈ st.content ∨ e ∈ l) := by
  obtain ⟨-, -, -, hsp⟩ := reload_iff.1 h
  unfold Disk.insert
  obtain ⟨st', hi⟩ := Lists.insert_returns (now := now) (sch := sch) (l := l) hok (by omega)
  unfold Lists.insert at hi
  cases hc : Lists.chunks (Lists.insertLimit st) l.length l with
  | none => simp [hc] at hi
  | some cs =>
    have hfl := Lists.chunks_flatten hc
    simp only []
    obtain ⟨a, b, ha, hb, hab, hm, h3, h4, h5, h6⟩ := insertChunks_crash (now := now) (sch := sch) hne (cs := cs) k hok
      (ready_of_reload h) (by rw [hfl]; exact hl) (by rw [hfl]; exact hd)
    rw [hfl] at h4 h5 h6
    obtain ⟨r, hr, hrok, hr1, hr2⟩ := mixed_repair (now := now') (sch := sch') (shuffle := shuffle)
      (reduce := reduce) ha hb hm (by omega) hred hs
    refine ⟨r, hr, hrok, ?_, fun e he => h4 e (hr1 e he)⟩
    intro e he
    obtain ⟨s, hs, s', hs', hid, hes, hes'⟩ := same_seg ha.scores hb.scores hab rfl (h3 e he).1 (h3 e he).2
    exact (hr2 s hs s' hs' hid e hes e hes' rfl).elim id id

example : reload exStore exEntry = some exList ∧ ListOK exList ∧
    (∀ e ∈ [⟨60, 20, [], 0, 9⟩, ⟨5, 21, [], 0, 9⟩], Storable e) ∧
    DistinctIDs (exList.content ++ [⟨60, 20, [], 0, 9⟩, ⟨5, 21, [], 0, 9⟩]) ∧
    2 * (exList.content.length + 2) + 2 ≤ 2 ^ 32 ∧
    (Disk.insert 200 .inOrder exEntry exList [⟨60, 20, [], 0, 9⟩, ⟨5, 21, [], 0, 9⟩]).length = 5 :=
  ⟨exStore_reload, exList_ok, by decide +kernel, by decide +kernel, by decide +kernel, by decide +kernel⟩

/-- A crash at any moment of a deletion: repairing gives a list with all elements that were not to be deleted, and
no others than before. -/
theorem C51_delete (now now' : Nat) (sch sch' shuffle : Sched) (reduce : Nat → Nat) (d : Store) (ent : Entry)
    (st : ListState) (ids : List Nat) (k : Nat) (hne : ent.scores ≠ ent.index) (h : reload d ent = some st)
    (hok : ListOK st) (hid : ∀ v ∈ ids, v < 2 ^ 64) (hlen : 2 * st.content.length + 2 ≤ 2 ^ 32)
    (hred : ∀ n, 0 < n → 0 < reduce n) (hs : 4 ≤ ent.splitSize) :
    ∃ r, Disk.repair now' sch' shuffle reduce (crash k d (Disk.deleteElements now sch ent st ids)) ent = some r ∧
      ListOK r ∧ (∀ e ∈ st.content, e.id ∉ ids → e ∈ r.content) ∧ (∀ e ∈ r.content, e ∈ st.content) := by
  obtain ⟨h1, h2, -⟩ := Lists.deleteElements_spec (now := now) (sch := sch) hok hid
  obtain ⟨ws, hw, hst⟩ := deleteElements_step now sch ent st ids
  have hsub : ∀ e, e ∈ (Lists.deleteElements now sch st ids).content → e ∈ st.content := by
    intro e he
    rw [h2] at he
    exact (List.mem_filter.1 he).1
  have hle : (Lists.deleteElements now sch st ids).content.length ≤ st.content.length := by
    rw [h2]; exact List.length_filter_le _ _
  rw [hw]
  obtain ⟨r, hr, hrok, hr1, hr2⟩ := mixed_repair (now := now') (sch := sch') (shuffle := shuffle)
    (reduce := reduce) hok h1 (step_crash hne (ready_of_reload h) hst k) (by omega) hred hs
  refine ⟨r, hr, hrok, ?_, fun e he => (hr1 e he).elim id (hsub e)⟩
  intro e he hn
  have he' : e ∈ (Lists.deleteElements now sch st ids).content := by
    rw [h2]
    exact List.mem_filter.2 ⟨he, by simpa using hn⟩
  obtain ⟨s, hs, s', hs', hid, hes, hes'⟩ := same_seg hok.scores h1.scores hst.scores rfl he he'
  exact (hr2 s hs s' hs' hid e hes e hes' rfl).elim id id

example : reload exStore exEntry = some exList ∧ ListOK exList ∧ (∀ v ∈ [1, 6, 77], v < 2 ^ 64) ∧
    2 * exList.content.length + 2 ≤ 2 ^ 32 ∧
    (Disk.deleteElements 200 .reversed exEntry exList [1, 6, 77]).length = 5 :=
  ⟨exStore_reload, exList_ok, by decide, by decide +kernel, by decide +kernel⟩

/-- A crash at any moment of an update: repairing gives a list with all elements that were not named, unchanged,
and nothing but old and new elements. A named element that stays in its segment is there, as it was or as it
was to be. Missing: a named element that moves to another segment, see `C51_update_lost`. -/
theorem C51_update_partial (now now' : Nat) (sch sch' shuffle : Sched) (reduce : Nat → Nat) (d : Store) (ent : Entry)
    (st : ListState) (es : List Element) (k : Nat) (hne : ent.scores ≠ ent.index) (h : reload d ent = some st)
    (hok : ListOK st) (hes : ∀ e ∈ es, Storable e) (hd : DistinctIDs es) (hnow : now < 2 ^ 32 - 1)
    (hlen : 2 * st.content.length + es.length + 2 ≤ 2 ^ 32) (hred : ∀ n, 0 < n → 0 < reduce n)
    (hs : 4 ≤ ent.splitSize) :
    ∃ r, Disk.repair now' sch' shuffle reduce (crash k d (Disk.updateElements now sch ent st es)) ent = some r ∧
      ListOK r ∧
      (∀ e ∈ st.content, (∀ x ∈ es, x.id ≠ e.id) → e ∈ r.content) ∧
      (∀ e ∈ r.content, e ∈ st.content ∨ ∃ x ∈ es, e = stamp now x) ∧
      (∀ e ∈ st.content, ∀ x ∈ es, x.id = e.id → (∃ g ∈ st.scores.segs, InRange g e ∧ InRange g x) →
        e ∈ r.content ∨ stamp now x ∈ r.content) := by
  obtain ⟨h1, h2, h3, h4, hsc, -⟩ := Lists.updateElements_full (now := now) (sch := sch) hok hes hd hnow
  obtain ⟨ws, hw, hst⟩ := updateElements_step (now := now) (sch := sch) (ent := ent) hok hes hd hnow
  have hsid : ∀ x, (stamp now x).id = x.id := fun x => by unfold stamp; split <;> rfl
  have hspos : ∀ (g : Seg) x, InRange g (stamp now x) ↔ InRange g x := fun g x => by unfold stamp; split <;> rfl
  have hmem : ∀ e, e ∈ (Lists.updateElements now sch st es).content ↔
      (e ∈ st.content ∧ ∀ x ∈ es, x.id ≠ e.id) ∨ ∃ x ∈ es, e = stamp now x := by
    intro e
    rw [h2.mem_iff, C16_upsert_meaning]
    simp only [List.mem_map]
    constructor
    · rintro (⟨x, hx, rfl⟩ | ⟨ha, hb⟩)
      · exact .inr ⟨x, hx, rfl⟩
      · exact .inl ⟨ha, fun x hx => hsid x ▸ hb _ ⟨x, hx, rfl⟩⟩
    · rintro (⟨ha, hb⟩ | ⟨x, hx, rfl⟩)
      · refine .inr ⟨ha, ?_⟩
        rintro _ ⟨x, hx, rfl⟩
        rw [hsid]
        exact hb x hx
      · exact .inl ⟨x, hx, rfl⟩
  have hle : (Lists.updateElements now sch st es).content.length ≤ st.content.length + es.length := by
    rw [h2.length_eq]
    unfold upsert
    rw [List.length_append, List.length_map]
    have := List.length_filter_le (fun e => !((es.map (stamp now)).map (·.id)).contains e.id) st.content
    omega
  rw [hw]
  obtain ⟨r, hr, hrok, hr1, hr2⟩ := mixed_repair (now := now') (sch := sch') (shuffle := shuffle)
    (reduce := reduce) hok h1 (step_crash hne (ready_of_reload h) hst k) (by omega) hred hs
  refine ⟨r, hr, hrok, ?_, ?_, ?_⟩
  · intro e he hn
    obtain ⟨s, hs, s', hs', hid, hes, hes'⟩ := same_seg hok.scores h1.scores hst.scores rfl he ((hmem e).2 (.inl ⟨he, hn⟩))
    exact (hr2 s hs s' hs' hid e hes e hes' rfl).elim id id
  · intro e he
    rcases hr1 e he with h5 | h5
    · exact .inl h5
    · exact ((hmem e).1 h5).imp And.left id
  · rintro e he x hx hid ⟨g, hg, hg1, hg2⟩
    have hx' := (hmem (stamp now x)).2 (.inr ⟨x, hx, rfl⟩)
    obtain ⟨s, hs, hse⟩ := mem_allElems.1 he
    obtain ⟨s', hs', hse'⟩ := mem_allElems.1 hx'
    obtain ⟨t, ht, hr'⟩ := forall₂_mem hsc s' hs'
    have e1 := tiles_unique hok.scores.tiles hs hg (hok.scores.inRange s hs e hse) hg1
    have e2 := tiles_unique hok.scores.tiles ht hg ((hr'.inRange x).1 ((hspos s' x).1 (h1.scores.inRange s' hs' _ hse'))) hg2
    subst e1 e2
    exact hr2 t hs s' hs' hr'.1.symm e hse _ hse' (by rw [hsid]; exact hid.symm)

example : reload exStore exEntry = some exList ∧ ListOK exList ∧ (∀ e ∈ exUpdate, Storable e) ∧ DistinctIDs exUpdate ∧
    2 * exList.content.length + exUpdate.length + 2 ≤ 2 ^ 32 ∧ (∀ n, 0 < n → 0 < id n) ∧ 4 ≤ exEntry.splitSize ∧
    exEntry.scores ≠ exEntry.index ∧ (Disk.updateElements 200 .inOrder exEntry exList exUpdate).length = 7 :=
  ⟨exStore_reload, exList_ok, by decide +kernel, by decide +kernel, by decide +kernel, fun _ h => h, by decide,
    by decide, by decide +kernel⟩

/-- What repairing finds after a crash in the middle of `exUpdate`. -/
def exCrashed : Option ListState :=
  Disk.repair 300 .inOrder .inOrder id (crash 3 exStore (Disk.updateElements 200 .inOrder exEntry exList exUpdate)) exEntry

/-- The full property fails: an element that an update moves to another segment can be lost, because the
segment it leaves may be saved before the segment it enters. -/
theorem C51_update_lost : ∃ k, ∃ e ∈ exList.content, ∃ x ∈ exUpdate, x.id = e.id ∧
    ∃ r, Disk.repair 300 .inOrder .inOrder id (crash k exStore (Disk.updateElements 200 .inOrder exEntry exList exUpdate))
      exEntry = some r ∧ ∀ y ∈ r.content, y.id ≠ e.id := by
  have h : exCrashed.isSome := by decide +kernel
  have h2 : ∀ y ∈ (exCrashed.getD default).content, y.id ≠ 6 := by decide +kernel
  refine ⟨3, ⟨90, 6, [], 0, 7⟩, by decide +kernel, ⟨1, 6, [5], 0, 0⟩, by decide +kernel, rfl, exCrashed.getD default, ?_, h2⟩
  obtain ⟨r, hr⟩ := Option.isSome_iff_exists.1 h
  have : exCrashed = some (exCrashed.getD default) := by rw [hr]; rfl
  exact this

end RankDB.Props

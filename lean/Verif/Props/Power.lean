import Verif.Proofs.Power
import Verif.Props.Cost
/-
Property C113: what a killed process and a power failure leave of the requests that were acknowledged. Specification:
`Verif/Spec/Power.lean`.
-/
namespace RankDB.Props
open Spec Spec.History Disk Power

/-- Whatever the storage and its setting: when the process is killed or the power fails at any moment of a history of
requests, a new process reads the list as the first of the requests left it, or these and a part of the next one. So a
change is never lost while a later request was carried out. -/
theorem C113_prefix (drv : Driver) (d : Store) (ent : Entry) (st : ListState) (rs : List Served) (j n : Nat)
    (hne : ent.scores ≠ ent.index) (h : reload d ent = some st) (hok : ListOK st) (hs : History.Sound st rs) :
    let m := run drv (start d) ((written ent st rs).take j)
    (∃ st1, reload (killed m) ent = some st1 ∧ UpTo st rs st1) ∧ ∃ st1, reload (powerFailure n m) ent = some st1 ∧ UpTo st rs st1 := by
  have hb := (behind (drv := drv) (d := d) (ws := (written ent st rs).take j) fun w hw =>
    noDeletes_written ent rs st w (List.mem_of_mem_take hw)).1
  have hall : ∀ n, ∃ st1, reload (powerFailure n (run drv (start d) ((written ent st rs).take j))) ent = some st1 ∧ UpTo st rs st1 := by
    intro n
    obtain ⟨k, -, hk⟩ := hb.lost n
    have hk' : crash k d ((written ent st rs).take j) = crash (min k j) d (written ent st rs) := by
      unfold crash
      rw [List.take_take]
    rw [hk, hk']
    rcases history_crash hne (min k j) h hok hs with ⟨st1, a, r, b, e1, e2, e3⟩ | h1
    · exact ⟨st1, e2, .inr ⟨a, r, b, e1, e3⟩⟩
    · exact ⟨_, h1, .inl rfl⟩
  exact ⟨killed_eq _ ▸ hall _, hall n⟩

/-- Elements 20 and 21 are inserted, three are put, two are deleted. -/
def exServed : List Served :=
  [⟨.insert exIns2, 11, .inOrder⟩, ⟨.update exUpdate, 12, .reversed⟩, ⟨.delete [4, 20], 13, .inOrder⟩]

theorem exServed_sound : History.Sound exList exServed :=
  ⟨⟨by decide +kernel, by decide +kernel⟩, ⟨by decide +kernel, by decide +kernel, by decide⟩, by
    show ∀ v ∈ [4, 20], v < 2 ^ 64
    decide, trivial⟩

example : reload exStore exEntry = some exList ∧ ListOK exList ∧ exEntry.scores ≠ exEntry.index ∧ History.Sound exList exServed ∧
    10 < (written exEntry exList exServed).length ∧
    (after exList exServed).content.map (·.id) = [3, 8, 30, 1, 2, 21, 9, 5, 7, 6] :=
  ⟨exStore_reload, exList_ok, by decide +kernel, exServed_sound, by decide +kernel, by decide +kernel⟩

/-- With Bolt nothing that was acknowledged is lost when the process is killed. -/
theorem C113_bolt_killed (noSync : Bool) (d : Store) (ent : Entry) (st : ListState) (rs : List Served)
    (hne : ent.scores ≠ ent.index) (h : reload d ent = some st) (hok : ListOK st) (hs : History.Sound st rs) :
    reload (killed (run (.bolt noSync) (start d) (written ent st rs))) ent = some (after st rs) := by
  obtain ⟨h1, h2⟩ := behind (drv := .bolt noSync) (d := d) (ws := written ent st rs) (noDeletes_written ent rs st)
  rw [killed_of_empty h1 (h2 _ rfl)]
  exact (history_done hne h hok hs).1

/-- With Bolt and `NoSync` off nothing that was acknowledged is lost when the power fails. -/
theorem C113_bolt_power (d : Store) (ent : Entry) (st : ListState) (rs : List Served) (n : Nat)
    (hne : ent.scores ≠ ent.index) (h : reload d ent = some st) (hok : ListOK st) (hs : History.Sound st rs) :
    reload (powerFailure n (run (.bolt false) (start d) (written ent st rs))) ent = some (after st rs) := by
  rw [← C113_bolt_killed false d ent st rs hne h hok hs]
  unfold powerFailure killed
  rw [synced_cache rfl, List.take_nil]

/-- With `NoSync` on, Bolt can lose everything since the start, as documented. -/
example : reload (powerFailure 0 (run (.bolt true) (start exStore) (written exEntry exList exServed))) exEntry = some exList ∧
    reload (powerFailure 9 (run (.bolt false) (start exStore) (written exEntry exList exServed))) exEntry = some (after exList exServed) := by
  refine ⟨?_, C113_bolt_power _ _ _ _ _ (by decide +kernel) exStore_reload exList_ok exServed_sound⟩
  unfold powerFailure
  rw [unsynced_disk rfl]
  exact exStore_reload

/-! ### Badger -/

/-- With Badger, whatever the setting, a list of fewer than 98 segments is never written to the database by requests that
change its elements: when the process is killed all of them are lost, however many were acknowledged and however long
ago. -/
theorem C113_badger_killed (noSync : Bool) (d : Store) (ent : Entry) (st : ListState) (rs : List Served)
    (hne : ent.scores ≠ ent.index) (h : reload d ent = some st) (hok : ListOK st) (hs : History.Sound st rs)
    (hlen : st.scores.segs.length + st.index.segs.length < 98) :
    reload (killed (run (.badger noSync) (start d) (written ent st rs))) ent = some st := by
  rw [queued noSync (K := keysOf ent st) (by simp [keysOf]; omega) (m := start d) rfl rfl .nil (fun _ hw => nomatch hw)
    fun w hw => ⟨noDeletes_written ent rs st w hw, keys_written hne h hok hs w hw⟩]
  exact h

example : reload exStore exEntry = some exList ∧ ListOK exList ∧ History.Sound exList exServed ∧
    exList.scores.segs.length + exList.index.segs.length = 6 ∧ exList.content ≠ (after exList exServed).content :=
  ⟨exStore_reload, exList_ok, exServed_sound, by decide +kernel, by decide +kernel⟩

/-- The setting `NoSync` of Badger works the other way round. Switched on, a power failure loses no more than a killed
process does; switched off, it can lose every change since the start, however long ago it was acknowledged and handed
to the database. -/
theorem C113_badger_inverted (d : Store) (ent : Entry) (st : ListState) (rs : List Served) (h : reload d ent = some st) :
    (∀ n, powerFailure n (run (.badger true) (start d) (written ent st rs)) =
      killed (run (.badger true) (start d) (written ent st rs))) ∧
    reload (powerFailure 0 (run (.badger false) (start d) (written ent st rs))) ent = some st := by
  constructor
  · intro n
    unfold powerFailure killed
    rw [synced_cache rfl, List.take_nil]
  · unfold powerFailure
    rw [unsynced_disk rfl]
    exact h

example : reload exStore exEntry = some exList ∧ exList.content ≠ (after exList exServed).content :=
  ⟨exStore_reload, by decide +kernel⟩

/-- With Badger deletions of blobs overtake writes. A list that was rebuilt, by a repair or by a replacement of its
elements, is lost with the process, although the rebuilding was acknowledged: its old segments are deleted at once and
the new ones wait in the queue, so that neither can be read. (`new` has the names of the new segments.) -/
theorem C113_badger_rebuilt (noSync : Bool) (now : Nat) (sch shuffle : Sched) (reduce : Nat → Nat) (d : Store) (ent new : Entry)
    (st : ListState) (es : List Element) (hfresh : d.heads new.scores = none)
    (hlen : (populateNew now sch shuffle reduce new es).length < 100) :
    let D := killed (run (.badger noSync) (start d) (Disk.populate now sch shuffle reduce ent new st es))
    reload D ent = none ∧ reload D new = none := by
  have hdel : ∀ p segs, ∀ w ∈ deleteSegs sch p segs, Write.deletes w = true := by
    intro p segs w hw
    unfold deleteSegs at hw
    rcases List.mem_append.1 hw with hw | hw
    · obtain ⟨g, -, rfl⟩ := List.mem_map.1 ((sch.perm _).mem_iff.1 hw)
      rfl
    · cases List.mem_singleton.1 hw; rfl
  have hcount : ((Disk.populate now sch shuffle reduce ent new st es).filter fun w => !(Write.deletes w)).length < 100 := by
    unfold Disk.populate
    have h0 : ∀ p segs, (deleteSegs sch p segs).filter (fun w => !(Write.deletes w)) = [] := fun p segs =>
      List.filter_eq_nil_iff.2 fun w hw => by simp [hdel p segs w hw]
    rw [List.filter_append, List.filter_append, h0, h0]
    exact Nat.lt_of_le_of_lt (List.length_filter_le _ _) hlen
  have hD := overtaken noSync (m := start d) (ws := Disk.populate now sch shuffle reduce ent new st es) (by
    show 0 + _ < 100
    omega)
  have hdels : ∀ w ∈ (Disk.populate now sch shuffle reduce ent new st es).filter Write.deletes, Write.deletes w = true :=
    fun w hw => (List.mem_filter.1 hw).2
  simp only [hD]
  refine ⟨reload_none (deleted_head _ hdels (.inr ?_)), reload_none (deleted_head _ hdels (.inl hfresh))⟩
  refine List.mem_filter.2 ⟨?_, rfl⟩
  unfold Disk.populate deleteSegs
  exact List.mem_append_left _ (List.mem_append_right _ (List.mem_singleton.2 rfl))

/-- The names of the segments of a rebuilt list. -/
def exRebuilt : Entry := { exEntry with scores := [110, 101, 119], index := [105, 100, 120] }

/-- The repair of a list of nine elements; with Bolt it would be read back. -/
example : reload exStore exEntry = some exList ∧ exStore.heads exRebuilt.scores = none ∧
    (populateNew 20 .inOrder .inOrder id exRebuilt exList.content).length < 100 ∧
    ((reload (writes exStore (Disk.repairWrites 20 .inOrder .inOrder id exEntry exRebuilt exList)) exRebuilt).map fun s =>
      s.content.map (·.id)) = some [6, 3, 1, 2, 9, 5, 8, 7, 4] ∧
    Disk.repairWrites 20 .inOrder .inOrder id exEntry exRebuilt exList =
      Disk.populate 20 .inOrder .inOrder id exEntry exRebuilt exList exList.content :=
  ⟨exStore_reload, by decide +kernel, by decide +kernel, by decide +kernel, by decide +kernel⟩

/-- The same for merging, which the server does by itself. If a pass of maintenance merges a segment `s` into another one and the
process is killed afterwards, the list cannot be read, and after a repair all elements of the segment are gone, whenever they
were stored. -/
theorem C113_badger_merged (noSync : Bool) (now : Nat) (merge : Bool) (sch : Sched) (d : Store) (ent : Entry) (st : ListState)
    (h : reload d ent = some st) (hok : ListOK st)
    (hsmall : 2 * st.scores.segs.length + 3 * st.index.segs.length + 2 < 100) {s : Seg} (hs : s ∈ st.scores.segs)
    (hmerged : Write.delElems ent.scores s.id ∈ Disk.split now merge sch ent st)
    (now' : Nat) (sch' shuffle : Sched) (reduce : Nat → Nat) (hlen : st.content.length + 2 ≤ 2 ^ 32)
    (hred : ∀ n, 0 < n → 0 < reduce n) (h4 : 4 ≤ ent.splitSize) :
    let D := killed (run (.badger noSync) (start d) (Disk.split now merge sch ent st))
    reload D ent = none ∧
    ∃ r, Disk.repair now' sch' shuffle reduce D ent = some r ∧ ListOK r ∧ (∀ x ∈ r.content, x ∈ st.content) ∧
      ∀ e ∈ s.elems, ∀ x ∈ r.content, x.id ≠ e.id := by
  have hD := overtaken noSync (m := start d) (ws := Disk.split now merge sch ent st) (by
    show 0 + _ < 100
    have h1 := List.length_filter_le (fun w => !(Write.deletes w)) (Disk.split now merge sch ent st)
    have h2 := C110_pass now merge sch ent st
    omega)
  simp only [hD]
  have hdels : ∀ w ∈ (Disk.split now merge sch ent st).filter Write.deletes, Write.deletes w = true :=
    fun w hw => (List.mem_filter.1 hw).2
  have hheads : (writes (killed (start d)) ((Disk.split now merge sch ent st).filter Write.deletes)).heads = d.heads :=
    kept_heads hdels fun q hq => noDelHead_split _ _ _ _ _ q (List.mem_filter.1 hq).1
  have hleft : ∀ {i l}, (writes (killed (start d)) ((Disk.split now merge sch ent st).filter Write.deletes)).elems ent.scores i =
      some l → d.elems ent.scores i = some l ∧ i ≠ s.id := fun {i l} hl => by
    obtain ⟨a, b⟩ := left_elems hdels hl
    exact ⟨a, fun hi => b (List.mem_filter.2 ⟨hi ▸ hmerged, rfl⟩)⟩
  have hr := ready_of_reload h
  obtain ⟨s0, hs0, hids⟩ := hr.heads
  obtain ⟨i0, hi0⟩ : ∃ i0, d.heads ent.index = some i0 := by
    have h2 := (reload_iff.1 h).2.1.heads
    cases hd : d.heads ent.index with
    | none => rw [hd] at h2; simp at h2
    | some s => exact ⟨s, rfl⟩
  have hseg : ∀ g ∈ s0.segs, ∃ g' ∈ st.scores.segs, g'.id = g.id := fun g hg =>
    List.mem_map.1 (hids ▸ List.mem_map_of_mem hg)
  have hfound : ∀ g ∈ s0.segs, ∀ l, (writes (killed (start d)) ((Disk.split now merge sch ent st).filter Write.deletes)).elems
      ent.scores g.id = some l → ∃ g' ∈ st.scores.segs, g' ≠ s ∧ g'.elems = l := by
    intro g hg l hl
    obtain ⟨a, b⟩ := hleft hl
    obtain ⟨g', hg', hid⟩ := hseg g hg
    refine ⟨g', hg', fun he => b (by rw [← hid, he]), ?_⟩
    have := hr.scores g' hg'
    rw [hid, a] at this
    exact (Option.some.inj this).symm
  constructor
  · have hnone : loadSegs (writes (killed (start d)) ((Disk.split now merge sch ent st).filter Write.deletes)) ent.scores = none := ?_
    · unfold reload
      rw [hnone]
    unfold loadSegs
    rw [hheads, hs0]
    dsimp only
    obtain ⟨g, hg, hgid⟩ := List.mem_map.1 (hids.symm ▸ List.mem_map_of_mem hs : s.id ∈ s0.segs.map (·.id))
    rw [if_neg (fun hc => ?_)]
    unfold complete at hc
    have := List.all_eq_true.1 hc g hg
    obtain ⟨l, hl⟩ := Option.isSome_iff_exists.1 this
    exact (hleft hl).2 hgid
  · obtain ⟨r, r1, r2, r3, -⟩ := repair_any (now := now') (sch := sch') (shuffle := shuffle) (reduce := reduce)
      (S := st.content) (by rw [hheads]; exact hs0) (by rw [hheads]; exact hi0) hok.scores.storable hlen
      (fun g hg l hl e he => by
        obtain ⟨g', hg', -, rfl⟩ := hfound g hg l hl
        exact mem_allElems.2 ⟨g', hg', he⟩) hred h4
    refine ⟨r, r1, r2, fun x hx => ?_, fun e he x hx => ?_⟩
    · obtain ⟨g, hg, l, hl, hxl⟩ := r3 x hx
      obtain ⟨g', hg', -, rfl⟩ := hfound g hg l hl
      exact mem_allElems.2 ⟨g', hg', hxl⟩
    · obtain ⟨g, hg, l, hl, hxl⟩ := r3 x hx
      obtain ⟨g', hg', hne, rfl⟩ := hfound g hg l hl
      exact other_segment hok.scores.distinct hg' hs hne hxl he

example : reload (exStoreOf exMergeable) { exEntry with mergeSize := 4, splitSize := 5 } = some exMergeable ∧ ListOK exMergeable ∧
    2 * exMergeable.scores.segs.length + 3 * exMergeable.index.segs.length + 2 < 100 ∧
    (exMergeable.scores.segs.getD 2 default).elems.map (·.id) = [5, 8] ∧
    Write.delElems exEntry.scores (exMergeable.scores.segs.getD 2 default).id ∈
      Disk.split 300 true .inOrder { exEntry with mergeSize := 4, splitSize := 5 } exMergeable :=
  ⟨by decide +kernel, exMergeable_ok, by decide +kernel, by decide +kernel, by decide +kernel⟩

end RankDB.Props

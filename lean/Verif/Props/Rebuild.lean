import Verif.Proofs.DiskRebuild
import Verif.Props.Crash
/-
C67, C68: what Reindex, Populate and Repair leave in the storage, and what a crash leaves. These operations store the
segments under new names. The names are saved later, with the list of lists; until then a process that starts
uses the old names. `ent` are the old names, `new` the new ones.
-/
namespace RankDB.Props
open Spec Disk

/-! ### C67 durability, once the new names have been saved -/

/-- After populating a list again a new process reads exactly the given elements. -/
theorem C67_populate_durable (now : Nat) (sch shuffle : Sched) (reduce : Nat → Nat) (d : Store) (ent new : Entry)
    (st st' : ListState) (l : List Element) (hne : new.scores ≠ new.index) (hm : new.mergeSize = ent.mergeSize)
    (hs : new.splitSize = ent.splitSize) (hd : DistinctIDs l) (hst : ∀ e ∈ l, Storable e) (hlen : l.length + 2 ≤ 2 ^ 32)
    (h : Lists.populate now sch shuffle reduce ent.mergeSize ent.splitSize l = some st') :
    reload (writes d (Disk.populate now sch shuffle reduce ent new st l)) new = some st' ∧ ListOK st' ∧
      st'.content = ranking l :=
  ⟨populate_reload d hne hm hs h hd hst hlen, C14_populate now sch shuffle reduce _ _ l st' hd hst hlen h⟩

/-- Names "t" and "j". -/
def exNew : Entry := { exEntry with scores := [116], index := [106] }

example : exNew.scores ≠ exNew.index ∧ exNew.splitSize = exEntry.splitSize ∧ DistinctIDs exElems ∧
    (∀ e ∈ exElems, Storable e) ∧
    (Lists.populate 100 .inOrder .reversed id exEntry.mergeSize exEntry.splitSize exElems).isSome ∧
    (Disk.populate 100 .inOrder .reversed id exEntry exNew exList exElems).length = 16 :=
  ⟨by decide, by decide, exElems_ok.1, exElems_ok.2, by decide +kernel, by decide +kernel⟩

/-- After reindexing a new process reads the list with its new index. -/
theorem C67_reindex_durable (now : Nat) (sch : Sched) (d : Store) (ent new : Entry) (st st' : ListState)
    (hr : reload d ent = some st) (hok : ListOK st) (hsc : new.scores = ent.scores) (h1 : new.scores ≠ new.index)
    (h2 : new.index ≠ ent.index) (h3 : ent.scores ≠ ent.index) (hm : new.mergeSize = ent.mergeSize)
    (hs : new.splitSize = ent.splitSize) (hlen : st.content.length + 2 ≤ 2 ^ 32)
    (h : Lists.reindex now sch st = some st') :
    reload (writes d (Disk.reindex now sch ent new st)) new = some st' ∧ ListOK st' ∧ st'.content = st.content := by
  obtain ⟨a1, a2, a3, a4⟩ := Lists.reindex_spec hok.scores hok.scoresCount hok.scoresIDs hok.flags.1 hlen h
  refine ⟨reindex_reload hr hsc h1 h2 h3 hm hs h a1 a2 a3 a4, ?_⟩
  exact C19_reindex now sch st st' hok.scores hok.scoresCount hok.scoresIDs hok.flags.1 hlen h

/-- The name "j" for the index. -/
def exNewIndex : Entry := { exEntry with index := [106] }

example : reload exStore exEntry = some exList ∧ ListOK exList ∧ exNewIndex.scores = exEntry.scores ∧
    exNewIndex.scores ≠ exNewIndex.index ∧ exNewIndex.index ≠ exEntry.index ∧ exEntry.scores ≠ exEntry.index ∧
    (Lists.reindex 100 .inOrder exList).isSome ∧
    (Disk.reindex 100 .inOrder exEntry exNewIndex exList).length = 10 :=
  ⟨exStore_reload, exList_ok, by decide, by decide, by decide, by decide, by decide +kernel, by decide +kernel⟩

/-! ### C68 crashes -/

/-- The score segments are there at any moment of reindexing. -/
theorem reindex_scores {now : Nat} {sch : Sched} {d : Store} {ent new : Entry} {st : ListState} (k : Nat)
    (hr : reload d ent = some st) (hok : ListOK st) (hsc : new.scores = ent.scores) (h1 : new.scores ≠ new.index)
    (h3 : ent.scores ≠ ent.index) (hlen : st.content.length + 2 ≤ 2 ^ 32) :
    Holds (crash k d (Disk.reindex now sch ent new st)) ent.scores st.scores := by
  obtain ⟨e1, -, -, -⟩ := reload_iff.1 hr
  have hw : ∀ w ∈ (Disk.reindex now sch ent new st).take k, w.parent ≠ ent.scores ∨ w = .head ent.scores (head st.scores) := by
    intro w hw
    have hw := List.mem_of_mem_take hw
    unfold Disk.reindex at hw
    split at hw
    · simp at hw
    · rename_i st' h
      obtain ⟨-, a2, -⟩ := Lists.reindex_spec hok.scores hok.scoresCount hok.scoresIDs hok.flags.1 hlen h
      simp only [List.mem_append] at hw
      rcases hw with hw | hw | hw | hw
      · left; rw [parent_newSegs w hw, ← hsc]; exact Ne.symm h1
      · simp only [List.mem_cons, List.not_mem_nil, or_false] at hw
        subst hw
        left; rw [← hsc]; exact Ne.symm h1
      · left; rw [parent_deleteSegs w hw]; exact Ne.symm h3
      · simp only [saveSegments, List.mem_cons, List.not_mem_nil, or_false] at hw
        rcases hw with rfl | rfl
        · right; rw [hsc, a2]
        · left; rw [← hsc]; exact Ne.symm h1
  unfold crash
  constructor
  · rcases writes_heads_cases ent.scores ((Disk.reindex now sch ent new st).take k) d with h | ⟨s, h, h'⟩ | ⟨h, -⟩
    · rw [h]; exact e1.heads
    · rcases hw _ h with h2 | h2
      · exact absurd rfl h2
      · simp only [Write.head.injEq, true_and] at h2
        rw [h', h2]
        simp [head, List.map_map, Function.comp_def]
    · rcases hw _ h with h2 | h2
      · exact absurd rfl h2
      · simp at h2
  · intro g hg
    rcases writes_elems_cases ent.scores g.id ((Disk.reindex now sch ent new st).take k) d with h | ⟨s, h, h'⟩ | ⟨h, -⟩
    · rw [h]; exact e1.elems g hg
    · rcases hw _ h with h2 | h2
      · exact absurd rfl h2
      · simp at h2
    · rcases hw _ h with h2 | h2
      · exact absurd rfl h2
      · simp at h2

/-- A crash at any moment of reindexing, also after its end but before the new name of the index was saved, loses
nothing: if the old index is there, repairing keeps all elements, and if it is not, the next operation that
changes the list rebuilds it. Missing: in the latter case repairing fails, see `C68_reindex_unsaved`. For
Populate and Repair see `C68_populate_lost`. -/
theorem C68_reindex_partial (now now' : Nat) (sch sch' shuffle : Sched) (reduce : Nat → Nat) (d : Store) (ent new : Entry)
    (st : ListState) (k : Nat) (hr : reload d ent = some st) (hok : ListOK st) (hsc : new.scores = ent.scores)
    (h1 : new.scores ≠ new.index) (h3 : ent.scores ≠ ent.index) (hlen : st.content.length + 2 ≤ 2 ^ 32)
    (hred : ∀ n, 0 < n → 0 < reduce n) (hs : 4 ≤ ent.splitSize) :
    ∃ r, ListOK r ∧ r.content = st.content ∧
      if ((crash k d (Disk.reindex now sch ent new st)).heads ent.index).isSome
      then Disk.repair now' sch' shuffle reduce (crash k d (Disk.reindex now sch ent new st)) ent = some r
      else openForUpdate now' sch' (crash k d (Disk.reindex now sch ent new st)) ent = some r := by
  have hh := reindex_scores (now := now) (sch := sch) (new := new) k hr hok hsc h1 h3 hlen
  generalize crash k d (Disk.reindex now sch ent new st) = d' at *
  cases hi : d'.heads ent.index with
  | some i0 =>
    obtain ⟨r, r1, r2, r3⟩ := repair_complete (now := now') (sch := sch') (shuffle := shuffle) (reduce := reduce) hok hh hi
      hlen hred hs
    exact ⟨r, r2, r3, by simpa using r1⟩
  | none =>
    have hl := loadSegs_of_holds hh
    obtain ⟨r, h⟩ := C19_reindex_returns now' sch'
      { scores := st.scores, index := Segments.empty now' true, mergeSize := ent.mergeSize, splitSize := ent.splitSize }
      (by show 2 ≤ ent.mergeSize + ent.splitSize; omega)
    obtain ⟨r1, r2⟩ := C19_reindex now' sch'
      { scores := st.scores, index := Segments.empty now' true, mergeSize := ent.mergeSize, splitSize := ent.splitSize }
      r hok.scores hok.scoresCount hok.scoresIDs hok.flags.1 hlen h
    refine ⟨r, r1, r2, ?_⟩
    simp only [Option.isSome_none, Bool.false_eq_true, if_false]
    unfold openForUpdate
    rw [hi, hl]
    exact h

example : reload exStore exEntry = some exList ∧ ListOK exList ∧ exNewIndex.scores = exEntry.scores ∧
    exNewIndex.scores ≠ exNewIndex.index ∧ exEntry.scores ≠ exEntry.index ∧ 4 ≤ exEntry.splitSize ∧
    ((crash 6 exStore (Disk.reindex 100 .inOrder exEntry exNewIndex exList)).heads exEntry.index).isSome ∧
    ¬ ((crash 8 exStore (Disk.reindex 100 .inOrder exEntry exNewIndex exList)).heads exEntry.index).isSome :=
  ⟨exStore_reload, exList_ok, by decide, by decide, by decide, by decide, by decide +kernel, by decide +kernel⟩

/-- Between the end of reindexing and the saving of the list of lists a process that starts can neither read nor
repair the list, whatever the list is. -/
theorem C68_reindex_unsaved (now now' : Nat) (sch sch' shuffle : Sched) (reduce : Nat → Nat) (d : Store) (ent new : Entry)
    (st : ListState) (hr : reload d ent = some st) (hok : ListOK st) (hsc : new.scores = ent.scores)
    (h1 : new.scores ≠ new.index) (h2 : new.index ≠ ent.index) (h3 : ent.scores ≠ ent.index)
    (hlen : st.content.length + 2 ≤ 2 ^ 32) (hs : 4 ≤ ent.splitSize) :
    reload (writes d (Disk.reindex now sch ent new st)) ent = none ∧
    Disk.repair now' sch' shuffle reduce (writes d (Disk.reindex now sch ent new st)) ent = none := by
  have hh := reindex_scores (now := now) (sch := sch) (new := new) (Disk.reindex now sch ent new st).length
    hr hok hsc h1 h3 hlen
  unfold crash at hh
  rw [List.take_length] at hh
  obtain ⟨-, -, -, e4⟩ := reload_iff.1 hr
  obtain ⟨st', h⟩ := C19_reindex_returns now sch st (by omega)
  have hgone : (writes d (Disk.reindex now sch ent new st)).heads ent.index = none := by
    unfold Disk.reindex
    rw [h]
    simp only [writes_append]
    rw [(writes_other _ (p := ent.index) (fun w hw => by
      rcases parent_save w hw with h | h
      · rw [h, hsc]; exact h3
      · rw [h]; exact h2)).1]
    exact deleteSegs_gone _ _ _ _
  generalize writes d (Disk.reindex now sch ent new st) = d' at *
  have hl := loadSegs_of_holds hh
  have hl2 : loadSegs d' ent.index = none := by unfold loadSegs; rw [hgone]
  constructor
  · unfold reload; rw [hl, hl2]
  · unfold Disk.repair
    unfold loadSegs at hl
    cases hs0 : d'.heads ent.scores with
    | none => rw [hs0] at hl; simp at hl
    | some s0 =>
      rw [hs0] at hl
      rw [hgone]
      simp only [] at hl ⊢
      cases hc : complete d' ent.scores s0 with
      | true => simp
      | false => rw [hc] at hl; simp at hl

/-- Populate and Repair delete the old segments before they write the new ones, and these are found only after the
list of lists has been saved. A crash at any moment between these two loses all elements, whatever the list
is: repairing the list gives an empty one. -/
theorem C68_populate_lost (now now' : Nat) (sch sch' shuffle shuffle' : Sched) (reduce reduce' : Nat → Nat) (d : Store)
    (ent new : Entry) (st : ListState) (l : List Element) (k : Nat)
    (hne : ent.scores ≠ ent.index ∧ ent.scores ≠ new.scores ∧ ent.scores ≠ new.index)
    (hk : st.scores.segs.length < k) :
    ∃ r, Disk.repair now' sch' shuffle' reduce' (crash k d (Disk.populate now sch shuffle reduce ent new st l)) ent = some r ∧
      r.content = [] := by
  have hgone : (crash k d (Disk.populate now sch shuffle reduce ent new st l)).heads ent.scores = none := by
    unfold crash Disk.populate
    have hlen : (deleteSegs sch ent.scores st.scores.segs).length ≤ k := by
      unfold deleteSegs
      rw [List.length_append, (sch.perm _).length_eq, List.length_map, List.length_singleton]
      omega
    rw [List.take_append, List.take_of_length_le hlen, writes_append]
    rw [(writes_other _ (p := ent.scores) ?_).1]
    · exact deleteSegs_gone _ _ _ _
    · intro w hw
      have hw := List.mem_of_mem_take hw
      rcases List.mem_append.1 hw with hw | hw
      · rw [parent_deleteSegs w hw]; exact Ne.symm hne.1
      · have hnew : w.parent = new.scores ∨ w.parent = new.index := parent_populateNew w hw
        rcases hnew with h | h
        · rw [h]; exact Ne.symm hne.2.1
        · rw [h]; exact Ne.symm hne.2.2
  refine ⟨_, by unfold Disk.repair; rw [hgone], Lists.initEmpty_content _ _ _⟩

/-- The same for Repair. -/
theorem C68_repair_lost (now now' : Nat) (sch sch' shuffle shuffle' : Sched) (reduce reduce' : Nat → Nat) (d : Store)
    (ent new : Entry) (st : ListState) (k : Nat)
    (hne : ent.scores ≠ ent.index ∧ ent.scores ≠ new.scores ∧ ent.scores ≠ new.index)
    (hk : st.scores.segs.length < k) :
    ∃ r, Disk.repair now' sch' shuffle' reduce' (crash k d (Disk.repairWrites now sch shuffle reduce ent new st)) ent = some r ∧
      r.content = [] :=
  C68_populate_lost now now' sch sch' shuffle shuffle' reduce reduce' d ent new st _ k hne hk

/-- Repairing `exList`, crash after half of the writes. -/
example : reload exStore exEntry = some exList ∧ exList.content.length = 9 ∧
    (Disk.repairWrites 100 .inOrder .inOrder id exEntry exNew exList).length = 16 ∧ exList.scores.segs.length < 8 :=
  ⟨exStore_reload, by decide +kernel, by decide +kernel, by decide +kernel⟩

end RankDB.Props

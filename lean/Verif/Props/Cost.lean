import Verif.Proofs.Cost
import Verif.Props.ReadFaults
import Verif.Props.Crash
/-
C110: what operations on a list read and write, against the table in README.md ("Operation Complexity"). There is no
cache. Segments that are written are given by their IDs (`rewritten`), segments that are read by their positions.
-/
namespace RankDB.Props
open Spec ReadFaults Cost Disk

theorem at_congr {segs : List Seg} {P Q : Nat → Prop} (h : ∀ i, P i ↔ Q i) (id : Nat) : At segs P id ↔ At segs Q id :=
  ⟨fun ⟨j, s, j1, j2, j3⟩ => ⟨j, s, j1, j2, (h j).1 j3⟩, fun ⟨j, s, j1, j2, j3⟩ => ⟨j, s, j1, j2, (h j).2 j3⟩⟩

theorem onlyElements_of {ent : Entry} {sch : Sched} {p q : Str} {a b : List Nat} {x y : List Seg} {st : ListState}
    (hp : p = ent.scores ∨ p = ent.index) (hq : q = ent.scores ∨ q = ent.index) :
    OnlyElements ent (sch.order (replaceAt p a x) ++ (sch.order (replaceAt q b y) ++ saveSegments ent st)) := by
  have key : ∀ (p : Str) (a : List Nat) (x : List Seg), p = ent.scores ∨ p = ent.index →
      ∀ w ∈ sch.order (replaceAt p a x), ∃ id l, w = .elems ent.scores id l ∨ w = .elems ent.index id l := by
    intro p a x hp w hw
    obtain ⟨i, -, hi⟩ := List.mem_filterMap.1 ((sch.perm _).mem_iff.1 hw)
    obtain ⟨s, -, rfl⟩ := Option.map_eq_some_iff.1 hi
    rcases hp with rfl | rfl
    · exact ⟨_, _, .inl rfl⟩
    · exact ⟨_, _, .inr rfl⟩
  refine ⟨sch.order (replaceAt p a x) ++ sch.order (replaceAt q b y), _, _, by rw [List.append_assoc]; rfl, fun w hw => ?_⟩
  rcases List.mem_append.1 hw with hw | hw
  · exact key p a x hp w hw
  · exact key q b y hq w hw

/-- `UpdateElements` of `k` elements writes exactly the index segments for their IDs, once each and at most `k`, and the
score segments in which elements are or will be, once each and at most `2 * k`; then the two tables. -/
theorem C110_update_writes (now : Nat) (sch : Sched) (ent : Entry) (st : ListState) (es : List Element) (h : ListOK st)
    (hes : ∀ e ∈ es, Storable e) (hd : DistinctIDs es) (hnow : now < 2 ^ 32 - 1) (hne : ent.scores ≠ ent.index) :
    let ws := Disk.updateElements now sch ent st es
    OnlyElements ent ws ∧
    (rewritten ent.index ws).Nodup ∧ (rewritten ent.index ws).length ≤ es.length ∧
    (∀ id, id ∈ rewritten ent.index ws ↔ At st.index.segs (fun i => ∃ e ∈ es, Covers st.index.segs i e.id) id) ∧
    (rewritten ent.scores ws).Nodup ∧ (rewritten ent.scores ws).length ≤ 2 * es.length ∧
    ∀ id, id ∈ rewritten ent.scores ws ↔
      At st.scores.segs (fun i => ∃ e ∈ es, Belongs st.scores.segs i e ∨ Holds st.scores.segs i e.id) id := by
  obtain ⟨-, -, -, -, hss, hsi, -⟩ := Lists.updateElements_full (sch := sch) h hes hd hnow
  have hI := rewritten_spec (p := ent.index) (sch := sch) hsi h.index
    (nodup_eraseDups _ (Lists.loadedIndex st es) (Nat.le_refl _))
  have hS := rewritten_spec (p := ent.scores) (sch := sch) hss h.scores
    (nodup_eraseDups _ (Lists.loadedScores st es) (Nat.le_refl _))
  intro ws
  have eI : rewritten ent.index ws = rewritten ent.index (sch.order (replaceAt ent.index (Lists.loadedIndex st es).eraseDups
      (Lists.updateElements now sch st es).index.segs)) := by
    show rewritten ent.index (Disk.updateElements now sch ent st es) = _
    unfold Disk.updateElements
    rw [rewritten_append, rewritten_append, rewritten_other hne, rewritten_save]
    simp
  have eS : rewritten ent.scores ws = rewritten ent.scores (sch.order (replaceAt ent.scores (Lists.loadedScores st es).eraseDups
      (Lists.updateElements now sch st es).scores.segs)) := by
    show rewritten ent.scores (Disk.updateElements now sch ent st es) = _
    unfold Disk.updateElements
    rw [rewritten_append, rewritten_append, rewritten_other (Ne.symm hne), rewritten_save]
    simp
  rw [eI, eS]
  refine ⟨onlyElements_of (.inr rfl) (.inl rfl), hI.1, ?_, fun id => ?_, hS.1, ?_, fun id => ?_⟩
  · exact Nat.le_trans hI.2.1 (Nat.le_trans (eraseDups_length_le _) (loadedIndex_length st es))
  · rw [hI.2.2 id]
    exact at_congr (fun i => List.mem_eraseDups.trans (loadedIndex_spec h hes i)) id
  · exact Nat.le_trans hS.2.1 (loadedScores_count h hes)
  · rw [hS.2.2 id]
    exact at_congr (fun i => List.mem_eraseDups.trans (loadedScores_spec h hes i)) id

/-- Element 3 moves to another segment and element 4 remains in its segment. -/
def exMove : List Element := [⟨12, 3, [], 0, 0⟩, ⟨11, 4, [], 0, 0⟩]

example : ListOK exList ∧ (∀ e ∈ exMove, Storable e) ∧ DistinctIDs exMove ∧ exEntry.scores ≠ exEntry.index ∧
    rewritten exEntry.index (Disk.updateElements 200 .reversed exEntry exList exMove) = [3, 2] ∧
    rewritten exEntry.scores (Disk.updateElements 200 .reversed exEntry exList exMove) = [1, 3] ∧
    (Disk.updateElements 200 .reversed exEntry exList exMove).length = 6 :=
  ⟨exList_ok, by decide +kernel⟩

/-- If elements remain in their segments, one score segment each is enough. -/
theorem C110_same_segment (now : Nat) (sch : Sched) (ent : Entry) (st : ListState) (es : List Element) (h : ListOK st)
    (hes : ∀ e ∈ es, Storable e) (hd : DistinctIDs es) (hnow : now < 2 ^ 32 - 1) (hne : ent.scores ≠ ent.index)
    (hst : ∀ e ∈ es, ∀ i, Holds st.scores.segs i e.id → Belongs st.scores.segs i e) :
    (rewritten ent.scores (Disk.updateElements now sch ent st es)).length ≤ es.length ∧
    (scoreReads (updateReads st es)).length ≤ es.length := by
  obtain ⟨-, -, -, -, hss, -⟩ := Lists.updateElements_full (sch := sch) h hes hd hnow
  have hS := rewritten_spec (p := ent.scores) (sch := sch) hss h.scores
    (nodup_eraseDups _ (Lists.loadedScores st es) (Nat.le_refl _))
  constructor
  · unfold Disk.updateElements
    rw [rewritten_append, rewritten_append, rewritten_other (Ne.symm hne), rewritten_save]
    simp only [List.nil_append, List.append_nil]
    exact Nat.le_trans hS.2.1 (loadedScores_stay h hes hst)
  · have : scoreReads (updateReads st es) = (Lists.loadedScores st es).eraseDups := by
      unfold scoreReads updateReads
      rw [List.filterMap_append, List.filterMap_map, List.filterMap_map]
      simp [Function.comp_def]
    rw [this]
    exact loadedScores_stay h hes hst

example : ∀ e ∈ [⟨11, 4, [], 0, 0⟩], ∀ i, Holds exList.scores.segs i e.id → Belongs exList.scores.segs i e := by
  intro e he i ⟨s, s1, x, x1, x2⟩
  obtain rfl : e = ⟨11, 4, [], 0, 0⟩ := by simpa using he
  have hlt : i < exList.scores.segs.length := (List.getElem?_eq_some_iff.1 s1).1
  have hl : exList.scores.segs.length = 3 := by decide +kernel
  have key : ∀ i < 3, ∀ x ∈ ((exList.scores.segs[i]?).getD default).elems, x.id = 4 →
      InRange ((exList.scores.segs[i]?).getD default) ⟨11, 4, [], 0, 0⟩ := by decide +kernel
  refine ⟨s, s1, ?_⟩
  have := key i (by omega) x (by rw [s1]; exact x1) x2
  rwa [s1] at this

/-- The index segment of an updated element is always written, also if the element remains in its score segment: the
table says that there is "no EI" then. -/
theorem C110_index_rewritten (now : Nat) (sch : Sched) (ent : Entry) (st : ListState) (es : List Element) (h : ListOK st)
    (hes : ∀ e ∈ es, Storable e) (hd : DistinctIDs es) (hnow : now < 2 ^ 32 - 1) (hne : ent.scores ≠ ent.index)
    {e : Element} (he : e ∈ es) :
    ∃ i s, st.index.segs[i]? = some s ∧ Covers st.index.segs i e.id ∧
      s.id ∈ rewritten ent.index (Disk.updateElements now sch ent st es) := by
  obtain ⟨-, -, -, h1, -⟩ := C110_update_writes now sch ent st es h hes hd hnow hne
  have hid : ∀ v ∈ Lists.updateIDs es, v < 2 ^ 64 := fun v hv => by
    obtain ⟨e, e1, rfl⟩ := mem_updateIDs.1 hv
    exact (hes e e1).id
  obtain ⟨l1, -, -⟩ := Lists.locate_spec h.isIndex hid (mem_updateIDs.2 ⟨e, he, rfl⟩)
  obtain ⟨s, s1, s2⟩ := l1.seg
  exact ⟨_, s, s1, ⟨s, s1, s2⟩, (h1 s.id).2 ⟨_, s, s1, rfl, e, he, s, s1, s2⟩⟩

/-- Even an update that changes nothing, of one element, writes its index segment, its score segment and both tables. -/
example : rewritten exEntry.index (Disk.updateElements 200 .inOrder exEntry exList [⟨10, 4, [1, 2], 0, 8⟩]) = [2] ∧
    rewritten exEntry.scores (Disk.updateElements 200 .inOrder exEntry exList [⟨10, 4, [1, 2], 0, 8⟩]) = [3] ∧
    (Disk.updateElements 200 .inOrder exEntry exList [⟨10, 4, [1, 2], 0, 8⟩]).length = 4 := by decide +kernel

/-- `UpdateElements` of `k` elements reads the segments it writes, once each. -/
theorem C110_update_reads (st : ListState) (es : List Element) (h : ListOK st) (hes : ∀ e ∈ es, Storable e) :
    (updateReads st es).Nodup ∧
    (indexReads (updateReads st es)).length ≤ es.length ∧
    (∀ i, i ∈ indexReads (updateReads st es) ↔ ∃ e ∈ es, Covers st.index.segs i e.id) ∧
    (scoreReads (updateReads st es)).length ≤ 2 * es.length ∧
    ∀ i, i ∈ scoreReads (updateReads st es) ↔ ∃ e ∈ es, Belongs st.scores.segs i e ∨ Holds st.scores.segs i e.id := by
  have e1 : indexReads (updateReads st es) = (Lists.loadedIndex st es).eraseDups := by
    unfold indexReads updateReads
    rw [List.filterMap_append, List.filterMap_map, List.filterMap_map]
    simp [Function.comp_def]
  have e2 : scoreReads (updateReads st es) = (Lists.loadedScores st es).eraseDups := by
    unfold scoreReads updateReads
    rw [List.filterMap_append, List.filterMap_map, List.filterMap_map]
    simp [Function.comp_def]
  rw [e1, e2]
  refine ⟨?_, Nat.le_trans (eraseDups_length_le _) (loadedIndex_length st es),
    fun i => List.mem_eraseDups.trans (loadedIndex_spec h hes i), loadedScores_count h hes,
    fun i => List.mem_eraseDups.trans (loadedScores_spec h hes i)⟩
  unfold updateReads
  rw [List.nodup_append]
  refine ⟨?_, ?_, ?_⟩
  · exact (nodup_eraseDups _ _ (Nat.le_refl _)).map _ fun _ _ hab heq => hab (congrArg Prod.snd heq)
  · exact (nodup_eraseDups _ _ (Nat.le_refl _)).map _ fun _ _ hab heq => hab (congrArg Prod.snd heq)
  · intro a ha b hb heq
    obtain ⟨i, -, rfl⟩ := List.mem_map.1 ha
    obtain ⟨j, -, rfl⟩ := List.mem_map.1 hb
    nomatch congrArg Prod.fst heq

example : indexReads (updateReads exList exMove) = [1, 2] ∧ scoreReads (updateReads exList exMove) = [2, 0] := by
  decide +kernel

/-- `DeleteElements` writes exactly the segments with elements that are deleted, at most one of each kind for each ID,
and the two tables. -/
theorem C110_delete_writes (now : Nat) (sch : Sched) (ent : Entry) (st : ListState) (ids : List Nat) (h : ListOK st)
    (hid : ∀ v ∈ ids, v < 2 ^ 64) (hne : ent.scores ≠ ent.index) :
    let ws := Disk.deleteElements now sch ent st ids
    OnlyElements ent ws ∧
    (rewritten ent.index ws).Nodup ∧ (rewritten ent.index ws).length ≤ ids.length ∧
    (∀ id, id ∈ rewritten ent.index ws ↔ At st.index.segs (fun i => ∃ v ∈ ids, Holds st.index.segs i v) id) ∧
    (rewritten ent.scores ws).Nodup ∧ (rewritten ent.scores ws).length ≤ ids.length ∧
    ∀ id, id ∈ rewritten ent.scores ws ↔ At st.scores.segs (fun i => ∃ v ∈ ids, Holds st.scores.segs i v) id := by
  obtain ⟨ws', -, hstep⟩ := deleteElements_step now sch ent st ids
  have hI := rewritten_spec (p := ent.index) (sch := sch) hstep.index h.index
    (touched_nodup st.index.segs (Segments.deleteElementsIdx now sch st.scores.segs (Lists.getIndexElements sch st ids)).2 0)
  have hS := rewritten_spec (p := ent.scores) (sch := sch) hstep.scores h.scores
    (touchedIdx_nodup st.scores.segs (Lists.getIndexElements sch st ids))
  intro ws
  have eI : rewritten ent.index ws = rewritten ent.index (sch.order (replaceAt ent.index (touched 0 st.index.segs
      (Segments.deleteElementsIdx now sch st.scores.segs (Lists.getIndexElements sch st ids)).2)
      (Lists.deleteElements now sch st ids).index.segs)) := by
    show rewritten ent.index (Disk.deleteElements now sch ent st ids) = _
    unfold Disk.deleteElements
    dsimp only
    rw [rewritten_append, rewritten_append, rewritten_other hne, rewritten_save]
    simp
  have eS : rewritten ent.scores ws = rewritten ent.scores (sch.order (replaceAt ent.scores
      (touchedIdx st.scores.segs (Lists.getIndexElements sch st ids)) (Lists.deleteElements now sch st ids).scores.segs)) := by
    show rewritten ent.scores (Disk.deleteElements now sch ent st ids) = _
    unfold Disk.deleteElements
    dsimp only
    rw [rewritten_append, rewritten_append, rewritten_other (Ne.symm hne), rewritten_save]
    simp
  rw [eI, eS]
  refine ⟨onlyElements_of (.inl rfl) (.inr rfl), hI.1, Nat.le_trans hI.2.1 (holdsIndex_count h now sch hid), fun id => ?_,
    hS.1, Nat.le_trans hS.2.1 (holdsScores_count h sch hid), fun id => ?_⟩
  · rw [hI.2.2 id]
    exact at_congr (deleteIndex_spec h now sch hid) id
  · rw [hS.2.2 id]
    exact at_congr (deleteScores_spec h sch hid) id

example : ListOK exList ∧ exEntry.scores ≠ exEntry.index ∧
    rewritten exEntry.index (Disk.deleteElements 200 .inOrder exEntry exList [4, 77, 3, 4]) = [2, 3] ∧
    rewritten exEntry.scores (Disk.deleteElements 200 .inOrder exEntry exList [4, 77, 3, 4]) = [1, 3] ∧
    (Disk.deleteElements 200 .inOrder exEntry exList [77]).length = 2 := ⟨exList_ok, by decide +kernel⟩

/-- `DeleteElements` reads the index segments for the IDs, the score segments with the elements, and then again the
index segments with elements that are deleted: at most two index segments and one score segment for each ID. -/
theorem C110_delete_reads (now : Nat) (sch : Sched) (st : ListState) (ids : List Nat) (h : ListOK st)
    (hid : ∀ v ∈ ids, v < 2 ^ 64) :
    (indexReads (deleteReads now sch st ids)).length ≤ 2 * ids.length ∧
    (∀ i, i ∈ indexReads (deleteReads now sch st ids) → ∃ v ∈ ids, Covers st.index.segs i v) ∧
    (scoreReads (deleteReads now sch st ids)).Nodup ∧ (scoreReads (deleteReads now sch st ids)).length ≤ ids.length ∧
    ∀ i, i ∈ scoreReads (deleteReads now sch st ids) ↔ ∃ v ∈ ids, Holds st.scores.segs i v := by
  have e1 : indexReads (deleteReads now sch st ids) = (Segments.splitScores st.index.segs (uniq ids)).map (·.1) ++
      touched 0 st.index.segs (Segments.deleteElementsIdx now sch st.scores.segs (Lists.getIndexElements sch st ids)).2 := by
    unfold indexReads deleteReads
    dsimp only
    rw [List.filterMap_append, List.filterMap_append, List.filterMap_map, List.filterMap_map, List.filterMap_map]
    simp [Function.comp_def]
  have e2 : scoreReads (deleteReads now sch st ids) = touchedIdx st.scores.segs (Lists.getIndexElements sch st ids) := by
    unfold scoreReads deleteReads
    dsimp only
    rw [List.filterMap_append, List.filterMap_append, List.filterMap_map, List.filterMap_map, List.filterMap_map]
    have hn : ∀ {α : Type} (l : List α), l.filterMap (fun _ => (none : Option Nat)) = [] := fun l => by
      rw [List.filterMap_eq_nil_iff]; exact fun _ _ => rfl
    simp [Function.comp_def, hn]
  have huniq : (uniq ids).length ≤ ids.length := uniq_length ids
  rw [e1, e2]
  refine ⟨?_, fun i hi => ?_, touchedIdx_nodup _ _, holdsScores_count h sch hid, deleteScores_spec h sch hid⟩
  · rw [List.length_append, List.length_map]
    have := splitScores_length st.index.segs (uniq ids)
    have := holdsIndex_count h now sch hid
    omega
  · rcases List.mem_append.1 hi with hi | hi
    · obtain ⟨m, hm, rfl⟩ := List.mem_map.1 hi
      obtain ⟨v, v1, v2⟩ := splitScores_covers h.isIndex (fun v hv => hid v (mem_uniq.1 hv)) m hm
      exact ⟨v, mem_uniq.1 v1, v2⟩
    · obtain ⟨v, v1, s, s1, x, x1, x2⟩ := (deleteIndex_spec h now sch hid i).1 hi
      have hs := List.mem_of_getElem? s1
      have hx := mem_allElems.2 ⟨s, hs, x1⟩
      refine ⟨v, v1, s, s1, ?_⟩
      rw [← x2, ← h.link.byID x hx]
      exact (Segments.inRange_aligned (h.isIndex.aligned s hs) (h.index.storable x hx).tie).1 (h.index.inRange s hs x x1)

/-- The table says that deleting an element reads one index segment: it is read twice. -/
theorem C110_delete_reads_twice (now : Nat) (sch : Sched) (st : ListState) (h : ListOK st) {e : Element}
    (he : e ∈ st.content) :
    ∃ i j, deleteReads now sch st [e.id] = [(true, i), (false, j), (true, i)] := by
  have hid : ∀ v ∈ [e.id], v < 2 ^ 64 := fun v hv => by
    rw [List.mem_singleton.1 hv]
    exact (h.scores.storable e he).id
  obtain ⟨x, x1, x2⟩ := List.mem_map.1 (h.link.ids.mem_iff.2 (List.mem_map.2 ⟨e, he, rfl⟩))
  obtain ⟨t, t1, t2⟩ := mem_allElems.1 x1
  obtain ⟨i, hi⟩ := List.mem_iff_getElem?.1 t1
  obtain ⟨s, s1, s2⟩ := mem_allElems.1 he
  obtain ⟨j, hj⟩ := List.mem_iff_getElem?.1 s1
  have hI : i ∈ touched 0 st.index.segs (Segments.deleteElementsIdx now sch st.scores.segs
      (Lists.getIndexElements sch st [e.id])).2 :=
    (deleteIndex_spec h now sch hid i).2 ⟨e.id, List.mem_singleton.2 rfl, t, hi, x, t2, x2⟩
  have hS : j ∈ touchedIdx st.scores.segs (Lists.getIndexElements sch st [e.id]) :=
    (deleteScores_spec h sch hid j).2 ⟨e.id, List.mem_singleton.2 rfl, s, hj, e, s2, rfl⟩
  have hL : i ∈ (Segments.splitScores st.index.segs (uniq [e.id])).map (·.1) := by
    refine (loadedIndex_spec h (es := [e]) (fun y hy => ?_) i).2 ⟨e, List.mem_singleton.2 rfl, t, hi, ?_⟩
    · rw [List.mem_singleton.1 hy]; exact h.scores.storable e he
    · rw [← x2, ← h.link.byID x x1]
      exact (Segments.inRange_aligned (h.isIndex.aligned t t1) (h.index.storable x x1).tie).1 (h.index.inRange t t1 x t2)
  have e1 := eq_singleton (by rw [List.length_map]; exact splitScores_length _ _) hL
  have e2 := eq_singleton (holdsScores_count h sch hid) hS
  have e3 := eq_singleton (holdsIndex_count h now sch hid) hI
  refine ⟨i, j, ?_⟩
  unfold deleteReads
  dsimp only
  rw [e2, e3, show (Segments.splitScores st.index.segs (uniq [e.id])).map (fun m => (true, m.1)) =
    ((Segments.splitScores st.index.segs (uniq [e.id])).map (·.1)).map fun i => (true, i) by rw [List.map_map]; rfl, e1]
  rfl

example : ⟨10, 4, [1, 2], 0, 8⟩ ∈ exList.content ∧
    deleteReads 200 .inOrder exList [4] = [(true, 1), (false, 2), (true, 1)] := by decide +kernel

/-- With results, `UpdateElements` of `k` elements reads at most `2 * k` segments more if no neighbours are asked for. -/
theorem C110_update_results (now : Nat) (sch : Sched) (st : ListState) (es : List Element) (h : ListOK st)
    (hes : ∀ e ∈ es, Storable e) (hd : DistinctIDs es) (hnow : now < 2 ^ 32 - 1) :
    ∃ more, updateResultReads now sch st es 0 = updateReads st es ++ more ∧ more.length ≤ 2 * es.length := by
  refine ⟨_, rfl, ?_⟩
  obtain ⟨hok, -⟩ := Lists.updateElements_full (sch := sch) h hes hd hnow
  have hid : ∀ v ∈ Lists.updateIDs es, v < 2 ^ 64 := fun v hv => by
    obtain ⟨e, e1, rfl⟩ := mem_updateIDs.1 hv
    exact (hes e e1).id
  obtain ⟨-, -, h3⟩ := C109_lookup (sch := sch) _ hok _ hid 0 (runs_run (fails := fun _ _ => false) _ 0)
  have := uniq_length (Lists.updateIDs es)
  rw [updateIDs_length] at this
  rw [List.length_map]
  exact Nat.le_trans (h3 rfl) (by omega)

/-- The table has one index segment and two score segments for updating an element: with results, segments that have
been read are read again. -/
theorem C110_results_read_again :
    ∃ st es, ListOK st ∧ (∀ e ∈ es, Storable e) ∧ es.length = 1 ∧
      updateResultReads 200 .inOrder st es 0 = [(true, 2), (false, 2), (false, 0), (true, 2), (false, 2)] :=
  ⟨exList, [⟨12, 3, [], 0, 0⟩], exList_ok, by decide +kernel⟩

/-- The element at a rank is got with one read. -/
theorem C110_at_rank (st : ListState) (h : ListOK st) (rank : Nat) (hr : rank < st.content.length)
    {t : List (Place × Bool)} {a : Answer (List Element)} (hrun : Runs (stored st) (rankTop st rank 1) t a) : t.length = 1 := by
  have hp := C22_rank_top st rank 1 h
  rw [if_pos hr] at hp
  unfold Lists.getRankTop at hp
  unfold rankTop at hrun
  obtain ⟨⟨i, o⟩, hs, -⟩ := Option.map_eq_some_iff.1 hp
  rw [hs] at hrun
  dsimp only at hrun
  have hin := segIdxTop_inside (k := 0) h.scoresCount (by rw [Nat.zero_add]; exact hs)
  have hlt : i < st.scores.segs.length := by
    apply Classical.byContradiction
    intro hn
    unfold Segments.elemsAt at hin
    rw [List.getElem?_eq_none (by omega)] at hin
    exact absurd hin (Nat.not_lt_zero _)
  obtain ⟨left, hleft⟩ : ∃ left, st.scores.segs.length - i = left + 1 := ⟨st.scores.segs.length - i - 1, by omega⟩
  rw [hleft] at hrun
  unfold readOffset at hrun
  rw [if_neg (by decide)] at hrun
  have hl : (stored st (false, i)).length = (Segments.elemsAt st.scores.segs i).length := rfl
  cases hrun with
  | fail hrun => obtain ⟨rfl, -⟩ := runs_done hrun; rfl
  | ok hrun =>
    dsimp only at hrun
    rw [if_neg (by omega)] at hrun
    split at hrun
    · obtain ⟨rfl, -⟩ := runs_done hrun; rfl
    · obtain ⟨t₁, t₂, x, rfl, h1, h2⟩ := runs_bind hrun
      have hz : 1 - ((stored st (false, i)).drop o).length = 0 := by rw [List.length_drop]; omega
      rw [hz] at h1
      have : t₁ = [] := by
        cases left with
        | zero => exact (runs_done h1).1
        | succ left => unfold readOffset at h1; rw [if_pos rfl] at h1; exact (runs_done h1).1
      subst this
      split at h2
      · obtain ⟨rfl, -⟩ := runs_done h2; rfl
      · obtain ⟨rfl, -⟩ := runs_done h2; rfl

example : ListOK exList ∧ 4 < exList.content.length ∧
    Runs (stored exList) (rankTop exList 4 1) [((false, 1), true)] (.given [⟨33, 9, [], 0, 7⟩]) := by
  refine ⟨exList_ok, by decide +kernel, ?_⟩
  have := runs_run (fails := fun _ _ => false) (elems := stored exList) (rankTop exList 4 1) 0
  rwa [show run (fun _ _ => false) (stored exList) 0 (rankTop exList 4 1) =
    ([((false, 1), true)], .given [⟨33, 9, [], 0, 7⟩]) by decide +kernel] at this

/-- A page of two elements takes two reads if it crosses the end of a segment, however large the segments are: the
table has `1 + FLOOR((To-From)/$$)`, which is one for segments of more than two elements. -/
theorem C110_range_one_more (st : ListState) (h : ListOK st) {a b : Seg} {rest : List Seg}
    (hs : st.scores.segs = a :: b :: rest) (ha : a.elems ≠ []) (hb : b.elems ≠ []) {t : List (Place × Bool)}
    {l : List Element} (hrun : Runs (stored st) (rankTop st (a.elems.length - 1) 2) t (.given l)) : t.length = 2 := by
  have hpa := List.length_pos_iff.2 ha
  have hpb := List.length_pos_iff.2 hb
  have hn : a.n = a.elems.length := h.scoresCount a (by rw [hs]; exact List.mem_cons_self)
  have hidx : Segments.segIdxTop st.scores.segs 0 (a.elems.length - 1) = some (0, a.elems.length - 1) := by
    rw [hs]; unfold Segments.segIdxTop; rw [if_pos (by omega)]
  have s0 : stored st (false, 0) = a.elems := by unfold stored Segments.elemsAt; simp [hs]
  have s1 : stored st (false, 1) = b.elems := by unfold stored Segments.elemsAt; simp [hs]
  unfold rankTop at hrun
  rw [hidx] at hrun
  dsimp only at hrun
  rw [show st.scores.segs.length - 0 = rest.length + 1 + 1 by rw [hs]; rfl] at hrun
  unfold readOffset at hrun
  rw [if_neg (by decide)] at hrun
  generalize hq : (Answer.given l) = q at hrun
  cases hrun with
  | fail hrun => obtain ⟨rfl, rfl⟩ := runs_done hrun; cases hq
  | ok hrun =>
    dsimp only at hrun
    rw [s0, if_neg (by omega)] at hrun
    have hd : (a.elems.drop (a.elems.length - 1)).length = 1 := by rw [List.length_drop]; omega
    rw [hd, if_neg (by decide)] at hrun
    obtain ⟨t₁, t₂, x, rfl, h1, h2⟩ := runs_bind hrun
    have ht2 : t₂ = [] := by
      split at h2
      · exact (runs_done h2).1
      · exact (runs_done h2).1
    subst ht2
    unfold readOffset at h1
    rw [if_neg (by decide)] at h1
    cases h1 with
    | fail h1 => obtain ⟨rfl, rfl⟩ := runs_done h1; rfl
    | ok h1 =>
      dsimp only at h1
      rw [s1, if_neg (by omega)] at h1
      split at h1
      · obtain ⟨rfl, -⟩ := runs_done h1; rfl
      · obtain ⟨t₁, t₂, y, rfl, h3, h4⟩ := runs_bind h1
        have hz : 2 - 1 - (b.elems.drop 0).length = 0 := by rw [List.drop_zero]; omega
        rw [hz] at h3
        have ht1 : t₁ = [] := by
          cases hr : rest.length with
          | zero => rw [hr] at h3; exact (runs_done h3).1
          | succ r => rw [hr] at h3; unfold readOffset at h3; rw [if_pos rfl] at h3; exact (runs_done h3).1
        have ht2 : t₂ = [] := by
          split at h4
          · exact (runs_done h4).1
          · exact (runs_done h4).1
        subst ht1 ht2
        rfl

example : ∃ a b rest, exList.scores.segs = a :: b :: rest ∧ a.elems.length = 3 ∧ b.elems.length = 4 ∧
    ∃ t, Runs (stored exList) (rankTop exList (a.elems.length - 1) 2) t (.given [⟨50, 1, [], 3, 7⟩, ⟨50, 2, [9], 0, 7⟩]) := by
  refine ⟨exList.scores.segs.getD 0 default, exList.scores.segs.getD 1 default, exList.scores.segs.drop 2,
    by decide +kernel, by decide +kernel, by decide +kernel, ?_⟩
  have := runs_run (fails := fun _ _ => false) (elems := stored exList)
    (rankTop exList ((exList.scores.segs.getD 0 default).elems.length - 1) 2) 0
  rw [show (run (fun _ _ => false) (stored exList) 0
    (rankTop exList ((exList.scores.segs.getD 0 default).elems.length - 1) 2)).2 =
    .given [⟨50, 1, [], 3, 7⟩, ⟨50, 2, [9], 0, 7⟩] by decide +kernel] at this
  exact ⟨_, this⟩

/-- One element with a score is got with two reads of the same segment: the table has one. -/
theorem C110_score_twice :
    ∃ st t r, ListOK st ∧ Runs (stored st) (rankScoreDesc st 33 1) t (.given [r]) ∧ r.1.score = 33 ∧
      t = [((false, 1), true), ((false, 1), true)] := by
  have := runs_run (fails := fun _ _ => false) (elems := stored exList) (rankScoreDesc exList 33 1) 0
  rw [show run (fun _ _ => false) (stored exList) 0 (rankScoreDesc exList 33 1) =
    ([((false, 1), true), ((false, 1), true)], .given [(⟨33, 9, [], 0, 7⟩, 4, 4)]) by decide +kernel] at this
  exact ⟨exList, _, _, exList_ok, this, rfl, rfl⟩

/-- Splitting and merging a list that does not need it writes nothing. -/
theorem C110_settled (now : Nat) (merge : Bool) (sch : Sched) (ent : Entry) (st : ListState) (h : ListOK st)
    (hs : Settled st.splitSize st.mergeSize merge st.scores.segs) (hi : Settled st.splitSize st.mergeSize true st.index.segs) :
    Disk.split now merge sch ent st = [] ∧ Lists.split now merge st = st := by
  obtain ⟨q1, q2⟩ := settled_quiet hs h.scoresCount
  obtain ⟨q3, q4⟩ := settled_quiet hi h.indexCount
  obtain ⟨r1, r2⟩ := splitLoop_quiet ent.scores (now := now) (merge := merge) (isIndex := false) (u := 0) (done := [])
    (nid := st.scores.nextID) q1 q2
  obtain ⟨r3, r4⟩ := splitLoop_quiet ent.index (now := now) (merge := true) (isIndex := true) (u := 1) (done := [])
    (nid := st.index.nextID) q3 q4
  have hu : Segments.updateIndexElements now st.index.segs [] = st.index.segs := rfl
  constructor
  · unfold Disk.split Disk.splitScores Disk.splitIndex
    simp only [r1, r2, hu, r3]
    rfl
  · unfold Lists.split
    simp only [r2, hu, r4]
    rfl

example : let st := Lists.split 200 false exList
    ListOK st ∧ Settled st.splitSize st.mergeSize true st.scores.segs ∧ Settled st.splitSize st.mergeSize true st.index.segs ∧
    st.scores.segs.length = 4 := by
  refine ⟨(listOK_iff _).1 (by decide +kernel), ⟨by decide +kernel, fun _ a b l₁ l₂ he => ?_⟩,
    ⟨by decide +kernel, fun _ a b l₁ l₂ he => ?_⟩, by decide +kernel⟩
  · have key : ∀ s ∈ (Lists.split 200 false exList).scores.segs, 2 ≤ s.elems.length := by decide +kernel
    have h1 := key a (by rw [he]; simp)
    have h2 := key b (by rw [he]; simp)
    have h3 : (Lists.split 200 false exList).mergeSize = 2 := by decide +kernel
    omega
  · have key : ∀ s ∈ (Lists.split 200 false exList).index.segs, 2 ≤ s.elems.length := by decide +kernel
    have h1 := key a (by rw [he]; simp)
    have h2 := key b (by rw [he]; simp)
    have h3 : (Lists.split 200 false exList).mergeSize = 2 := by decide +kernel
    omega

/-- Splitting one segment writes the two parts, one of which keeps the ID of the segment, at most one index segment for
each element of the other part, and the two tables. -/
theorem C110_split (now : Nat) (sch : Sched) (ent : Entry) (st : ListState) (h : ListOK st) {pre post : List Seg} {s : Seg}
    (hseg : st.scores.segs = pre ++ s :: post) (hsmall : ∀ x ∈ pre ++ post, x.elems.length < st.splitSize)
    (hbig : st.splitSize ≤ s.elems.length) (hsplit : ¬ LowerTied s.elems)
    (hi : Settled st.splitSize st.mergeSize true st.index.segs) :
    ∃ a b upd, Disk.split now false sch ent st = [.elems ent.scores s.id a, .elems ent.scores st.scores.nextID b] ++
        (upd ++ saveSegments ent (Lists.split now false st)) ∧
      a ++ b = s.elems ∧ a ≠ [] ∧ b ≠ [] ∧ upd.length ≤ b.length ∧ ∀ w ∈ upd, ∃ id l, w = .elems ent.index id l := by
  have hcnt : ∀ x ∈ pre ++ s :: post, x.n = x.elems.length := fun x hx => h.scoresCount x (by rw [hseg]; exact hx)
  cases hsp : Segments.splitIdx now false st.scores.nextID s with
  | none => exact absurd ((Balance.splitIdx_none now st.scores.nextID false s).1 hsp) hsplit
  | some r =>
    obtain ⟨s1, s2, ch⟩ := r
    obtain ⟨p1, p2, p3⟩ := splitIdx_parts hsp
    obtain ⟨-, p4, p5, p6, p7⟩ := Balance.splitIdx_sizes hsp
    obtain ⟨r1, r2⟩ := splitLoop_one ent.scores (mergeSize := st.mergeSize) (u := 0) (pre := pre) (post := post) (done := [])
      (splitSize := st.splitSize) (fun x hx => by
        rw [hcnt x (by simp only [List.mem_append, List.mem_cons] at hx ⊢; exact hx.imp_right .inr)]
        exact hsmall x hx)
      (by rw [hcnt s (by simp)]; exact hbig) hsp
    have hch : ch.length = s2.elems.length := by
      unfold Segments.splitIdx at hsp
      split at hsp
      · simp only [Option.some.injEq, Prod.mk.injEq] at hsp
        obtain ⟨-, rfl, rfl⟩ := hsp
        rw [List.length_map]
      · nomatch hsp
    have hi' := settled_congr (updateIndex_lengths now st.index.segs ch) hi
    obtain ⟨q1, q2⟩ := settled_quiet hi' ((Balance.updateIndexElements_shape now st.index.segs ch).2 h.indexCount)
    obtain ⟨r3, -⟩ := splitLoop_quiet ent.index (now := now) (merge := true) (isIndex := true) (u := 1) (done := [])
      (nid := st.index.nextID) q1 q2
    obtain ⟨u1, u2⟩ := updateIndex_writes now sch ent.index st.index.segs ch
    refine ⟨s1.elems, s2.elems, Disk.updateIndexElements now sch ent.index st.index.segs ch, ?_, p3,
      List.length_pos_iff.1 (p4 ▸ p6), List.length_pos_iff.1 (p5 ▸ p7), hch ▸ u1, u2⟩
    unfold Disk.split Disk.splitScores Disk.splitIndex
    rw [hseg]
    simp only [r1, r2, r3, p1, p2]
    simp

example : ∃ pre s post, exList.scores.segs = pre ++ s :: post ∧ (∀ x ∈ pre ++ post, x.elems.length < exList.splitSize) ∧
    exList.splitSize ≤ s.elems.length ∧ ¬ LowerTied s.elems ∧ Settled exList.splitSize exList.mergeSize true exList.index.segs ∧
    (Disk.split 200 false .inOrder exEntry exList).length = 6 := by
  refine ⟨exList.scores.segs.take 1, exList.scores.segs.getD 1 default, exList.scores.segs.drop 2, by decide +kernel,
    by decide +kernel, by decide +kernel, fun hn => ?_, ⟨by decide +kernel, fun _ a b l₁ l₂ he => ?_⟩, by decide +kernel⟩
  · have := (Balance.splitIdx_none 200 4 false _).2 hn
    revert this
    decide +kernel
  · have key : ∀ s ∈ exList.index.segs, 2 ≤ s.elems.length := by decide +kernel
    have h1 := key a (by rw [he]; simp)
    have h2 := key b (by rw [he]; simp)
    have h3 : exList.mergeSize = 2 := by decide +kernel
    omega

/-- Merging two neighbours writes the merged segment, which keeps the ID of the upper one, deletes the lower one, writes at
most one index segment for each element of the lower one, and the two tables. -/
theorem C110_merge (now : Nat) (sch : Sched) (ent : Entry) (st : ListState) (h : ListOK st) {pre post : List Seg} {q s : Seg}
    (hseg : st.scores.segs = pre ++ q :: s :: post) (hsmall : s.elems.length + q.elems.length ≤ st.mergeSize)
    (hsizes : st.mergeSize < st.splitSize) (h1 : Settled st.splitSize st.mergeSize true (pre ++ [q]))
    (h2 : Settled st.splitSize st.mergeSize true post) (hi : Settled st.splitSize st.mergeSize true st.index.segs) :
    ∃ upd, Disk.split now true sch ent st = [.elems ent.scores q.id (q.elems ++ s.elems), .delElems ent.scores s.id] ++
        (upd ++ saveSegments ent (Lists.split now true st)) ∧
      upd.length ≤ s.elems.length ∧ ∀ w ∈ upd, ∃ id l, w = .elems ent.index id l := by
  have hcnt : ∀ x ∈ pre ++ q :: s :: post, x.n = x.elems.length := fun x hx => h.scoresCount x (by rw [hseg]; exact hx)
  obtain ⟨-, a2⟩ := settled_quiet h1 fun x hx => hcnt x (by
    rcases List.mem_append.1 hx with hx | hx
    · exact List.mem_append_left _ hx
    · cases List.mem_singleton.1 hx; simp)
  obtain ⟨-, b2⟩ := settled_quiet h2 fun x hx => hcnt x (by simp [hx])
  obtain ⟨r1, r2⟩ := splitLoop_merge ent.scores (now := now) (isIndex := false) (u := 0) (pre := pre) (post := post) (done := [])
    (splitSize := st.splitSize) (mergeSize := st.mergeSize) (q := q) (s := s) (nid := st.scores.nextID) (fun x hx => by
      rw [hcnt x hx]
      rcases List.mem_append.1 hx with hx | hx
      · exact h1.1 x (List.mem_append_left _ hx)
      · rcases List.mem_cons.1 hx with rfl | hx
        · omega
        · rcases List.mem_cons.1 hx with rfl | hx
          · omega
          · exact h2.1 x hx)
    (by rw [hcnt s (by simp), hcnt q (by simp)]; exact hsmall) (fun a b l₁ l₂ he => a2 rfl a b l₁ l₂ he) (b2 rfl)
  have hi' := settled_congr (updateIndex_lengths now st.index.segs (Segments.mergeWithNext now q s).2) hi
  obtain ⟨q1, q2⟩ := settled_quiet hi' ((Balance.updateIndexElements_shape now st.index.segs _).2 h.indexCount)
  obtain ⟨r3, -⟩ := splitLoop_quiet ent.index (now := now) (merge := true) (isIndex := true) (u := 1) (done := [])
    (nid := st.index.nextID) q1 q2
  obtain ⟨u1, u2⟩ := updateIndex_writes now sch ent.index st.index.segs (Segments.mergeWithNext now q s).2
  refine ⟨Disk.updateIndexElements now sch ent.index st.index.segs (Segments.mergeWithNext now q s).2, ?_,
    Nat.le_trans u1 (Nat.le_of_eq (List.length_map _)), u2⟩
  unfold Disk.split Disk.splitScores Disk.splitIndex
  rw [hseg]
  simp only [r1, r2, r3]
  simp [Segments.mergeWithNext, Segment.replace]

/-- A list with sizes such that the second and the third segment are merged. -/
def exMergeable : ListState := { Lists.split 200 false exList with mergeSize := 4, splitSize := 5 }

theorem exMergeable_ok : ListOK exMergeable := (listOK_iff _).1 (by decide +kernel)

example : ∃ pre q s post, exMergeable.scores.segs = pre ++ q :: s :: post ∧
    s.elems.length + q.elems.length ≤ exMergeable.mergeSize ∧ exMergeable.mergeSize < exMergeable.splitSize ∧
    Settled exMergeable.splitSize exMergeable.mergeSize true (pre ++ [q]) ∧
    Settled exMergeable.splitSize exMergeable.mergeSize true post ∧
    Settled exMergeable.splitSize exMergeable.mergeSize true exMergeable.index.segs ∧
    (Disk.split 300 true .inOrder exEntry exMergeable).length = 6 := by
  have hms : exMergeable.mergeSize = 4 := rfl
  refine ⟨exMergeable.scores.segs.take 1, exMergeable.scores.segs.getD 1 default, exMergeable.scores.segs.getD 2 default,
    exMergeable.scores.segs.drop 3, by decide +kernel, by decide +kernel, by decide +kernel,
    ⟨by decide +kernel, fun _ a b l₁ l₂ he => ?_⟩, ⟨by decide +kernel, fun _ a b l₁ l₂ he => ?_⟩,
    ⟨by decide +kernel, fun _ a b l₁ l₂ he => ?_⟩, by decide +kernel⟩
  · have hl := congrArg (List.map (·.elems.length)) he
    rw [show (List.take 1 exMergeable.scores.segs ++ [exMergeable.scores.segs.getD 1 default]).map (·.elems.length) = [3, 2] by
      decide +kernel, List.map_append, List.map_cons, List.map_cons] at hl
    match l₁, hl with
    | [], hl => simp at hl; omega
    | [_], hl => simp at hl
    | _ :: _ :: _, hl => simp at hl
  · have hl := congrArg List.length he
    rw [show (List.drop 3 exMergeable.scores.segs).length = 1 by decide +kernel] at hl
    simp at hl
    omega
  · have key : ∀ s ∈ exMergeable.index.segs, 3 ≤ s.elems.length := by decide +kernel
    have h1 := key a (by rw [he]; simp)
    have h2 := key b (by rw [he]; simp)
    omega

/-- Whatever is split and merged, one pass over a list writes and deletes at most two blobs for each score segment, three for
each index segment, and the two tables. -/
theorem C110_pass (now : Nat) (merge : Bool) (sch : Sched) (ent : Entry) (st : ListState) :
    (Disk.split now merge sch ent st).length ≤ 2 * st.scores.segs.length + 3 * st.index.segs.length + 2 := by
  unfold Disk.split
  rw [List.length_append, List.length_append]
  have h1 : (Disk.splitScores now merge ent st).1.length ≤ 2 * st.scores.segs.length := splitLoop_length ent.scores
  have h2 : (Disk.splitIndex now merge sch ent st).1.length ≤ 3 * st.index.segs.length := by
    unfold Disk.splitIndex
    dsimp only
    rw [List.length_append]
    have a := updateIndex_segs now sch ent.index st.index.segs
      (Segments.splitLoop now st.splitSize st.mergeSize merge false 0 st.scores.nextID 0 [] st.scores.segs).2.2
    have b := splitLoop_length ent.index (now := now) (splitSize := st.splitSize) (mergeSize := st.mergeSize) (merge := true)
      (isIndex := true) (u := 1) (done := []) (nid := st.index.nextID) (skip := 0)
      (segs := Segments.updateIndexElements now st.index.segs
        (Segments.splitLoop now st.splitSize st.mergeSize merge false 0 st.scores.nextID 0 [] st.scores.segs).2.2)
    have c := congrArg List.length (updateIndex_lengths now st.index.segs
      (Segments.splitLoop now st.splitSize st.mergeSize merge false 0 st.scores.nextID 0 [] st.scores.segs).2.2)
    rw [List.length_map, List.length_map] at c
    omega
  have h3 : (if (Disk.splitScores now merge ent st).2 || (Disk.splitIndex now merge sch ent st).2 then
      saveSegments ent (Lists.split now merge st) else []).length ≤ 2 := by split <;> simp [saveSegments]
  omega

/-- `Insert` writes exactly the score segments into which new elements belong and the index segments for their IDs, at most
one of each kind for each element, and the two tables; every segment once if the elements are inserted in one piece. -/
theorem C110_insert_writes (now : Nat) (sch : Sched) (ent : Entry) (st : ListState) (l : List Element) (h : ListOK st)
    (hl : ∀ e ∈ l, Storable e) (hd : DistinctIDs (st.content ++ l)) (hs : 4 ≤ st.splitSize) (hne : ent.scores ≠ ent.index) :
    let ws := Disk.insert now sch ent st l
    OnlyElements ent ws ∧
    (rewritten ent.index ws).length ≤ l.length ∧
    (∀ id, id ∈ rewritten ent.index ws ↔ At st.index.segs (fun i => ∃ e ∈ l, Covers st.index.segs i e.id) id) ∧
    (rewritten ent.scores ws).length ≤ l.length ∧
    (∀ id, id ∈ rewritten ent.scores ws ↔ At st.scores.segs (fun i => ∃ e ∈ l, Belongs st.scores.segs i e) id) ∧
    (l.length ≤ min (st.splitSize / 4 * st.index.segs.length) 100000 →
      (rewritten ent.index ws).Nodup ∧ (rewritten ent.scores ws).Nodup) := by
  obtain ⟨st', hst'⟩ := Lists.insert_returns (now := now) (sch := sch) (l := l) h hs
  intro ws
  cases hc : Lists.chunks (Lists.insertLimit st) l.length l with
  | none => unfold Lists.insert at hst'; rw [hc] at hst'; nomatch hst'
  | some cs =>
    have hws : ws = Disk.insertChunks now sch ent st cs := by
      show Disk.insert now sch ent st l = _
      unfold Disk.insert; rw [hc]
    have hfl := Lists.chunks_flatten hc
    have w := insertChunks_wrote (now := now) (sch := sch) (ent := ent) hne (cs := cs) h (by rw [hfl]; exact hl)
      (by rw [hfl]; exact hd)
    rw [hfl, ← hws] at w
    refine ⟨hws ▸ insertChunks_only cs st, w.indexCount, w.index, w.scoresCount, w.scores, fun hle => ?_⟩
    have hcs : cs = [l] := by
      have hn : ¬ l.length > Lists.insertLimit st := by unfold Lists.insertLimit; omega
      cases hlen : l.length with
      | zero => rw [hlen] at hc; unfold Lists.chunks at hc; rw [if_neg hn] at hc; exact (Option.some.inj hc).symm
      | succ n => rw [hlen] at hc; unfold Lists.chunks at hc; rw [if_neg hn] at hc; exact (Option.some.inj hc).symm
    obtain ⟨-, h1, h2⟩ := insertChunk_wrote (now := now) (sch := sch) (ent := ent) h hne hl hd
    rw [hws, hcs]
    show (rewritten ent.index (_ ++ saveSegments ent _)).Nodup ∧ (rewritten ent.scores (_ ++ saveSegments ent _)).Nodup
    rw [rewritten_append, rewritten_append, rewritten_save, rewritten_save, List.append_nil, List.append_nil]
    exact ⟨h1, h2⟩

/-- Three elements that are inserted in one piece. -/
def exInserts : List Element := [⟨40, 30, [], 0, 0⟩, ⟨1, 31, [], 0, 0⟩, ⟨11, 5000, [], 0, 0⟩]

example : ListOK exList ∧ (∀ e ∈ exInserts, Storable e) ∧ DistinctIDs (exList.content ++ exInserts) ∧ 4 ≤ exList.splitSize ∧
    exEntry.scores ≠ exEntry.index ∧ exInserts.length ≤ min (exList.splitSize / 4 * exList.index.segs.length) 100000 ∧
    rewritten exEntry.index (Disk.insert 200 .inOrder exEntry exList exInserts) = [1] ∧
    rewritten exEntry.scores (Disk.insert 200 .inOrder exEntry exList exInserts) = [2, 3] := ⟨exList_ok, by decide +kernel⟩

/-- Four elements need two pieces: the segment for both is written twice. -/
theorem C110_insert_pieces :
    ListOK exList ∧
    rewritten exEntry.index (Disk.insert 200 .inOrder exEntry exList (exInserts ++ [⟨40, 32, [], 0, 0⟩])) = [1, 1] ∧
    rewritten exEntry.scores (Disk.insert 200 .inOrder exEntry exList (exInserts ++ [⟨40, 32, [], 0, 0⟩])) = [2, 3, 2] :=
  ⟨exList_ok, by decide +kernel⟩

end RankDB.Props

import Verif.Proofs.SplitList
import Verif.Spec.History
import Verif.Props.Lists
/-
Properties C18 (splitting and merging), C31 (repair) and C21 (histories).
Specification: `Verif/Spec/Lists.lean` and `Verif/Spec/History.lean`.
-/
namespace RankDB.Props
open Spec

/-! ### C18 Splitting and merging segments -/

theorem nodup_length_le {α : Type} [DecidableEq α] {l l' : List α} (h : l.Nodup) (hs : ∀ x ∈ l, x ∈ l') :
    l.length ≤ l'.length := by
  induction l generalizing l' with
  | nil => simp
  | cons a l ih =>
    rw [List.nodup_cons] at h
    have ha : a ∈ l' := hs a (by simp)
    have := ih (l' := l'.erase a) h.2 fun x hx =>
      (List.mem_erase_of_ne (by rintro rfl; exact h.1 hx)).2 (hs x (by simp [hx]))
    rw [List.length_erase_of_mem ha] at this
    have := List.length_pos_of_mem ha
    simp only [List.length_cons]; omega

theorem length_lt_nextID {s : Segs} (hd : (s.segs.map (·.id)).Nodup) (hid : IDsBelow s) :
    s.segs.length < s.nextID ∨ s.segs = [] := by
  by_cases h0 : s.segs = []
  · exact .inr h0
  · left
    have hsub : s.segs.map (·.id) ⊆ (List.range s.nextID).erase 0 := by
      intro v hv
      obtain ⟨g, hg, rfl⟩ := List.mem_map.1 hv
      have := hid.1 g hg
      exact (List.Nodup.mem_erase_iff List.nodup_range).2 ⟨by omega, List.mem_range.2 this.2⟩
    have hlen := nodup_length_le hd hsub
    have hpos : 0 < s.nextID := by
      obtain ⟨g, hg⟩ := List.exists_mem_of_ne_nil _ h0
      have := hid.1 g hg; omega
    rw [List.length_erase_of_mem (List.mem_range.2 hpos), List.length_range, List.length_map] at hlen
    omega

/-- The content does not change and the list stays well-formed, for all split and merge sizes. The
segment IDs must not be used up. -/
theorem C18_split_keeps_content (now : Nat) (merge : Bool) (st : ListState) (h : ListOK st)
    (hnow : now < 2 ^ 32 - 1) (hs : st.scores.nextID ≤ 2 ^ 31) (hi : st.index.nextID ≤ 2 ^ 31) :
    ListOK (Lists.split now merge st) ∧ (Lists.split now merge st).content = st.content := by
  have ne : ∀ {segs : List Seg}, Tiles top segs → segs ≠ [] := by
    rintro _ h rfl; exact h
  have l1 := (length_lt_nextID h.scores.segIDs h.scoresIDs).resolve_right (ne h.scores.tiles)
  have l2 := (length_lt_nextID h.index.segIDs h.indexIDs).resolve_right (ne h.index.tiles)
  obtain ⟨h1, h2, -⟩ := Lists.split_spec (now := now) (merge := merge) h hnow (by omega) (by omega)
    (by omega) (by omega)
  exact ⟨h1, h2⟩

/-- A list with segments that are too large and too small. -/
def exUneven : ListState :=
  Lists.deleteElements 12 .inOrder
    ((Lists.insert 12 .inOrder exList [⟨40, 20, [], 0, 7⟩, ⟨41, 21, [], 0, 7⟩, ⟨42, 22, [], 0, 7⟩,
      ⟨43, 23, [], 0, 7⟩, ⟨44, 24, [], 0, 7⟩]).getD default) [6, 3, 4]

theorem exUneven_ok : ListOK exUneven := (listOK_iff _).1 (by decide +kernel)

/-- Segments of 1, 9 and 1 elements become 1, 5, 4 and 1; with fewer elements segments
are merged. -/
example : ListOK exUneven ∧ exUneven.scores.nextID ≤ 2 ^ 31 ∧ exUneven.index.nextID ≤ 2 ^ 31 ∧
    exUneven.scores.segs.map (·.elems.length) = [1, 9, 1] ∧
    (Lists.split 13 true exUneven).scores.segs.map (·.elems.length) = [1, 5, 4, 1] ∧
    (Lists.split 13 true (Lists.deleteElements 12 .inOrder exUneven [20, 21, 22, 23, 24])).scores.segs.map
      (·.elems.length) = [1, 2, 2, 1] ∧
    (Lists.split 13 true (Lists.deleteElements 12 .inOrder exUneven [20, 21, 22, 23, 24, 2, 9, 5])).scores.segs.map
      (·.elems.length) = [2, 1] ∧
    (Lists.split 13 true exUneven).content.map (·.id) = exUneven.content.map (·.id) := by
  refine ⟨exUneven_ok, ?_⟩
  decide +kernel

/-! ### C31 Repair -/

theorem repair_all {lost : Seg → Bool} {st : ListState} {U : List Nat}
    (hU : ∀ s ∈ st.scores.segs, lost s = false → ∀ e ∈ s.elems, e.id ∈ U) :
    (∀ e ∈ (Elements.deduplicate ((st.scores.segs.filter fun s => !(lost s)).flatMap fun s =>
      (Elements.deduplicate s.elems).1)).1, ∃ s ∈ st.scores.segs, lost s = false ∧ e ∈ s.elems) ∧
    (Elements.deduplicate ((st.scores.segs.filter fun s => !(lost s)).flatMap fun s =>
      (Elements.deduplicate s.elems).1)).1.length ≤ U.length := by
  generalize hall : ((st.scores.segs.filter fun s => !(lost s)).flatMap fun s =>
    (Elements.deduplicate s.elems).1) = all
  have hmem : ∀ e ∈ all, ∃ s ∈ st.scores.segs, lost s = false ∧ e ∈ s.elems := by
    intro e he
    rw [← hall] at he
    obtain ⟨s, hs, hes⟩ := List.mem_flatMap.1 he
    rw [List.mem_filter] at hs
    exact ⟨s, hs.1, by simpa using hs.2, (Elements.deduplicate_spec s.elems).2.2.1 e hes⟩
  have hD := Elements.deduplicate_spec all
  refine ⟨fun e he => hmem e (hD.2.2.1 e he), ?_⟩
  rw [← List.length_map (f := (·.id))]
  refine nodup_length_le hD.2.1 ?_
  intro v hv
  obtain ⟨e, he, rfl⟩ := List.mem_map.1 hv
  obtain ⟨s, hs, hl, hes⟩ := hmem e (hD.2.2.1 e he)
  exact hU s hs hl e hes

/-- Repairing when the IDs of the readable elements are among `U`. -/
theorem repair_found {now : Nat} {sch shuffle : Sched} {reduce : Nat → Nat} {lost : Seg → Bool}
    {st st' : ListState} {U : List Nat} (hst : ∀ s ∈ st.scores.segs, lost s = false → ∀ e ∈ s.elems, Storable e)
    (hU : ∀ s ∈ st.scores.segs, lost s = false → ∀ e ∈ s.elems, e.id ∈ U)
    (hlen : U.length + 2 ≤ 2 ^ 32)
    (h : Lists.repair now sch shuffle reduce lost st = some st') :
    ListOK st' ∧
    (∀ e ∈ st'.content, ∃ s ∈ st.scores.segs, lost s = false ∧ e ∈ s.elems) ∧
    (∀ s ∈ st.scores.segs, lost s = false → ∀ e ∈ s.elems, ∃ k ∈ st'.content, k.id = e.id ∧
      (e.updated < k.updated ∨ (e.updated = k.updated ∧ k.score ≤ e.score))) := by
  obtain ⟨hmem', hlen'⟩ := repair_all hU
  unfold Lists.repair at h
  simp only [] at h
  generalize hall : ((st.scores.segs.filter fun s => !(lost s)).flatMap fun s =>
    (Elements.deduplicate s.elems).1) = all at h hmem' hlen'
  have hD := Elements.deduplicate_spec all
  obtain ⟨h1, h2, -⟩ := Lists.populate_spec h hD.2.1 (fun e he => by
    obtain ⟨s, hs, hl, hes⟩ := hmem' e he
    exact hst s hs hl e hes) (by omega)
  refine ⟨h1, fun e he => hmem' e (h2.mem_iff.1 he), ?_⟩
  intro s hs hl e he
  obtain ⟨k, hk, hke⟩ := (Elements.deduplicate_spec s.elems).2.2.2.1 e he
  have hka : k ∈ all := by
    rw [← hall]
    exact List.mem_flatMap.2 ⟨s, List.mem_filter.2 ⟨hs, by simp [hl]⟩, hk⟩
  obtain ⟨k', hk', hkk⟩ := hD.2.2.2.1 k hka
  exact ⟨k', h2.mem_iff.2 hk', hkk.trans hke⟩

theorem repair_found_returns {now : Nat} {sch shuffle : Sched} {reduce : Nat → Nat} {lost : Seg → Bool}
    {st : ListState} {U : List Nat} (hst : ∀ s ∈ st.scores.segs, lost s = false → ∀ e ∈ s.elems, Storable e)
    (hU : ∀ s ∈ st.scores.segs, lost s = false → ∀ e ∈ s.elems, e.id ∈ U)
    (hlen : U.length + 2 ≤ 2 ^ 32) (hred : ∀ n, 0 < n → 0 < reduce n) (hs : 4 ≤ st.splitSize) :
    ∃ st', Lists.repair now sch shuffle reduce lost st = some st' := by
  obtain ⟨hmem', hlen'⟩ := repair_all hU
  unfold Lists.repair
  simp only []
  exact C14_populate_returns _ _ _ _ _ _ _ (Elements.deduplicate_spec _).2.1 (fun e he => by
    obtain ⟨s, hs, hl, hes⟩ := hmem' e he
    exact hst s hs hl e hes) (by omega) hred hs

/-- Whatever the state of the list: if repairing returns, the list is well formed, every element of it
was in a readable score segment, and for every readable element the list has one with the same ID that
was not updated earlier. Of equally old elements the one with the lowest score is kept (see C04). -/
theorem C31_repair (now : Nat) (sch shuffle : Sched) (reduce : Nat → Nat) (lost : Seg → Bool)
    (st st' : ListState) (hst : ∀ s ∈ st.scores.segs, lost s = false → ∀ e ∈ s.elems, Storable e)
    (hlen : st.content.length + 2 ≤ 2 ^ 32)
    (h : Lists.repair now sch shuffle reduce lost st = some st') :
    ListOK st' ∧
    (∀ e ∈ st'.content, ∃ s ∈ st.scores.segs, lost s = false ∧ e ∈ s.elems) ∧
    (∀ s ∈ st.scores.segs, lost s = false → ∀ e ∈ s.elems, ∃ k ∈ st'.content, k.id = e.id ∧
      (e.updated < k.updated ∨ (e.updated = k.updated ∧ k.score ≤ e.score))) := by
  exact repair_found hst (U := st.content.map (·.id))
    (fun s hs _ e he => List.mem_map.2 ⟨e, mem_allElems.2 ⟨s, hs, he⟩, rfl⟩) (by simpa using hlen) h

/-- Repairing a well-formed list keeps all elements. -/
theorem C31_repair_wellformed (now : Nat) (sch shuffle : Sched) (reduce : Nat → Nat) (st st' : ListState)
    (hok : ListOK st) (hlen : st.content.length + 2 ≤ 2 ^ 32)
    (h : Lists.repair now sch shuffle reduce (fun _ => false) st = some st') :
    ListOK st' ∧ st'.content = st.content := by
  obtain ⟨h1, h2, h3⟩ := C31_repair now sch shuffle reduce (fun _ => false) st st'
    (fun s hs _ e he => hok.scores.storable e (mem_allElems.2 ⟨s, hs, he⟩)) hlen h
  have hmem : ∀ e, e ∈ st'.content ↔ e ∈ st.content := by
    intro e
    constructor
    · intro he
      obtain ⟨s, hs, -, hes⟩ := h2 e he
      exact mem_allElems.2 ⟨s, hs, hes⟩
    · intro he
      obtain ⟨s, hs, hes⟩ := mem_allElems.1 he
      obtain ⟨k, hk, hid, -⟩ := h3 s hs rfl e hes
      obtain ⟨t, ht, -, hkt⟩ := h2 k hk
      have := Spec.DistinctIDs.eq_of_id hok.scores.distinct (mem_allElems.2 ⟨t, ht, hkt⟩) he hid
      rwa [← this]
  refine ⟨h1, ?_⟩
  have hp : st'.content.Perm st.content := (List.perm_ext_iff_of_nodup
    (Spec.DistinctIDs.nodup h1.scores.distinct) (Spec.DistinctIDs.nodup hok.scores.distinct)).2 hmem
  rw [content_eq_ranking h1 hp, ← content_eq_ranking hok (.refl _)]

/-- Repairing returns under the conditions under which populating does. -/
theorem C31_repair_returns (now : Nat) (sch shuffle : Sched) (reduce : Nat → Nat) (lost : Seg → Bool)
    (st : ListState) (hst : ∀ s ∈ st.scores.segs, lost s = false → ∀ e ∈ s.elems, Storable e)
    (hlen : st.content.length + 2 ≤ 2 ^ 32) (hred : ∀ n, 0 < n → 0 < reduce n) (hs : 4 ≤ st.splitSize) :
    ∃ st', Lists.repair now sch shuffle reduce lost st = some st' := by
  exact repair_found_returns hst (U := st.content.map (·.id))
    (fun s hs _ e he => List.mem_map.2 ⟨e, mem_allElems.2 ⟨s, hs, he⟩, rfl⟩) (by simpa using hlen) hred hs

/-- A corrupt list: overlapping segments, unsorted elements, the same ID twice, wrong counts, no index. -/
def exCorrupt : ListState :=
  { scores := { segs := [{ id := 3, min := 10, max := 90, minTie := 4, maxTie := 2, n := 77, updated := 3,
                           elems := [⟨5, 1, [], 0, 7⟩, ⟨95, 2, [], 0, 7⟩, ⟨6, 1, [], 0, 8⟩] },
                         { id := 3, min := 20, max := 95, minTie := 4, maxTie := 2, n := 1, updated := 3,
                           elems := [⟨7, 2, [], 0, 8⟩, ⟨7, 4, [], 0, 8⟩] },
                         { id := 5, min := 0, max := 5, minTie := 4, maxTie := 2, n := 1, updated := 3,
                           elems := [⟨7, 9, [], 0, 8⟩] }], nextID := 1, isIndex := true }
    index := { segs := [], nextID := 0, isIndex := false }
    mergeSize := 2, splitSize := 4 }

example : (∀ s ∈ exCorrupt.scores.segs, (s.id == 5) = false → ∀ e ∈ s.elems, Storable e) ∧
    exCorrupt.content.length + 2 ≤ 2 ^ 32 ∧
    ((Lists.repair 5 .reversed .inOrder id (fun s => s.id == 5) exCorrupt).map fun st =>
      (listOK st, st.content)) = some (true, [⟨7, 2, [], 0, 8⟩, ⟨7, 4, [], 0, 8⟩, ⟨6, 1, [], 0, 8⟩]) := by
  decide +kernel

/-! ### C21 Histories -/

theorem find_of_mem {es : List Element} (hd : DistinctIDs es) {e : Element} (he : e ∈ es) :
    es.find? (fun x => x.id == e.id) = some e := by
  cases hf : es.find? (fun x => x.id == e.id) with
  | none =>
    rw [List.find?_eq_none] at hf
    exact absurd (by simp) (hf e he)
  | some x =>
    have h1 := List.mem_of_find?_eq_some hf
    have h2 : x.id = e.id := by simpa using List.find?_some hf
    rw [Spec.DistinctIDs.eq_of_id hd h1 he h2]

theorem put_iff {m : ElementMap} {es : List Element} (hd : DistinctIDs es) (e : Element) :
    m.put es e.id = some e ↔ e ∈ es ∨ (m e.id = some e ∧ ∀ x ∈ es, x.id ≠ e.id) := by
  unfold ElementMap.put
  cases hf : es.find? (fun x => x.id == e.id) with
  | none =>
    rw [List.find?_eq_none] at hf
    have hne : ∀ x ∈ es, x.id ≠ e.id := fun x hx => by simpa using hf x hx
    simp only []
    constructor
    · exact fun h => .inr ⟨h, hne⟩
    · rintro (h | h)
      · exact absurd rfl (hne e h)
      · exact h.1
  | some x =>
    have h1 := List.mem_of_find?_eq_some hf
    have h2 : x.id = e.id := by simpa using List.find?_some hf
    simp only [Option.some.injEq]
    constructor
    · rintro rfl; exact .inl h1
    · rintro (h | h)
      · exact Spec.DistinctIDs.eq_of_id hd h1 h h2
      · exact absurd h2 (h.2 x h1)

/-- The list is well formed and ranked, and has exactly the elements of the map. -/
def Agrees (st : ListState) (m : ElementMap) : Prop :=
  ListOK st ∧ Ranked st.content ∧ DistinctIDs st.content ∧ ∀ e, e ∈ st.content ↔ m e.id = some e

theorem agrees_of {st : ListState} {m : ElementMap} (h : ListOK st) (hm : ∀ e, e ∈ st.content ↔ m e.id = some e) :
    Agrees st m := ⟨h, (C21_content_is_ranked st h).1, h.scores.distinct, hm⟩

/-- One operation on a list that agrees with a map. -/
theorem C21_step (st st' : ListState) (m : ElementMap) (op : Op) (h : Agrees st m) (ha : op.Allowed st m)
    (hr : op.run st = some st') : Agrees st' (op.meaning m) := by
  obtain ⟨hok, -, -, hm⟩ := h
  cases op with
  | insert now sch es =>
    obtain ⟨hst, hd, hnew⟩ := ha
    have hnew' : ∀ e ∈ es, ∀ x ∈ st.content, e.id ≠ x.id := by
      intro e he x hx heq
      have := (hm x).1 hx
      rw [← heq, hnew e he] at this; simp at this
    obtain ⟨h1, h2⟩ := C15_insert now sch st st' es hok hst hd hnew' hr
    refine agrees_of h1 fun e => ?_
    rw [h2, (ranking_perm _).mem_iff, List.mem_append, hm]
    show _ ↔ m.put es e.id = some e
    rw [put_iff hd]
    constructor
    · rintro (h | h)
      · refine .inr ⟨h, fun x hx heq => ?_⟩
        have := hnew x hx
        rw [heq, h] at this; simp at this
      · exact .inl h
    · rintro (h | h)
      · exact .inr h
      · exact .inl h.1
  | update now sch es =>
    obtain ⟨hst, hd, hnow⟩ := ha
    simp only [Op.run, Option.some.injEq] at hr
    subst hr
    obtain ⟨h1, h2⟩ := C16_update_upserts now sch st es hok hst hd hnow
    have hid : ((fun x : Element => x.id) ∘ stamp now) = fun x => x.id := by
      funext e; simp only [Function.comp_apply]; unfold stamp; split <;> rfl
    have hd' : DistinctIDs (es.map (stamp now)) := by
      unfold DistinctIDs
      rw [List.map_map, hid]; exact hd
    refine agrees_of h1 fun e => ?_
    rw [h2, (ranking_perm _).mem_iff, C16_upsert_meaning, hm]
    exact (put_iff hd' e).symm
  | delete now sch ids =>
    simp only [Op.run, Option.some.injEq] at hr
    subst hr
    obtain ⟨h1, h2⟩ := C17_delete now sch st ids hok ha
    refine agrees_of h1 fun e => ?_
    rw [h2, List.mem_filter, hm]
    simp only [Op.meaning, decide_eq_true_eq]
    split
    · rename_i hi; simp [hi]
    · rename_i hi; simp [hi]
  | split now merge =>
    simp only [Op.run, Option.some.injEq] at hr
    subst hr
    obtain ⟨h1, h2⟩ := C18_split_keeps_content now merge st hok ha.1 ha.2.1 ha.2.2
    exact agrees_of h1 fun e => by rw [h2]; exact hm e
  | reindex now sch =>
    obtain ⟨h1, h2⟩ := C19_reindex now sch st st' hok.scores hok.scoresCount hok.scoresIDs hok.flags.1 ha hr
    exact agrees_of h1 fun e => by rw [h2]; exact hm e
  | populate now sch shuffle reduce es =>
    obtain ⟨hst, hd, hlen⟩ := ha
    obtain ⟨h1, h2⟩ := C14_populate now sch shuffle reduce _ _ es st' hd hst hlen hr
    refine agrees_of h1 fun e => ?_
    rw [h2, (ranking_perm _).mem_iff]
    show _ ↔ ElementMap.put (fun _ => none) es e.id = some e
    rw [put_iff hd]
    simp
  | repair now sch shuffle reduce =>
    obtain ⟨h1, h2⟩ := C31_repair_wellformed now sch shuffle reduce st st' hok ha hr
    exact agrees_of h1 fun e => by rw [h2]; exact hm e

/-- After every history the list is well formed, ranked, and has exactly the elements of the map that
the same operations build. -/
theorem C21_history (st : ListState) (m : ElementMap) (h : History st m) :
    ListOK st ∧ Ranked st.content ∧ DistinctIDs st.content ∧ ∀ e, e ∈ st.content ↔ m e.id = some e := by
  induction h with
  | new now merge split =>
    obtain ⟨h1, h2⟩ := C14_empty now merge split
    exact agrees_of (m := fun _ => none) h1 fun e => by rw [h2]; simp
  | step op _ ha hr ih => exact C21_step _ _ _ op ih ha hr

/-- The ranked content is determined by the map alone, however the elements got there. -/
theorem C21_history_independent (st st' : ListState) (m : ElementMap) (h : History st m) (h' : History st' m) :
    st.content = st'.content := by
  obtain ⟨a1, -, a3, a4⟩ := C21_history st m h
  obtain ⟨b1, -, b3, b4⟩ := C21_history st' m h'
  have hp : st.content.Perm st'.content := (List.perm_ext_iff_of_nodup (Spec.DistinctIDs.nodup a3)
    (Spec.DistinctIDs.nodup b3)).2 fun e => by rw [a4, b4]
  rw [content_eq_ranking a1 hp, ← content_eq_ranking b1 (.refl _)]

/-- Every allowed operation returns if the split size is at least 4. -/
theorem C21_operations_return (st : ListState) (m : ElementMap) (op : Op) (h : History st m)
    (ha : op.Allowed st m) (hs : 4 ≤ st.splitSize)
    (hred : ∀ now sch shuffle reduce, (op = .repair now sch shuffle reduce ∨
      ∃ es, op = .populate now sch shuffle reduce es) → ∀ n, 0 < n → 0 < reduce n) :
    ∃ st', op.run st = some st' := by
  obtain ⟨hok, -⟩ := C21_history st m h
  cases op with
  | insert now sch es => exact C15_insert_returns now sch st es hok hs
  | update now sch es => exact ⟨_, rfl⟩
  | delete now sch ids => exact ⟨_, rfl⟩
  | split now merge => exact ⟨_, rfl⟩
  | reindex now sch => exact C19_reindex_returns now sch st (by omega)
  | populate now sch shuffle reduce es =>
    exact C14_populate_returns _ _ _ _ _ _ _ ha.2.1 ha.1 ha.2.2 (hred _ _ _ _ (.inr ⟨es, rfl⟩)) hs
  | repair now sch shuffle reduce =>
    exact C31_repair_returns _ _ _ _ _ _ (fun s hs _ e he => hok.scores.storable e (mem_allElems.2 ⟨s, hs, he⟩))
      ha (hred _ _ _ _ (.inl rfl)) hs

/-- The history: create, populate with nine elements, insert five, delete three, split. -/
theorem exUneven_history : ∃ m, History (Lists.split 13 true exUneven) m := by
  obtain ⟨i, hi⟩ : ∃ i, Lists.insert 12 .inOrder exList [⟨40, 20, [], 0, 7⟩, ⟨41, 21, [], 0, 7⟩,
      ⟨42, 22, [], 0, 7⟩, ⟨43, 23, [], 0, 7⟩, ⟨44, 24, [], 0, 7⟩] = some i :=
    C15_insert_returns _ _ _ _ exList_ok (by decide +kernel)
  have h1 := History.step (st' := exList) (.populate 100 .inOrder .reversed id exElems) (.new 1 2 4)
    ⟨exElems_ok.2, exElems_ok.1, by decide⟩
    (show Lists.populate 100 .inOrder .reversed id 2 4 exElems = some exList by decide +kernel)
  have h2 := History.step (.insert 12 .inOrder _) h1 ⟨by decide, by decide, by
    intro e he
    simp only [List.mem_cons, List.not_mem_nil, or_false] at he
    rcases he with rfl | rfl | rfl | rfl | rfl <;> decide⟩ hi
  have he : exUneven = Lists.deleteElements 12 .inOrder i [6, 3, 4] := by
    unfold exUneven; rw [hi]; rfl
  have h3 := History.step (.delete 12 .inOrder [6, 3, 4]) h2 (by intro v hv; simp only [List.mem_cons, List.not_mem_nil, or_false] at hv; omega) rfl
  rw [← he] at h3
  exact ⟨_, .step (.split 13 true) h3 ⟨by decide, by decide +kernel, by decide +kernel⟩ rfl⟩

end RankDB.Props

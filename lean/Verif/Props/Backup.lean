import Verif.Model.Backup
import Verif.Props.Stored
import Verif.Props.Maintenance
/-
Properties C32 (backup and restore of a list) and C37 (sets of lists).
-/
namespace RankDB
namespace Backup
open Wire Stored

/-! ### One list -/

theorem reads_part {p : SegMeta × List Element} (h1 : p.1.WF) (h2 : p.2.length ≤ maxU32)
    (h3 : ∀ e ∈ p.2, e.WF ∧ e.payload.length ≤ maxU32) : Reads decPart (encPart p) p := by
  unfold decPart encPart
  exact Reads.bind (reads_segment h1) (Reads.bind_nil (reads_elements h2 h3) (Reads.pure _))

theorem mono_part : Mono decPart := Mono.bind mono_segment fun _ => Mono.bind mono_elements fun _ => Mono.pure _

/-- Reading a version number, where any other is an error. -/
def expect (v : Nat) : Dec Unit := do
  let x ← decUint 8
  if x ≠ v then fail else return ()

theorem reads_expect {v : Nat} (h : v ≤ 255) : Reads (expect v) (encUint v) () := by
  unfold expect
  refine Reads.bind_nil (reads_decUint (bits := 8) (by omega) (by omega)) ?_
  rw [if_neg (by simp)]
  exact Reads.pure _

theorem mono_expect (v : Nat) : Mono (expect v) := Mono.bind (mono_decUint 8) fun _ => Mono.ite Mono.fail (Mono.pure _)

/-- The count of segments and the segments. -/
def decParts : Dec (List (SegMeta × List Element)) := do
  let n ← decInt
  if n < 0 then fail else decN decPart n.toNat

/-- The reading of a backup as one reader. -/
def parseD : Dec Parsed := do
  expect backupVersion
  let l ← decList
  expect segmentsVersion
  let t ← decTable
  expect segmentVersion
  let parts ← decParts
  return { list := l, table := t, parts := parts }

theorem expect_getVersion {v : Nat} (hv : v < 255) {b : Bytes} (h : (getVersion b).1 = v) :
    expect v b = some ((), (getVersion b).2) := by
  unfold getVersion at h ⊢
  unfold expect
  rw [bind_eq]
  cases hd : decUint 8 b with
  | none => rw [hd] at h; exact absurd h (by unfold versionError; simp; omega)
  | some x =>
    obtain ⟨x, r⟩ := x
    rw [hd] at h
    dsimp only at h ⊢
    rw [if_neg (by simp [h])]
    rfl

theorem parse_parseD {b : Bytes} {p : Parsed} (h : parse b = .ok p) : ∃ r, parseD b = some (p, r) := by
  unfold parse at h
  dsimp only at h
  split at h
  · cases h
  rename_i hv1
  split at h
  · cases h
  rename_i l b1 hl
  split at h
  · cases h
  rename_i hv2
  split at h
  · cases h
  rename_i t b2 ht
  split at h
  · cases h
  rename_i hv3
  split at h
  · cases h
  rename_i n b3 hn
  split at h
  · cases h
  rename_i hneg
  split at h
  · cases h
  rename_i parts b4 hp
  injection h with h
  subst h
  refine ⟨b4, ?_⟩
  unfold parseD
  rw [bind_eq, expect_getVersion (v := backupVersion) (by decide) (Decidable.not_not.1 hv1)]
  dsimp only
  rw [bind_eq, hl]
  dsimp only
  rw [bind_eq, expect_getVersion (v := segmentsVersion) (by decide) (Decidable.not_not.1 hv2)]
  dsimp only
  rw [bind_eq, ht]
  dsimp only
  rw [bind_eq, expect_getVersion (v := segmentVersion) (by decide) (Decidable.not_not.1 hv3)]
  dsimp only
  rw [bind_eq]
  unfold decParts
  rw [bind_eq, hn]
  dsimp only
  rw [if_neg hneg, hp]
  rfl

theorem mono_parseD : Mono parseD := by
  unfold parseD
  refine Mono.bind (mono_expect _) fun _ => Mono.bind mono_list fun _ => Mono.bind (mono_expect _) fun _ => ?_
  refine Mono.bind mono_table fun _ => Mono.bind (mono_expect _) fun _ => Mono.bind ?_ fun _ => Mono.pure _
  exact Mono.bind mono_decInt fun _ => Mono.ite Mono.fail (mono_decN mono_part _)

/-- A list that can be written: it is well formed, the description belongs to it, and lengths and times fit their
types. -/
structure Writable (l : ListRec) (st : ListState) : Prop where
  ok : Spec.ListOK st
  desc : l.WF
  splitSize : l.splitSize = st.splitSize
  mergeSize : l.mergeSize = st.mergeSize
  times : ∀ s ∈ st.scores.segs, s.updated < 2 ^ 63
  payload : ∀ e ∈ st.content, e.payload.length ≤ maxU32
  room : st.content.length + 2 ≤ 2 ^ 32
  size : 0 < (st.mergeSize + st.splitSize) / 2
  nextID : st.scores.nextID ≤ maxU32

theorem elems_length_le {segs : List Seg} {s : Seg} (h : s ∈ segs) : s.elems.length ≤ (allElems segs).length := by
  obtain ⟨a, b, rfl⟩ := List.append_of_mem h
  simp only [allElems, List.flatMap_append, List.flatMap_cons, List.length_append]
  omega

theorem storable_wf {e : Element} (h : Spec.Storable e) : e.WF := by
  obtain ⟨a, b, c, d⟩ := h
  refine ⟨?_, ?_, ?_, ?_⟩ <;> simp only [maxU64, maxU32] <;> omega

theorem segs_bounds {segs : List Seg} (h : Spec.SegsOK segs) {s : Seg} (hs : s ∈ segs) : s.min ≤ maxU64 ∧ s.max ≤ maxU64 := by
  have h1 := tiles_le h.tiles s hs
  have h2 := h.ties s hs
  simp only [Spec.lo, Spec.hi, Spec.pos, Spec.top] at h1
  simp only [maxU64]
  omega

theorem Writable.segMeta {l : ListRec} {st : ListState} (h : Writable l st) {s : Seg} (hs : s ∈ st.scores.segs) :
    (segMeta l.scores s).WF := by
  have hb := segs_bounds h.ok.scores hs
  have hid := h.ok.scoresIDs.1 s hs
  have ht := h.ok.scores.ties s hs
  have hn := h.ok.scoresCount s hs
  have hlen := elems_length_le hs
  have hroom := h.room
  have htime := h.times s hs
  have hnext := h.nextID
  unfold ListState.content at hroom
  refine ⟨?_, hb.1, hb.2, ?_, ?_, ?_, ?_, h.desc.scores⟩ <;> simp only [Backup.segMeta, maxU32] at * <;> omega

theorem Writable.count {l : ListRec} {st : ListState} (h : Writable l st) : st.scores.segs.length ≤ maxU32 := by
  have h1 := (Props.length_lt_nextID h.ok.scores.segIDs h.ok.scoresIDs).resolve_right (tiles_ne_nil h.ok.scores.tiles)
  have h2 := h.nextID
  omega

theorem Writable.table {l : ListRec} {st : ListState} (h : Writable l st) : (table l.scores st.scores).WF := by
  refine ⟨h.desc.scores, ?_, ?_, h.nextID⟩
  · show (st.scores.segs.map _).length ≤ _
    rw [List.length_map]
    exact h.count
  · intro s hs
    obtain ⟨g, hg, rfl⟩ := List.mem_map.1 hs
    exact h.segMeta hg

theorem reads_parseD {l : ListRec} {st : ListState} (h : Writable l st) :
    Reads parseD (backup l st)
      { list := l.stored, table := table l.scores st.scores
        parts := st.scores.segs.map fun s => (segMeta l.scores s, s.elems) } := by
  unfold parseD backup
  refine Reads.bind (reads_expect (by decide)) (Reads.bind (reads_list h.desc) (Reads.bind (reads_expect (by decide)) ?_))
  refine Reads.bind (reads_encTable h.table) (Reads.bind (reads_expect (by decide)) ?_)
  refine Reads.bind_nil (x := st.scores.segs.map fun s => (Backup.segMeta l.scores s, s.elems)) ?_ (Reads.pure _)
  have hc := h.count
  simp only [maxU32] at hc
  refine Reads.bind (x := (st.scores.segs.length : Int)) (reads_decInt (by omega) (by omega)) ?_
  rw [if_neg (by omega)]
  have := reads_decN (p := decPart) (enc := encPart) (st.scores.segs.map fun s => (Backup.segMeta l.scores s, s.elems)) (by
    intro p hp
    obtain ⟨s, hs, rfl⟩ := List.mem_map.1 hp
    apply reads_part (h.segMeta hs)
    · have h1 := elems_length_le hs
      have h2 := h.room
      unfold ListState.content at h2
      simp only [maxU32]
      omega
    · intro e he
      have hm : e ∈ st.content := mem_allElems.2 ⟨s, hs, he⟩
      exact ⟨storable_wf (h.ok.scores.storable e hm), h.payload e hm⟩)
  rw [List.length_map] at this
  exact this

theorem parse_backup {l : ListRec} {st : ListState} (h : Writable l st) (rest : Bytes) :
    parse (backup l st ++ rest) = .ok
      { list := l.stored, table := table l.scores st.scores
        parts := st.scores.segs.map fun s => (segMeta l.scores s, s.elems) } := by
  have hr := reads_parseD h
  unfold backup parse
  simp only [List.append_assoc]
  rw [getVersion_enc (by decide)]
  dsimp only
  rw [if_neg (by simp), reads_list h.desc]
  dsimp only
  rw [getVersion_enc (by decide)]
  dsimp only
  rw [if_neg (by simp), reads_encTable h.table]
  dsimp only
  rw [getVersion_enc (by decide)]
  dsimp only
  have hc := h.count
  simp only [maxU32] at hc
  rw [if_neg (by simp), reads_decInt (i := (st.scores.segs.length : Int)) (by omega) (by omega)]
  dsimp only
  rw [if_neg (by omega)]
  have := reads_decN (p := decPart) (enc := encPart) (st.scores.segs.map fun s => (Backup.segMeta l.scores s, s.elems)) (by
    intro p hp
    obtain ⟨s, hs, rfl⟩ := List.mem_map.1 hp
    apply reads_part (h.segMeta hs)
    · have h1 := elems_length_le hs
      have h2 := h.room
      unfold ListState.content at h2
      simp only [maxU32]
      omega
    · intro e he
      have hm : e ∈ st.content := mem_allElems.2 ⟨s, hs, he⟩
      exact ⟨storable_wf (h.ok.scores.storable e hm), h.payload e hm⟩)
  rw [List.length_map] at this
  rw [Int.toNat_natCast, this]

/-- The restored segments: the same with count and time. -/
theorem restored_segs (parent : Str) (now : Nat) (segs : List Seg) :
    (segs.map fun s => (segMeta parent s, s.elems)).map (toSeg now) =
      segs.map fun s => { s with n := s.elems.length, updated := now } := by
  rw [List.map_map]
  rfl

theorem restored_ok {segs : List Seg} (h : Spec.SegsOK segs) (now : Nat) :
    Spec.SegsOK (segs.map fun s => { s with n := s.elems.length, updated := now }) := by
  have hall : allElems (segs.map fun s => { s with n := s.elems.length, updated := now }) = allElems segs := by
    unfold allElems
    rw [List.flatMap_map]
  refine ⟨tiles_map _ (fun s _ => ⟨rfl, rfl⟩) h.tiles, ?_, ?_, ?_, ?_, ?_, ?_⟩
  · intro s hs
    obtain ⟨g, hg, rfl⟩ := List.mem_map.1 hs
    exact h.ties g hg
  · intro s hs
    obtain ⟨g, hg, rfl⟩ := List.mem_map.1 hs
    exact h.inRange g hg
  · intro s hs
    obtain ⟨g, hg, rfl⟩ := List.mem_map.1 hs
    exact h.ranked g hg
  · rw [hall]; exact h.distinct
  · rw [hall]; exact h.storable
  · rw [List.map_map]; exact h.segIDs

end Backup

namespace Props
open Wire Stored Backup

/-! ### C32 Backup and restore of a list -/

/-- Restoring from the backup gives a well-formed list with the same settings and the same ranked content, under the
same or under another list ID. (A nil map of metadata comes back as an empty map.) -/
theorem C32_roundtrip (l : ListRec) (st : ListState) (h : Writable l st) (now : Nat) (sch : Sched)
    (newID : Option Str) (scores index : Str) (rest : Bytes) :
    ∃ l' st', restore now sch newID scores index (backup l st ++ rest) = some (.ok (l', st')) ∧
      Spec.ListOK st' ∧ st'.content = st.content ∧
      st'.mergeSize = st.mergeSize ∧ st'.splitSize = st.splitSize ∧
      l'.id = newID.getD l.id ∧ l'.set = l.set ∧ l'.metadata = some (l.metadata.getD []) ∧
      l'.splitSize = l.splitSize ∧ l'.mergeSize = l.mergeSize ∧ l'.loadIndex = l.loadIndex ∧
      l'.index = index ∧ l'.scores = (if newID = none then l.scores else scores) := by
  have hparse := parse_backup h rest
  let lr : ListRec := match newID with
    | some id => { l.stored with id := id, scores := scores, index := index }
    | none => { l.stored with index := index }
  let st0 : ListState :=
    { scores := { segs := st.scores.segs.map fun s => { s with n := s.elems.length, updated := now }
                  nextID := st.scores.nextID, isIndex := st.scores.isIndex }
      index := { segs := [], nextID := 1, isIndex := true }
      mergeSize := st.mergeSize, splitSize := st.splitSize }
  have hcontent : st0.content = st.content := by
    show allElems (st.scores.segs.map _) = allElems st.scores.segs
    unfold allElems
    rw [List.flatMap_map]
  obtain ⟨st', hre⟩ := Lists.reindex_returns (now := now) (sch := sch) (st := st0) h.size
  obtain ⟨hok, hsc, hm, hs⟩ := Lists.reindex_spec (st := st0) (restored_ok h.ok.scores now)
    (by intro s hs; obtain ⟨g, hg, rfl⟩ := List.mem_map.1 hs; rfl)
    (by
      refine ⟨?_, h.ok.scoresIDs.2⟩
      intro s hs
      obtain ⟨g, hg, rfl⟩ := List.mem_map.1 hs
      exact h.ok.scoresIDs.1 g hg) h.ok.flags.1 (by rw [hcontent]; exact h.room) hre
  have hsz : lr.mergeSize.toNat = st.mergeSize ∧ lr.splitSize.toNat = st.splitSize := by
    have h1 := h.mergeSize
    have h2 := h.splitSize
    cases newID <;> simp only [lr, ListRec.stored] <;> omega
  refine ⟨lr, st', ?_, hok, ?_, hm, hs, ?_⟩
  · unfold restore
    rw [hparse]
    dsimp only
    rw [restored_segs]
    show (Lists.reindex now sch { scores := _, index := _, mergeSize := lr.mergeSize.toNat, splitSize := lr.splitSize.toNat }).map
      (fun st => Except.ok (lr, st)) = _
    rw [hsz.1, hsz.2]
    show (Lists.reindex now sch st0).map _ = _
    rw [hre]
    rfl
  · unfold ListState.content
    rw [hsc]
    exact hcontent
  · cases newID <;> exact ⟨rfl, rfl, rfl, rfl, rfl, rfl, rfl, rfl⟩

/-- A stream with another version number at the beginning is rejected. -/
theorem C32_version (now : Nat) (sch : Sched) (newID : Option Str) (scores index : Str) (v : Nat) (hv : v ≤ 255)
    (hne : v ≠ backupVersion) (rest : Bytes) :
    restore now sch newID scores index (encUint v ++ rest) = some (.error .version) := by
  unfold restore parse
  rw [getVersion_enc hv]
  dsimp only
  rw [if_pos hne]

/-- Another version number of the segments is rejected. -/
theorem C32_segments_version (now : Nat) (sch : Sched) (newID : Option Str) (scores index : Str) (l : ListRec) (hl : l.WF)
    (v : Nat) (hv : v ≤ 255) (hne : v ≠ segmentsVersion) (rest : Bytes) :
    restore now sch newID scores index (encUint backupVersion ++ (encList l ++ (encUint v ++ rest))) =
      some (.error .version) := by
  unfold restore parse
  rw [getVersion_enc (by decide)]
  dsimp only
  rw [if_neg (by simp), reads_list hl]
  dsimp only
  rw [getVersion_enc hv]
  dsimp only
  rw [if_pos hne]

/-- Another version number of the single segments is rejected. -/
theorem C32_segment_version (now : Nat) (sch : Sched) (newID : Option Str) (scores index : Str) (l : ListRec) (hl : l.WF)
    (t : Table) (ht : t.WF) (v : Nat) (hv : v ≤ 255) (hne : v ≠ segmentVersion) (rest : Bytes) :
    restore now sch newID scores index
      (encUint backupVersion ++ (encList l ++ (encUint segmentsVersion ++ (encTable t ++ (encUint v ++ rest))))) =
      some (.error .version) := by
  unfold restore parse
  rw [getVersion_enc (by decide)]
  dsimp only
  rw [if_neg (by simp), reads_list hl]
  dsimp only
  rw [getVersion_enc (by decide)]
  dsimp only
  rw [if_neg (by simp), reads_encTable ht]
  dsimp only
  rw [getVersion_enc hv]
  dsimp only
  rw [if_pos hne]

/-- A backup that was cut off anywhere is rejected. -/
theorem C32_truncated (l : ListRec) (st : ListState) (h : Writable l st) (now : Nat) (sch : Sched)
    (newID : Option Str) (scores index : Str) (n : Nat) (hn : n < (backup l st).length) :
    ∃ e, restore now sch newID scores index ((backup l st).take n) = some (.error e) := by
  have hnone : parseD ((backup l st).take n) = none :=
    prefix_fails (reads_parseD h) mono_parseD (List.take_append_drop n _).symm (by
      intro hd
      have := congrArg List.length hd
      rw [List.length_drop, List.length_nil] at this
      omega)
  unfold restore
  cases hp : parse ((backup l st).take n) with
  | error e => exact ⟨e, rfl⟩
  | ok p =>
    obtain ⟨r, hr⟩ := parse_parseD hp
    rw [hnone] at hr
    cases hr

/-- Non-vacuity: a list with nine elements in several segments and metadata. -/
def exDesc : ListRec :=
  { id := [108, 49], set := [115], metadata := some [([97], [98]), ([99], [])], splitSize := 4, mergeSize := 2
    loadIndex := false, scores := [120, 121], index := [122] }

theorem exWritable : Writable exDesc exList := by
  refine ⟨exList_ok, ⟨by decide, by decide, by decide, by decide, by decide, by decide, by decide, by decide, by decide⟩,
    ?_, ?_, ?_, ?_, ?_, ?_, ?_⟩ <;> decide +kernel

example : ∃ l' st', restore 200 .reversed (some [110]) [1] [2] (backup exDesc exList) = some (.ok (l', st')) ∧
    Spec.ListOK st' ∧ st'.content = exList.content := by
  obtain ⟨l', st', h1, h2, h3, -⟩ := C32_roundtrip exDesc exList exWritable 200 .reversed (some [110]) [1] [2] []
  rw [List.append_nil] at h1
  exact ⟨l', st', h1, h2, h3⟩

end Props
end RankDB

import Verif.Proofs.Untrusted
import Verif.Props.Example
import Verif.Props.ServerRestore
import Verif.Model.Recover
/-
Property C108: bytes that nobody vouches for, as a damaged blob or an uploaded backup.
-/
namespace RankDB
namespace Untrusted
open Wire Stored Backup Spec

theorem reads_parts {parts : List (SegMeta × List Element)} (h : ∀ p ∈ parts, PartFits p) :
    Reads (decN decPart parts.length) (parts.flatMap fun p => encSegment p.1 ++ encElements p.2) parts :=
  reads_decN (p := decPart) (enc := encPart) parts fun p hp => reads_part (h p hp).1 (h p hp).2.1 (h p hp).2.2

/-- The head of a file: everything before the number of segments. -/
theorem head_file {l : ListRec} {t : Table} (hl : l.WF) (ht : t.WF) (n : Int) (parts : List (SegMeta × List Element))
    (hn : -2 ^ 63 ≤ n ∧ n < 2 ^ 63) (rest : Bytes) :
    ∃ b1 b2 b3 b4 b5, getVersion (fileOf l t n parts ++ rest) = (backupVersion, b1) ∧ decList b1 = some (l.stored, b2) ∧
      getVersion b2 = (segmentsVersion, b3) ∧ decTable b3 = some (t, b4) ∧ getVersion b4 = (segmentVersion, b5) ∧
      decInt b5 = some (n, (parts.flatMap fun p => encSegment p.1 ++ encElements p.2) ++ rest) := by
  unfold fileOf
  simp only [List.append_assoc]
  exact ⟨_, _, _, _, _, getVersion_enc (by decide) _, reads_list hl _, getVersion_enc (by decide) _, reads_encTable ht _,
    getVersion_enc (by decide) _, reads_decInt hn.1 hn.2 _⟩

theorem parse_file {l : ListRec} {t : Table} {parts : List (SegMeta × List Element)} (hl : l.WF) (ht : t.WF)
    (hp : ∀ p ∈ parts, PartFits p) (hn : parts.length < 2 ^ 63) (rest : Bytes) :
    parse (fileOf l t parts.length parts ++ rest) = .ok { list := l.stored, table := t, parts := parts } := by
  obtain ⟨b1, b2, b3, b4, b5, e1, e2, e3, e4, e5, e6⟩ := head_file hl ht parts.length parts (by omega) rest
  unfold parse
  simp only [e1, e2, e3, e4, e5, e6, ne_eq, not_true_eq_false, if_false, Int.toNat_natCast]
  rw [if_neg (by omega), reads_parts hp rest]

/-- What a file must begin with to be taken, and its segments. -/
theorem parse_inv {b : Bytes} {p : Parsed} (h : parse b = .ok p) :
    ∃ b1 b2 b3 b4 b5 b6 r, getVersion b = (backupVersion, b1) ∧ decList b1 = some (p.list, b2) ∧
      getVersion b2 = (segmentsVersion, b3) ∧ decTable b3 = some (p.table, b4) ∧ getVersion b4 = (segmentVersion, b5) ∧
      decInt b5 = some ((p.parts.length : Int), b6) ∧ decN decPart p.parts.length b6 = some (p.parts, r) := by
  unfold parse at h
  dsimp only at h
  split at h
  · cases h
  rename_i hv1
  split at h
  · cases h
  rename_i l b1 hl
  split at h
  · cases h
  rename_i hv2
  split at h
  · cases h
  rename_i t b2 ht
  split at h
  · cases h
  rename_i hv3
  split at h
  · cases h
  rename_i n b3 hn
  split at h
  · cases h
  rename_i hneg
  split at h
  · cases h
  rename_i parts b4 hp
  injection h with h
  subst h
  have hlen := decN_length _ _ _ _ hp
  refine ⟨_, _, _, _, _, b3, b4, Prod.ext (Decidable.not_not.1 hv1) rfl, hl, Prod.ext (Decidable.not_not.1 hv2) rfl, ht,
    Prod.ext (Decidable.not_not.1 hv3) rfl, ?_, ?_⟩
  · rw [hn, hlen, Int.toNat_of_nonneg (by omega)]
  · rw [hlen]; exact hp

theorem parse_size {b : Bytes} {p : Parsed} (h : parse b = .ok p) :
    (p.parts.map fun x => 7 * x.2.length + 10).sum ≤ b.length := by
  obtain ⟨b1, b2, b3, b4, b5, b6, r, e1, e2, e3, e4, e5, e6, e7⟩ := parse_inv h
  have a1 := getVersion_takes b
  have a2 := takes_list _ _ _ e2
  have a3 := getVersion_takes b2
  have a4 := takes_table _ _ _ e4
  have a5 := getVersion_takes b4
  have a6 := eats_decInt _ _ _ e6
  have a7 := eats_decN eats_part _ _ _ _ e7
  rw [e1] at a1
  rw [e3] at a3
  rw [e5] at a5
  dsimp only at a1 a2 a3 a4 a5 a6 a7
  omega

theorem part_inv {b r : Bytes} {p : SegMeta × List Element} (h : decPart b = some (p, r)) :
    ∃ b', decSegment b = some (p.1, b') ∧ decElements b' = some (p.2, r) := by
  unfold decPart at h
  rw [bind_eq] at h
  cases h1 : decSegment b with
  | none => rw [h1] at h; cases h
  | some m =>
    obtain ⟨m, b'⟩ := m
    rw [h1] at h
    dsimp only at h
    rw [bind_eq] at h
    cases h2 : decElements b' with
    | none => rw [h2] at h; cases h
    | some es =>
      obtain ⟨es, r'⟩ := es
      rw [h2] at h
      dsimp only at h
      rw [pure_eq] at h
      simp only [Option.some.injEq, Prod.mk.injEq] at h
      obtain ⟨rfl, rfl⟩ := h
      exact ⟨b', rfl, h2⟩

theorem part_eq {b b' r : Bytes} {m : SegMeta} {es : List Element} (h1 : decSegment b = some (m, b'))
    (h2 : decElements b' = some (es, r)) : decPart b = some ((m, es), r) := by
  unfold decPart
  rw [bind_eq, h1]
  dsimp only
  rw [bind_eq, h2]
  rfl

theorem parts_cons {n : Nat} {b r : Bytes} {ps : List (SegMeta × List Element)} (h : decN decPart (n + 1) b = some (ps, r)) :
    ∃ p qs b' , ps = p :: qs ∧ decPart b = some (p, b') ∧ decN decPart n b' = some (qs, r) := by
  simp only [decN] at h
  rw [bind_eq] at h
  cases h1 : decPart b with
  | none => rw [h1] at h; cases h
  | some x =>
    obtain ⟨x, b1⟩ := x
    rw [h1] at h
    dsimp only at h
    rw [bind_eq] at h
    cases h2 : decN decPart n b1 with
    | none => rw [h2] at h; cases h
    | some xs =>
      obtain ⟨xs, b2⟩ := xs
      rw [h2] at h
      dsimp only at h
      rw [pure_eq] at h
      simp only [Option.some.injEq, Prod.mk.injEq] at h
      obtain ⟨rfl, rfl⟩ := h
      exact ⟨x, xs, b1, rfl, rfl, h2⟩

theorem parts_wf {n : Nat} {b r : Bytes} {ps : List (SegMeta × List Element)} (h : decN decPart n b = some (ps, r)) :
    ∀ p ∈ ps, ∀ e ∈ p.2, e.WF :=
  decN_all (P := fun p => ∀ e ∈ p.2, e.WF) (fun _ _ _ hp => by
    obtain ⟨b', -, h2⟩ := part_inv hp
    exact elements_fit h2) _ _ _ _ h

theorem readParts_sound (limit : Nat) : ∀ (n : Nat) (b : Bytes) (ps : List (SegMeta × List Element)),
    readParts limit n b = .value ps → (∃ r, decN decPart n b = some (ps, r)) ∧ ∀ p ∈ ps, fits limit p.1.n = true
  | 0, b, ps, h => by
    simp only [readParts, Ending.value.injEq] at h
    subst h
    exact ⟨⟨b, rfl⟩, nofun⟩
  | n + 1, b, ps, h => by
    simp only [readParts] at h
    split at h
    · cases h
    rename_i m b1 h1
    split at h
    · rename_i hf
      split at h
      · cases h
      rename_i es b2 h2
      split at h
      · rename_i qs h3
        simp only [Ending.value.injEq] at h
        subst h
        obtain ⟨⟨r, hr⟩, hq⟩ := readParts_sound limit n b2 qs h3
        refine ⟨⟨r, ?_⟩, List.forall_mem_cons.2 ⟨hf, hq⟩⟩
        simp only [decN]
        rw [bind_eq, part_eq h1 h2]
        dsimp only
        rw [bind_eq, hr]
        rfl
      · cases h
      · cases h
    · cases h

theorem readParts_complete (limit : Nat) : ∀ (n : Nat) (b r : Bytes) (ps : List (SegMeta × List Element)),
    decN decPart n b = some (ps, r) →
    readParts limit n b = if ∀ p ∈ ps, fits limit p.1.n = true then .value ps else .panic
  | 0, b, r, ps, h => by
    simp only [decN] at h
    rw [pure_eq] at h
    simp only [Option.some.injEq, Prod.mk.injEq] at h
    rw [← h.1]
    simp [readParts]
  | n + 1, b, r, ps, h => by
    obtain ⟨p, qs, b', rfl, h1, h2⟩ := parts_cons h
    obtain ⟨b1, g1, g2⟩ := part_inv h1
    simp only [readParts, g1, g2, readParts_complete limit n b' r qs h2, List.forall_mem_cons]
    by_cases hf : fits limit p.1.n = true
    · by_cases hq : ∀ p ∈ qs, fits limit p.1.n = true
      · simp only [if_pos hq, hf]
        exact (if_pos ⟨trivial, hq⟩).symm
      · simp only [if_pos hf, if_neg hq]
        rw [if_neg fun h => hq h.2]
    · simp only [if_neg hf]
      rw [if_neg fun h => hf h.1]

theorem fits_iff {limit : Nat} {n : Int} : fits limit n = true ↔ 0 ≤ n ∧ n ≤ limit := by
  unfold fits
  simp

theorem readParts_fails (limit : Nat) : ∀ (n : Nat) (b : Bytes), decN decPart n b = none →
    readParts limit n b = .error .decode ∨ readParts limit n b = .panic := by
  intro n b h
  cases hr : readParts limit n b with
  | value ps =>
    obtain ⟨⟨r, h'⟩, -⟩ := readParts_sound limit n b ps hr
    rw [h] at h'
    cases h'
  | panic => exact .inr rfl
  | error e =>
    left
    have : ∀ (n : Nat) (b : Bytes) (e : Err), readParts limit n b = .error e → e = .decode := by
      intro n
      induction n with
      | zero => intro b e h; cases h
      | succ n ih =>
        intro b e h
        simp only [readParts] at h
        split at h
        · cases h; rfl
        · split at h
          · split at h
            · cases h; rfl
            · split at h
              · cases h
              · rename_i e' he
                cases h
                exact ih _ _ he
              · cases h
          · cases h
    rw [this n b e hr]

theorem askElements_full {b r : Bytes} {es : List Element} (h : decElements b = some (es, r)) :
    askElements es.length b = [] := by
  obtain ⟨r', h1, -⟩ := elements_split h
  unfold askElements
  rw [h1]
  simp

theorem askParts_exact (limit : Nat) : ∀ (n : Nat) (b r : Bytes) (ps : List (SegMeta × List Element)),
    decN decPart n b = some (ps, r) → (∀ p ∈ ps, p.1.n = p.2.length ∧ p.2.length ≤ limit) →
    askParts limit n b = ps.map fun p => (p.2.length : Int)
  | 0, b, r, ps, h, _ => by
    simp only [decN] at h
    rw [pure_eq] at h
    simp only [Option.some.injEq, Prod.mk.injEq] at h
    rw [← h.1]
    simp [askParts]
  | n + 1, b, r, ps, h, hp => by
    obtain ⟨p, qs, b', rfl, h1, h2⟩ := parts_cons h
    obtain ⟨b1, g1, g2⟩ := part_inv h1
    have hh := hp p (by simp)
    simp only [askParts, g1, g2, hh.1]
    rw [if_pos (fits_iff.2 (by omega)), askElements_full g2, List.nil_append,
      askParts_exact limit n b' r qs h2 fun q hq => hp q (List.mem_cons_of_mem _ hq), List.map_cons]

/-- What the restored list is made of. -/
theorem restore_inv {now : Nat} {sch : Sched} {newID : Option Str} {scores index : Str} {b : Bytes} {l : ListRec} {st : ListState}
    (h : restore now sch newID scores index b = some (.ok (l, st))) :
    ∃ p st0, parse b = .ok p ∧ Lists.reindex now sch st0 = some st ∧
      st0.scores = { segs := p.parts.map (toSeg now), nextID := p.table.nextID, isIndex := p.table.isIndex } ∧
      st0.mergeSize = p.list.mergeSize.toNat ∧ st0.splitSize = p.list.splitSize.toNat := by
  unfold restore at h
  cases hp : parse b with
  | error e => rw [hp] at h; simp at h
  | ok p =>
    rw [hp] at h
    dsimp only at h
    cases hr : Lists.reindex now sch _ with
    | none => rw [hr] at h; simp at h
    | some st' =>
      rw [hr] at h
      simp only [Option.map_some, Option.some.injEq, Except.ok.injEq, Prod.mk.injEq] at h
      obtain ⟨-, rfl⟩ := h
      refine ⟨p, _, rfl, hr, rfl, ?_, ?_⟩ <;> cases newID <;> rfl

theorem content_of {now : Nat} {parts : List (SegMeta × List Element)} :
    allElems (parts.map (toSeg now)) = parts.flatMap (·.2) := by
  unfold allElems
  rw [List.flatMap_map]
  rfl

theorem segs_ok_iff {now : Nat} {parts : List (SegMeta × List Element)} :
    SegsOK (parts.map (toSeg now)) ↔ SegsOK (parts.map segOf) := by
  have h1 : parts.map (toSeg now) = (parts.map segOf).map fun s => { s with n := s.elems.length, updated := now } := by
    rw [List.map_map]; rfl
  have h2 : parts.map segOf = (parts.map (toSeg now)).map fun s => { s with n := s.elems.length, updated := 0 } := by
    rw [List.map_map]; rfl
  exact ⟨fun h => by rw [h2]; exact restored_ok h 0, fun h => by rw [h1]; exact restored_ok h now⟩

theorem reindex_keeps {now : Nat} {sch : Sched} {st st' : ListState} (h : Lists.reindex now sch st = some st') :
    st'.scores = st.scores ∧ st'.mergeSize = st.mergeSize ∧ st'.splitSize = st.splitSize := by
  unfold Lists.reindex at h
  cases hs : Elements.splitSize (Segments.elementIndexAll sch st.scores.segs) (Lists.wantSize st) with
  | none => rw [hs] at h; simp at h
  | some p =>
    rw [hs] at h
    simp only [Option.map_some, Option.some.injEq] at h
    subst h
    exact ⟨rfl, rfl, rfl⟩

theorem flatMap_le {α β : Type} (f : α → List β) (l : List α) :
    7 * (l.flatMap f).length ≤ (l.map fun x => 7 * (f x).length + 10).sum := by
  induction l with
  | nil => simp
  | cons a l ih => simp only [List.flatMap_cons, List.length_append, List.map_cons, List.sum_cons]; omega

theorem encInt_length (i : Int) : (encInt i).length ≤ 9 := by
  unfold encInt
  repeat' split
  all_goals simp [be_length]

end Untrusted

namespace Props
open Wire Stored Backup Spec Untrusted

/-! ### C108 Bytes that nobody vouches for -/

/-- Whatever bytes a blob of elements has: if they are taken, there are at most as many elements as bytes over 7, and
all numbers are in the range of their type. -/
theorem C108_blob (b : Bytes) (l : List Element) (h : loadElements b = .ok l) :
    7 * l.length + 2 ≤ b.length ∧ ∀ e ∈ l, e.WF := by
  unfold loadElements at h
  dsimp only at h
  split at h
  · cases h
  rename_i hv
  split at h
  · rename_i es r hd
    injection h with h
    subst h
    refine ⟨?_, elements_fit hd⟩
    have h1 := eats_elements _ _ _ hd
    unfold getVersion at hv hd h1
    cases hu : decUint 8 b with
    | none => rw [hu] at hv; exact absurd hv (by simp [versionError, elementsVersion])
    | some x =>
      rw [hu] at h1
      have h2 := eats_decUint 8 _ _ _ hu
      dsimp only at h1 h2
      omega
  · cases h

/-- A blob that is taken makes the reader ask for exactly the elements it has. -/
theorem C108_blob_asks (b : Bytes) (l : List Element) (h : loadElements b = .ok l) :
    askBlob b = if l = [] then [] else [(l.length : Int)] := by
  unfold loadElements at h
  unfold askBlob
  dsimp only at h ⊢
  split at h
  · cases h
  rename_i hv
  rw [if_neg hv]
  split at h
  · rename_i es r hd
    injection h with h
    subst h
    obtain ⟨r', h1, -⟩ := elements_split hd
    unfold askElements
    rw [h1]
    cases es with
    | nil => simp
    | cons e es =>
      simp only [List.length_cons]
      rw [if_neg (by omega), if_neg (by simp)]
  · cases h

/-- C108 fails for blobs that are refused: six bytes are enough to ask for any number of elements up to `2^32 - 1`, and
only then it turns out that they are not there. -/
theorem C108_small_blob (n : Nat) (h0 : 0 < n) (hn : n ≤ maxU32) :
    ∃ b : Bytes, b.length ≤ 6 ∧ loadElements b = .error .decode ∧ askBlob b = [(n : Int)] := by
  have hr := reads_array (n := n) (lt_of_le_maxU32 hn) []
  rw [List.append_nil] at hr
  have hd : decElements (encArray n) = none := by
    unfold decElements
    rw [bind_eq, hr]
    cases n with
    | zero => omega
    | succ n => rfl
  refine ⟨encUint elementsVersion ++ encArray n, ?_, ?_, ?_⟩
  · have : (encArray n).length ≤ 5 := by
      unfold encArray
      repeat' split
      all_goals simp [be_length]
    have h1 : (encUint elementsVersion).length = 1 := by decide
    rw [List.length_append]
    omega
  · unfold loadElements
    rw [getVersion_enc (by decide)]
    simp only [ne_eq, not_true_eq_false, if_false, hd]
  · unfold askBlob
    rw [getVersion_enc (by decide)]
    simp only [ne_eq, not_true_eq_false, if_false, askElements, hr]
    rw [if_neg (by omega)]

/-- Whatever bytes are uploaded as a backup of a list: if they are taken, the list has exactly the elements of the
file, at most one for 7 bytes, all numbers are in the range of their type, and the list is well formed exactly if the
segments in the file are. -/
theorem C108_restored (now : Nat) (sch : Sched) (newID : Option Str) (scores index : Str) (b : Bytes) (l : ListRec) (st : ListState)
    (h : restore now sch newID scores index b = some (.ok (l, st))) :
    ∃ p, parse b = .ok p ∧ st.content = p.parts.flatMap (·.2) ∧ 7 * st.content.length ≤ b.length ∧ (∀ e ∈ st.content, e.WF) ∧
      (b.length ≤ 2 ^ 32 → (ListOK st ↔ Proper p)) := by
  obtain ⟨p, st0, h1, h2, h3, -, -⟩ := restore_inv h
  obtain ⟨k1, -, -⟩ := reindex_keeps h2
  have hc : st.content = p.parts.flatMap (·.2) := by
    unfold ListState.content
    rw [k1, h3]
    exact content_of
  have hsz : 7 * st.content.length ≤ b.length := by
    rw [hc]
    exact Nat.le_trans (flatMap_le _ _) (parse_size h1)
  refine ⟨p, h1, hc, hsz, ?_, ?_⟩
  · obtain ⟨b1, b2, b3, b4, b5, b6, r, -, -, -, -, -, -, e7⟩ := parse_inv h1
    intro e he
    rw [hc] at he
    obtain ⟨x, hx, hex⟩ := List.mem_flatMap.1 he
    exact parts_wf e7 x hx e hex
  · intro hb
    have hnext : p.table.nextID ≤ 2 ^ 32 := by
      obtain ⟨b1, b2, b3, b4, b5, b6, r, -, -, -, e4, -, -, -⟩ := parse_inv h1
      have := table_nextID e4
      omega
    constructor
    · intro hok
      have a1 := hok.scores
      have a2 := hok.scoresIDs.1
      have a3 := hok.flags.1
      rw [k1, h3] at a1 a2 a3
      refine ⟨segs_ok_iff.1 a1, fun x hx => ?_, a3⟩
      exact a2 (toSeg now x) (List.mem_map.2 ⟨x, hx, rfl⟩)
    · intro hp
      refine (Lists.reindex_spec (st := st0) ?_ ?_ ?_ ?_ ?_ h2).1
      · rw [h3]; exact segs_ok_iff.2 hp.segs
      · rw [h3]
        intro s hs
        obtain ⟨x, -, rfl⟩ := List.mem_map.1 hs
        rfl
      · rw [h3]
        refine ⟨fun s hs => ?_, hnext⟩
        obtain ⟨x, hx, rfl⟩ := List.mem_map.1 hs
        exact hp.ids x hx
      · rw [h3]; exact hp.scores
      · have : st0.content = st.content := by unfold ListState.content; rw [k1]
        rw [this]
        omega

/-- After a repair the restored list is well formed, whatever was in the file: every element comes from the file, and
every ID of the file is there with the newest of its elements. -/
theorem C108_repair (now now' : Nat) (sch sch' shuffle : Sched) (reduce : Nat → Nat) (newID : Option Str) (scores index : Str)
    (b : Bytes) (l : ListRec) (st : ListState) (h : restore now sch newID scores index b = some (.ok (l, st)))
    (hb : b.length ≤ 2 ^ 32) (hu : ∀ e ∈ st.content, e.updated ≠ maxU32) (hred : ∀ n, 0 < n → 0 < reduce n) (hs : 4 ≤ st.splitSize) :
    ∃ st', Lists.repair now' sch' shuffle reduce (fun _ => false) st = some st' ∧ ListOK st' ∧
      (∀ e ∈ st'.content, e ∈ st.content) ∧
      ∀ e ∈ st.content, ∃ k ∈ st'.content, k.id = e.id ∧
        (e.updated < k.updated ∨ (e.updated = k.updated ∧ k.score ≤ e.score)) := by
  obtain ⟨p, -, -, hsz, hwf, -⟩ := C108_restored now sch newID scores index b l st h
  have hst : ∀ s ∈ st.scores.segs, (fun _ : Seg => false) s = false → ∀ e ∈ s.elems, Spec.Storable e := by
    intro s hs' _ e he
    have hm : e ∈ st.content := mem_allElems.2 ⟨s, hs', he⟩
    obtain ⟨a1, a2, a3, a4⟩ := hwf e hm
    have := hu e hm
    simp only [maxU64, maxU32] at *
    exact ⟨by omega, by omega, by omega, by omega⟩
  have hlen : st.content.length + 2 ≤ 2 ^ 32 := by omega
  obtain ⟨st', hr⟩ := C31_repair_returns now' sch' shuffle reduce (fun _ => false) st hst hlen hred hs
  obtain ⟨r1, r2, r3⟩ := C31_repair now' sch' shuffle reduce (fun _ => false) st st' hst hlen hr
  refine ⟨st', hr, r1, fun e he => ?_, fun e he => ?_⟩
  · obtain ⟨s, hs', -, hes⟩ := r2 e he
    exact mem_allElems.2 ⟨s, hs', hes⟩
  · obtain ⟨s, hs', hes⟩ := mem_allElems.1 he
    exact r3 s hs' rfl e hes

/-- C108 fails for what is in the file: any segments with any elements are taken, as long as the format is right. -/
theorem C108_takes_anything (l : ListRec) (t : Table) (parts : List (SegMeta × List Element)) (hl : l.WF) (ht : t.WF)
    (hp : ∀ p ∈ parts, PartFits p) (hn : parts.length < 2 ^ 63) (hs : 2 ≤ l.mergeSize.toNat + l.splitSize.toNat) (now : Nat)
    (sch : Sched) (newID : Option Str) (scores index : Str) :
    ∃ l' st, restore now sch newID scores index (fileOf l t parts.length parts) = some (.ok (l', st)) ∧
      st.content = parts.flatMap (·.2) := by
  have h := parse_file hl ht hp hn []
  rw [List.append_nil] at h
  let lr : ListRec := match newID with
    | some id => { l.stored with id := id, scores := scores, index := index }
    | none => { l.stored with index := index }
  have hz : lr.mergeSize = l.mergeSize ∧ lr.splitSize = l.splitSize := by
    cases newID <;> exact ⟨rfl, rfl⟩
  obtain ⟨st, hre⟩ := C19_reindex_returns now sch
    { scores := { segs := parts.map (toSeg now), nextID := t.nextID, isIndex := t.isIndex }
      index := { segs := [], nextID := 1, isIndex := true }
      mergeSize := lr.mergeSize.toNat, splitSize := lr.splitSize.toNat } (by rw [hz.1, hz.2]; exact hs)
  refine ⟨lr, st, ?_, ?_⟩
  · unfold restore
    rw [h]
    exact congrArg (Option.map fun st => Except.ok (lr, st)) hre
  · unfold ListState.content
    rw [(reindex_keeps hre).1]
    exact content_of

/-- The same for the elements: for any elements in any order, with any IDs, there is a file that is taken and gives a
list with just these elements. -/
theorem C108_any_elements (es : List Element) (hl : es.length ≤ maxU32) (he : ∀ e ∈ es, e.WF ∧ e.payload.length ≤ maxU32) :
    ∃ b : Bytes, ∀ (now : Nat) (sch : Sched) (newID : Option Str) (scores index : Str),
      ∃ l st, restore now sch newID scores index b = some (.ok (l, st)) ∧ st.content = es ∧
        (¬ DistinctIDs es ∨ ¬ Ranked es → ¬ ListOK st) := by
  let m : SegMeta :=
    { id := 1, min := 0, max := maxU64, minTie := 0, maxTie := maxU32, n := es.length, updated := 0, parent := [] }
  have hm : m.WF := by
    refine ⟨?_, ?_, ?_, ?_, ?_, ?_, ?_, ?_⟩ <;> simp only [m, maxU32, maxU64, List.length_nil] at hl ⊢ <;> omega
  let l : ListRec :=
    { id := [65], set := [66], metadata := none, splitSize := 8, mergeSize := 4, loadIndex := false, scores := [], index := [] }
  have hlw : l.WF := by
    refine ⟨?_, ?_, ?_, ?_, ?_, ?_, ?_, ?_, ?_⟩ <;> simp [l, ListRec.entries, maxU32]
  have htw : ({ nextID := 2 } : Table).WF := by
    refine ⟨?_, ?_, ?_, ?_⟩ <;> simp [maxU32]
  refine ⟨fileOf l { nextID := 2 } ([(m, es)] : List _).length [(m, es)], fun now sch newID scores index => ?_⟩
  obtain ⟨l', st, h1, h2⟩ := C108_takes_anything l { nextID := 2 } [(m, es)] hlw htw
    (by intro p hp; rw [List.mem_singleton] at hp; subst hp; exact ⟨hm, hl, he⟩) (by simp) (by simp [l]) now sch newID scores index
  have hc : st.content = es := by rw [h2]; simp
  refine ⟨l', st, h1, hc, fun hbad hok => ?_⟩
  rcases hbad with hbad | hbad
  · exact hbad (by rw [← hc]; exact hok.scores.distinct)
  · obtain ⟨p, st0, g1, g2, g3, -, -⟩ := restore_inv h1
    have hpar := parse_file (parts := [(m, es)]) hlw htw
      (by intro p hp; rw [List.mem_singleton] at hp; subst hp; exact ⟨hm, hl, he⟩) (by simp) []
    rw [List.append_nil] at hpar
    rw [hpar] at g1
    injection g1 with g1
    subst g1
    have := hok.scores.ranked (toSeg now (m, es)) (by rw [(reindex_keeps g2).1, g3]; simp)
    exact hbad this

/-- Reading with the panics of `make`: a file gives a list exactly if its format is right and no number in it asks for
a negative number of places or more than there can be. -/
theorem C108_read (limit : Nat) (b : Bytes) (p : Parsed) :
    readFile limit b = .value p ↔ parse b = .ok p ∧ p.parts.length ≤ limit ∧ ∀ x ∈ p.parts, 0 ≤ x.1.n ∧ x.1.n ≤ limit := by
  constructor
  · intro h
    unfold readFile at h
    dsimp only at h
    split at h
    · cases h
    rename_i hv1
    split at h
    · cases h
    rename_i l b1 hl
    split at h
    · cases h
    rename_i hv2
    split at h
    · cases h
    rename_i t b2 ht
    split at h
    · cases h
    rename_i hv3
    split at h
    · cases h
    rename_i n b3 hn
    split at h
    · rename_i hf
      rw [fits_iff] at hf
      split at h
      · rename_i parts hp
        simp only [Ending.value.injEq] at h
        subst h
        obtain ⟨⟨r, hr⟩, hfit⟩ := readParts_sound limit _ _ _ hp
        have hlen := decN_length _ _ _ _ hr
        refine ⟨?_, by dsimp only; omega, fun x hx => fits_iff.1 (hfit x hx)⟩
        unfold parse
        simp only [if_neg hv1, hl, if_neg hv2, ht, if_neg hv3, hn]
        rw [if_neg (by omega), hr]
      · cases h
      · cases h
    · cases h
  · rintro ⟨h, h1, h2⟩
    obtain ⟨b1, b2, b3, b4, b5, b6, r, e1, e2, e3, e4, e5, e6, e7⟩ := parse_inv h
    unfold readFile
    simp only [e1, e2, e3, e4, e5, e6, ne_eq, not_true_eq_false, if_false, Int.toNat_natCast]
    rw [if_pos (fits_iff.2 (by omega)), readParts_complete limit _ _ _ _ e7, if_pos fun x hx => fits_iff.2 (h2 x hx)]

/-- The backup of a list is read without panic, and asks for just the segments and elements it has. -/
theorem C108_backup_asks (limit : Nat) (l : ListRec) (st : ListState) (h : Writable l st) (hs : st.scores.segs.length ≤ limit)
    (he : st.content.length ≤ limit) (rest : Bytes) :
    (∃ p, readFile limit (backup l st ++ rest) = .value p) ∧
    asked limit (backup l st ++ rest) = (st.scores.segs.length : Int) :: st.scores.segs.map fun s => (s.elems.length : Int) := by
  have hp := parse_backup h rest
  have hle : ∀ s ∈ st.scores.segs, s.n = s.elems.length ∧ s.elems.length ≤ limit := fun s hs' =>
    ⟨h.ok.scoresCount s hs', Nat.le_trans (elems_length_le hs') he⟩
  constructor
  · refine ⟨_, (C108_read limit _ _).2 ⟨hp, by rw [List.length_map]; exact hs, fun x hx => ?_⟩⟩
    obtain ⟨s, hs', rfl⟩ := List.mem_map.1 hx
    have := hle s hs'
    show 0 ≤ (s.n : Int) ∧ (s.n : Int) ≤ limit
    omega
  · obtain ⟨b1, b2, b3, b4, b5, b6, r, e1, e2, e3, e4, e5, e6, e7⟩ := parse_inv hp
    rw [List.length_map] at e6 e7
    unfold asked
    simp only [e1, e2, e3, e4, e5, e6, ne_eq, not_true_eq_false, if_false, Int.toNat_natCast]
    rw [if_pos (fits_iff.2 (by omega)), askParts_exact limit _ _ _ _ e7 fun x hx => by
      obtain ⟨s, hs', rfl⟩ := List.mem_map.1 hx
      have := hle s hs'
      exact ⟨by show (s.n : Int) = s.elems.length; omega, this.2⟩, List.map_map]
    rfl

/-- C108 fails: a number of segments that is negative or too large panics. -/
theorem C108_count_panics (limit : Nat) (l : ListRec) (t : Table) (hl : l.WF) (ht : t.WF) (n : Int) (hn : -2 ^ 63 ≤ n ∧ n < 2 ^ 63)
    (hbad : n < 0 ∨ limit < n) (parts : List (SegMeta × List Element)) (rest : Bytes) :
    readFile limit (fileOf l t n parts ++ rest) = .panic := by
  obtain ⟨b1, b2, b3, b4, b5, e1, e2, e3, e4, e5, e6⟩ := head_file hl ht n parts hn rest
  unfold readFile
  simp only [e1, e2, e3, e4, e5, e6, ne_eq, not_true_eq_false, if_false]
  rw [if_neg fun h => by rw [fits_iff] at h; omega]

/-- C108 fails: so does a wrong number of elements in a segment, in a file that is right otherwise and has all its
elements. -/
theorem C108_elements_panic (limit : Nat) (l : ListRec) (t : Table) (parts : List (SegMeta × List Element)) (hl : l.WF) (ht : t.WF)
    (hp : ∀ p ∈ parts, PartFits p) (hn : parts.length < 2 ^ 63) (hbad : ∃ p ∈ parts, p.1.n < 0 ∨ limit < p.1.n) (rest : Bytes) :
    (∃ p, parse (fileOf l t parts.length parts ++ rest) = .ok p) ∧ readFile limit (fileOf l t parts.length parts ++ rest) = .panic := by
  refine ⟨⟨_, parse_file hl ht hp hn rest⟩, ?_⟩
  obtain ⟨b1, b2, b3, b4, b5, e1, e2, e3, e4, e5, e6⟩ := head_file hl ht parts.length parts (by omega) rest
  unfold readFile
  simp only [e1, e2, e3, e4, e5, e6, ne_eq, not_true_eq_false, if_false, Int.toNat_natCast]
  split
  · rw [readParts_complete limit _ _ _ _ (reads_parts hp rest), if_neg]
    intro hall
    obtain ⟨p, hpm, hpb⟩ := hbad
    have := fits_iff.1 (hall p hpm)
    omega
  · rfl

/-- C108 fails: a file of at most 60 bytes asks for any number of segments. -/
theorem C108_small_file (limit : Nat) (n : Nat) (h0 : 0 < n) (hn : n ≤ limit) (hmax : n < 2 ^ 63) :
    ∃ b : Bytes, b.length ≤ 60 ∧ asked limit b = [(n : Int)] ∧ readFile limit b = .error .decode := by
  let l : ListRec :=
    { id := [], set := [], metadata := none, splitSize := 0, mergeSize := 0, loadIndex := false, scores := [], index := [] }
  have hlw : l.WF := by
    refine ⟨?_, ?_, ?_, ?_, ?_, ?_, ?_, ?_, ?_⟩ <;> simp [l, ListRec.entries, maxU32]
  have htw : ({} : Table).WF := by
    refine ⟨?_, ?_, ?_, ?_⟩ <;> simp
  obtain ⟨b1, b2, b3, b4, b5, e1, e2, e3, e4, e5, e6⟩ := head_file hlw htw n [] (by omega) []
  rw [List.append_nil] at e1 e6
  obtain ⟨k, rfl⟩ : ∃ k, n = k + 1 := ⟨n - 1, by omega⟩
  have hf : fits limit ((k + 1 : Nat) : Int) = true := fits_iff.2 (by omega)
  refine ⟨fileOf l {} ((k + 1 : Nat) : Int) [], ?_, ?_, ?_⟩
  · have h1 := encInt_length ((k + 1 : Nat) : Int)
    have h2 : (encUint 1 ++ encList l ++ encUint 2 ++ encTable {} ++ encUint 2).length ≤ 51 := by decide +kernel
    unfold fileOf
    rw [List.flatMap_nil, List.append_nil, List.length_append]
    omega
  · unfold asked
    simp only [e1, e2, e3, e4, e5, e6, ne_eq, not_true_eq_false, if_false, hf, if_true, Int.toNat_natCast, askParts]
    rfl
  · unfold readFile
    simp only [e1, e2, e3, e4, e5, e6, ne_eq, not_true_eq_false, if_false, hf, if_true, Int.toNat_natCast, readParts]
    rfl

/-! Files that are not backups of any list. -/

/-- A segment for all scores. -/
def badMeta (id : Nat) (n : Int) : SegMeta :=
  { id := id, min := 0, max := maxU64, minTie := 0, maxTie := maxU32, n := n, updated := 0, parent := [] }

/-- The description of list `X`. -/
def badRec : ListRec :=
  { id := [88], set := [66], metadata := none, splitSize := 8, mergeSize := 4, loadIndex := false, scores := [], index := [] }

/-- Three elements in no order, two of them with ID 7. -/
def badElems : List Element := [⟨3, 7, [], 0, 50⟩, ⟨9, 7, [], 0, 60⟩, ⟨5, 8, [], 0, 50⟩]

/-- A file with these elements. -/
def badFile : Bytes := fileOf badRec { nextID := 2 } 1 [(badMeta 1 3, badElems)]

/-- Two segments with the same number, which are right otherwise. -/
def sameParts : List (SegMeta × List Element) :=
  [({ badMeta 1 1 with min := 5 }, [⟨9, 7, [], 0, 60⟩]), ({ badMeta 1 1 with max := 5, maxTie := 0 }, [⟨3, 8, [], 0, 50⟩])]

/-- A file with these segments. -/
def sameFile : Bytes := fileOf badRec { nextID := 2 } 2 sameParts

/-- The body of a request that restores the file as list `X`. -/
def bodyOf (b : Bytes) : Bytes := Backup.record [88] b ++ encBool false

/-- C108 fails on the server: the file is reported as restored, and the list has one ID twice and is not ranked. After a
repair it is in order. -/
theorem C108_server_takes_bad :
    (Server.restoreSet [] [] true exNames exDb (bodyOf badFile)).1 = .done { restored := 1 } ∧
    exShown (Server.restored [] [] true exNames exDb (bodyOf badFile)) [88] = some [(7, 3), (7, 9), (8, 5)] ∧
    exShown (Server.repaired (exEnvAt 40) (Server.restored [] [] true exNames exDb (bodyOf badFile)) [88]).2 [88] =
      some [(7, 9), (8, 5)] := by
  decide +kernel

/-- C108 fails on the server: of two segments with the same number only the second is kept, and it is there twice. The
file is reported as restored, although one of its elements is lost for ever. -/
theorem C108_server_loses :
    (Server.restoreSet [] [] true exNames exDb (bodyOf sameFile)).1 = .done { restored := 1 } ∧
    (∃ p, parse sameFile = .ok p ∧ p.parts.flatMap (·.2) = [⟨9, 7, [], 0, 60⟩, ⟨3, 8, [], 0, 50⟩]) ∧
    exShown (Server.restored [] [] true exNames exDb (bodyOf sameFile)) [88] = some [(8, 3), (8, 3)] ∧
    exShown (Server.repaired (exEnvAt 40) (Server.restored [] [] true exNames exDb (bodyOf sameFile)) [88]).2 [88] =
      some [(8, 3)] := by
  refine ⟨by decide +kernel, ?_, by decide +kernel, by decide +kernel⟩
  have hp := parse_file (l := badRec) (t := { nextID := 2 }) (parts := sameParts)
    (by refine ⟨?_, ?_, ?_, ?_, ?_, ?_, ?_, ?_, ?_⟩ <;> simp [badRec, ListRec.entries, maxU32])
    (by refine ⟨?_, ?_, ?_, ?_⟩ <;> simp [maxU32]) (by
      intro p hp
      simp only [sameParts, List.mem_cons, List.not_mem_nil, or_false] at hp
      rcases hp with rfl | rfl <;> refine ⟨?_, ?_, ?_⟩
      · refine ⟨?_, ?_, ?_, ?_, ?_, ?_, ?_, ?_⟩ <;> simp [badMeta, maxU32, maxU64]
      · simp [maxU32]
      · intro e he; rw [List.mem_singleton] at he; subst he; exact ⟨⟨by simp [maxU64], by simp [maxU64], by simp [maxU32], by simp [maxU32]⟩, by simp [maxU32]⟩
      · refine ⟨?_, ?_, ?_, ?_, ?_, ?_, ?_, ?_⟩ <;> simp [badMeta, maxU32, maxU64]
      · simp [maxU32]
      · intro e he; rw [List.mem_singleton] at he; subst he; exact ⟨⟨by simp [maxU64], by simp [maxU64], by simp [maxU32], by simp [maxU32]⟩, by simp [maxU32]⟩)
    (by simp [sameParts]) []
  rw [List.append_nil] at hp
  exact ⟨_, hp, rfl⟩

/-! The hypotheses hold for blobs and files that are not trivial. -/

/-- A blob that is taken, with bytes after its elements, and one that is not. -/
example : (match loadElements (elementsBlob badElems ++ [1, 2, 3]) with | .ok l => l == badElems | _ => false) = true ∧
    askBlob (elementsBlob badElems ++ [1, 2, 3]) = [3] ∧
    (match loadElements [1, 0xdd, 0xff, 0xff, 0xff, 0xff] with | .error e => e == .decode | _ => false) = true ∧
    askBlob [1, 0xdd, 0xff, 0xff, 0xff, 0xff] = [4294967295] := by decide +kernel

/-- A file that is taken, gives no well-formed list, and is repaired. -/
example : (match restore 70 .reversed (some [88]) [1] [2] badFile with
    | some (.ok (_, st)) => st.content == badElems && listOK st == false && decide (4 ≤ st.splitSize) &&
        (match Lists.repair 71 .reversed .reversed (fun n => n) (fun _ => false) st with
         | some st' => listOK st' && st'.content.map (fun e => (e.id, e.score)) == [(7, 9), (8, 5)]
         | none => false)
    | _ => false) = true ∧ badFile.length ≤ 2 ^ 32 ∧ (∀ e ∈ badElems, e.updated ≠ maxU32) ∧ ¬ DistinctIDs badElems ∧
    badElems.length ≤ maxU32 := by decide +kernel

/-- The backup of a list asks for its segments and their elements. -/
example : Writable exDesc exList ∧ asked 1000 (backup exDesc exList) =
    (exList.scores.segs.length : Int) :: exList.scores.segs.map fun s => (s.elems.length : Int) := by
  refine ⟨exWritable, ?_⟩
  have := (C108_backup_asks 1000 exDesc exList exWritable (by decide +kernel) (by decide +kernel) []).2
  rwa [List.append_nil] at this

/-- Numbers that panic, with their elements in place. -/
example : readFile 1000 (fileOf badRec { nextID := 2 } (-1) [(badMeta 1 3, badElems)]) = .panic := by
  have := C108_count_panics 1000 badRec { nextID := 2 }
    (by refine ⟨?_, ?_, ?_, ?_, ?_, ?_, ?_, ?_, ?_⟩ <;> simp [badRec, ListRec.entries, maxU32])
    (by refine ⟨?_, ?_, ?_, ?_⟩ <;> simp [maxU32]) (-1) (by omega) (by omega) [(badMeta 1 3, badElems)] []
  rwa [List.append_nil] at this

example : (match readFile 1000 (fileOf badRec { nextID := 2 } 1 [(badMeta 1 (-1), badElems)]),
      parse (fileOf badRec { nextID := 2 } 1 [(badMeta 1 (-1), badElems)]) with
    | .panic, .ok p => p.parts.map (·.2) == [badElems]
    | _, _ => false) = true := by decide +kernel

end Props
end RankDB

import Verif.Proofs.Stored
import Verif.Model.ListFile
/-
Properties C33 to C36: what is read from storage is what was written.
-/
namespace RankDB
namespace Stored
open Wire

theorem getVersion_enc {v : Nat} (h : v ≤ 255) (rest : Bytes) : getVersion (encUint v ++ rest) = (v, rest) := by
  unfold getVersion
  rw [reads_decUint (bits := 8) (by omega) (by omega) rest]

/-! The list file. -/

theorem addList_new {acc : List ListRec} {l : ListRec} (h : l.id ∉ acc.map (·.id)) : addList acc l = acc ++ [l] := by
  unfold addList
  congr 1
  rw [List.filter_eq_self]
  intro e he
  simp only [bne_iff_ne, ne_eq]
  intro hid
  exact h (hid ▸ List.mem_map_of_mem (f := (·.id)) he)

theorem encList_cons (l : ListRec) : ∃ r, encList l = 0x98 :: r := ⟨_, rfl⟩

theorem loadLoop_saved (lists : List ListRec) (hwf : ∀ l ∈ lists, l.WF) (acc : List ListRec)
    (hnd : ((acc ++ lists).map (·.id)).Nodup) (fuel : Nat) (rest : Bytes)
    (hf : (lists.flatMap encList).length < fuel) :
    loadLoop fuel acc (lists.flatMap encList ++ (encBool true ++ rest)) = (acc ++ lists.map ListRec.stored, none) := by
  induction lists generalizing acc fuel with
  | nil =>
    cases fuel with
    | zero => simp at hf
    | succ fuel => simp [loadLoop, encBool]
  | cons l lists ih =>
    obtain ⟨r, hr⟩ := encList_cons l
    rw [List.flatMap_cons, List.length_append] at hf
    cases fuel with
    | zero => omega
    | succ fuel =>
      have hread := reads_list (hwf l (by simp)) (lists.flatMap encList ++ (encBool true ++ rest))
      rw [List.flatMap_cons, List.append_assoc]
      rw [hr] at hread hf ⊢
      rw [List.cons_append] at hread ⊢
      unfold loadLoop
      rw [if_neg (by decide), hread]
      dsimp only
      have hadd : addList acc l.stored = acc ++ [l.stored] := by
        apply addList_new
        rw [List.map_append, List.map_cons, List.nodup_append] at hnd
        intro hm
        exact hnd.2.2 _ hm _ (by simp [ListRec.stored]) rfl
      rw [hadd, ih (fun x hx => hwf x (by simp [hx])) (acc ++ [l.stored]) (by simpa [ListRec.stored] using hnd) fuel
        (by simp only [List.length_cons] at hf; omega)]
      simp

/-- A stream that ends early is an error. -/
theorem loadLoop_truncated (lists : List ListRec) (hwf : ∀ l ∈ lists, l.WF) (acc : List ListRec) (fuel : Nat)
    (a c : Bytes) (h : lists.flatMap encList ++ encBool true = a ++ c) (hc : c ≠ []) :
    ∃ e, (loadLoop fuel acc a).2 = some e := by
  induction lists generalizing acc fuel a with
  | nil =>
    have ha : a = [] := by
      have := congrArg List.length h
      have hl : 0 < c.length := List.length_pos_iff.2 hc
      simp [encBool] at this
      exact List.eq_nil_of_length_eq_zero (by omega)
    subst ha
    cases fuel <;> exact ⟨_, rfl⟩
  | cons l lists ih =>
    rw [List.flatMap_cons, List.append_assoc] at h
    cases fuel with
    | zero => exact ⟨_, rfl⟩
    | succ fuel =>
      cases a with
      | nil => exact ⟨_, rfl⟩
      | cons x r =>
        obtain ⟨t, ht⟩ := encList_cons l
        have hx : x = 0x98 := by
          rw [ht] at h
          simp only [List.cons_append, List.cons.injEq] at h
          exact h.1.symm
        unfold loadLoop
        rw [if_neg (by rw [hx]; decide)]
        rcases List.append_eq_append_iff.1 h with ⟨a', h1, h2⟩ | ⟨c', h1, h2⟩
        · rw [h1, reads_list (hwf l (by simp)) a']
          exact ih (fun y hy => hwf y (by simp [hy])) _ _ _ h2
        · by_cases hc' : c' = []
          · subst hc'
            rw [List.append_nil] at h1
            have := reads_list (hwf l (by simp)) []
            rw [List.append_nil, h1] at this
            rw [this]
            exact ih (fun y hy => hwf y (by simp [hy])) _ _ [] (by simpa using h2.symm)
          · rw [prefix_fails (reads_list (hwf l (by simp))) mono_list h1 hc']
            exact ⟨_, rfl⟩

theorem loadStream_saved {lists : List ListRec} (hwf : ∀ l ∈ lists, l.WF) (hnd : (lists.map (·.id)).Nodup)
    (old : List ListRec) : loadStream old (listStream lists) = (lists.map ListRec.stored, none) := by
  unfold loadStream listStream
  rw [getVersion_enc (by decide)]
  dsimp only
  rw [if_neg (by simp)]
  have := loadLoop_saved lists hwf [] (by simpa using hnd) _ [] (Nat.lt_succ_of_le (Nat.le_refl _))
  rw [List.append_nil, List.nil_append] at this
  rw [List.length_append]
  have h2 := loadLoop_saved lists hwf [] (by simpa using hnd) ((lists.flatMap encList).length + (encBool true).length + 1) []
    (by omega)
  rwa [List.append_nil, List.nil_append] at h2

theorem loadStream_truncated {lists : List ListRec} (hwf : ∀ l ∈ lists, l.WF) (old : List ListRec) {a c : Bytes}
    (h : listStream lists = a ++ c) (hc : c ≠ []) : ∃ e, (loadStream old a).2 = some e := by
  have hv : encUint listVersion = [1] := by decide +kernel
  unfold listStream at h
  rw [hv] at h
  cases a with
  | nil => exact ⟨.version, rfl⟩
  | cons x a =>
    simp only [List.cons_append, List.cons.injEq, List.nil_append] at h
    obtain ⟨rfl, h⟩ := h
    unfold loadStream
    have : getVersion (1 :: a) = (1, a) := by
      have := getVersion_enc (v := 1) (by omega) a
      rwa [show encUint 1 = [1] by decide +kernel] at this
    rw [this]
    dsimp only
    rw [if_neg (by decide)]
    exact loadLoop_truncated lists hwf [] _ a c h hc

end Stored

namespace Props
open Wire Stored

/-! C33: elements of a segment. -/

/-- The values the Go types allow, and lengths that can be stored. -/
structure Storable (l : List Element) : Prop where
  count : l.length ≤ maxU32
  fields : ∀ e ∈ l, e.WF
  payload : ∀ e ∈ l, e.payload.length ≤ maxU32

/-- Decoding the stored form returns exactly the elements. -/
theorem C33_roundtrip (l : List Element) (h : Storable l) : loadElements (elementsBlob l) = .ok l := by
  unfold loadElements elementsBlob
  rw [getVersion_enc (by decide)]
  dsimp only
  rw [if_neg (by simp)]
  have := reads_elements h.count (fun e he => ⟨h.fields e he, h.payload e he⟩) []
  rw [List.append_nil] at this
  rw [this]

/-- Decoding consumes exactly the bytes of the elements, whatever follows. -/
theorem C33_consumes (l : List Element) (h : Storable l) (rest : Bytes) :
    decElements (encElements l ++ rest) = some (l, rest) :=
  reads_elements h.count (fun e he => ⟨h.fields e he, h.payload e he⟩) rest

/-- A blob with another version number is rejected, whatever follows. -/
theorem C33_version (v : Nat) (hv : v ≤ 255) (hne : v ≠ elementsVersion) (rest : Bytes) :
    loadElements (encUint v ++ rest) = .error .version := by
  unfold loadElements
  rw [getVersion_enc hv]
  dsimp only
  rw [if_pos hne]

/-- A blob that was cut off is rejected. -/
theorem C33_truncated (l : List Element) (h : Storable l) (n : Nat) (hn : n < (elementsBlob l).length) :
    ∃ e, loadElements ((elementsBlob l).take n) = .error e := by
  have hv : encUint elementsVersion = [1] := by decide +kernel
  unfold elementsBlob at hn ⊢
  rw [hv] at hn ⊢
  cases n with
  | zero => exact ⟨.version, rfl⟩
  | succ n =>
    simp only [List.cons_append, List.nil_append, List.length_cons, List.take_succ_cons] at hn ⊢
    unfold loadElements
    have : getVersion (1 :: (encElements l).take n) = (1, (encElements l).take n) := by
      have := getVersion_enc (v := 1) (by omega) ((encElements l).take n)
      rwa [show encUint 1 = [1] by decide +kernel] at this
    rw [this]
    dsimp only
    rw [if_neg (by decide)]
    rw [prefix_fails (reads_elements h.count (fun e he => ⟨h.fields e he, h.payload e he⟩)) mono_elements
      (List.take_append_drop n _).symm (by
        intro hd
        have := congrArg List.length hd
        rw [List.length_drop, List.length_nil] at this
        omega)]
    exact ⟨_, rfl⟩

/-- Different elements have different stored forms. -/
theorem C33_injective (l l' : List Element) (h : Storable l) (h' : Storable l') (he : elementsBlob l = elementsBlob l') :
    l = l' := by
  have h1 := C33_roundtrip l h
  rw [he, C33_roundtrip l' h'] at h1
  injection h1 with h1
  exact h1.symm

/-- Non-vacuity: values at the boundaries. -/
example : Storable [⟨maxU64, 0, List.replicate 300 7, maxU32, 0⟩, ⟨127, 128, [], 255, 256⟩] ∧
    elementsBlob [⟨127, 128, [], 255, 256⟩] = [1, 0x91, 0x95, 127, 0xcc, 128, 0xc4, 0, 0xcc, 255, 0xcd, 1, 0] :=
  ⟨⟨by decide, by
    intro e he
    simp only [List.mem_cons, List.not_mem_nil, or_false] at he
    rcases he with rfl | rfl <;> exact ⟨by decide, by decide, by decide, by decide⟩, by decide +kernel⟩, by decide +kernel⟩

/-! C34: segment tables. -/

/-- Decoding the stored form returns the same table. -/
theorem C34_roundtrip (t : Table) (h : t.WF) : loadTable (tableBlob t) = .ok t := by
  unfold loadTable tableBlob
  rw [getVersion_enc (by decide)]
  dsimp only
  rw [if_neg (by simp)]
  have := reads_encTable h []
  rw [List.append_nil] at this
  rw [this]

/-- The order of the fields does not matter, and fields with other names and any values are skipped. -/
theorem C34_fields (t : Table) (h : t.WF) (fs : List Field) (hl : fs.length ≤ maxU32)
    (hp : (fs.filter Field.known).Perm [.id t.id, .segments t.segments, .nextID t.nextID, .isIndex t.isIndex])
    (hok : ∀ f ∈ fs, f.ok) :
    loadTable (encUint segmentsVersion ++ (encMap fs.length ++ fs.flatMap Field.encode)) = .ok t := by
  unfold loadTable
  rw [getVersion_enc (by decide)]
  dsimp only
  rw [if_neg (by simp)]
  have := reads_table h hl hp hok []
  rw [List.append_nil] at this
  rw [this]

/-- A table with another version number is rejected. -/
theorem C34_version (v : Nat) (hv : v ≤ 255) (hne : v ≠ segmentsVersion) (rest : Bytes) :
    loadTable (encUint v ++ rest) = .error .version := by
  unfold loadTable
  rw [getVersion_enc hv]
  dsimp only
  rw [if_pos hne]

/-- A table that was cut off is rejected. -/
theorem C34_truncated (t : Table) (h : t.WF) (n : Nat) (hn : n < (tableBlob t).length) :
    ∃ e, loadTable ((tableBlob t).take n) = .error e := by
  have hv : encUint segmentsVersion = [2] := by decide +kernel
  unfold tableBlob at hn ⊢
  rw [hv] at hn ⊢
  cases n with
  | zero => exact ⟨.version, rfl⟩
  | succ n =>
    simp only [List.cons_append, List.nil_append, List.length_cons, List.take_succ_cons] at hn ⊢
    unfold loadTable
    have : getVersion (2 :: (encTable t).take n) = (2, (encTable t).take n) := by
      have := getVersion_enc (v := 2) (by omega) ((encTable t).take n)
      rwa [show encUint 2 = [2] by decide +kernel] at this
    rw [this]
    dsimp only
    rw [if_neg (by decide)]
    rw [prefix_fails (reads_encTable h) mono_table (List.take_append_drop n _).symm (by
        intro hd
        have := congrArg List.length hd
        rw [List.length_drop, List.length_nil] at this
        omega)]
    exact ⟨_, rfl⟩

/-- A table for examples, with a negative and a large number. -/
def exampleTable : Table :=
  { id := [65, 66], segments := [⟨1, 0, maxU64, 0, maxU32, 3, -70000, [65, 66]⟩, ⟨2, 5, 5, 1, 1, 300, 2 ^ 40, [65]⟩],
    nextID := 3, isIndex := true }

/-- Non-vacuity of `C34_fields`: another order and an unknown field that contains a map. -/
example : exampleTable.WF ∧
    (([.isIndex true, .other [1] (.map (.cons (.str [7]) (.array (.cons .nil (.cons (.int (-5)) .nil))) .nil)),
      .nextID 3, .id [65, 66], .segments exampleTable.segments] : List Field).filter Field.known).Perm
      [.id exampleTable.id, .segments exampleTable.segments, .nextID exampleTable.nextID, .isIndex exampleTable.isIndex] ∧
    (Field.other [1] (.map (.cons (.str [7]) (.array (.cons .nil (.cons (.int (-5)) .nil))) .nil))).ok := by
  refine ⟨⟨by decide, by decide, ?_, by decide⟩, ?_, ?_⟩
  · intro s hs
    simp only [exampleTable, List.mem_cons, List.not_mem_nil, or_false] at hs
    rcases hs with rfl | rfl <;> exact ⟨by decide, by decide, by decide, by decide, by decide, by decide, by decide, by decide⟩
  · simp only [List.filter, Field.known]
    refine List.Perm.trans (l₂ := [.id [65, 66], .isIndex true, .nextID 3, .segments exampleTable.segments]) ?_ ?_
    · exact List.Perm.trans (List.Perm.cons _ (List.Perm.swap _ _ _)) (List.Perm.swap _ _ _)
    · refine List.Perm.cons _ ?_
      refine List.Perm.trans (List.Perm.cons _ (List.Perm.swap _ _ _)) ?_
      refine List.Perm.trans (List.Perm.swap _ _ _) ?_
      exact List.Perm.cons _ (List.Perm.swap _ _ _)
  · refine ⟨by decide, by decide, by decide, by decide, by decide, ?_⟩
    simp [Val.ok, Pairs.ok, Vals.ok, Vals.length, Pairs.length]

/-! C35: the list file. -/

/-- The lists in memory: values that can be stored, every ID once. -/
structure StorableLists (lists : List ListRec) : Prop where
  fields : ∀ l ∈ lists, l.WF
  ids : (lists.map (·.id)).Nodup

/-- Loading the saved file returns exactly the saved lists, with or without compression and whatever was loaded
before; a list without metadata comes back with an empty map of metadata. -/
theorem C35_roundtrip (c : Compression) (compress : Bool) (lists old : List ListRec) (h : StorableLists lists) :
    loadLists c old (saveLists c compress lists) =
      (lists.map fun l => { l with metadata := some (l.metadata.getD []) }, none) := by
  have hs := loadStream_saved h.fields h.ids old
  unfold saveLists
  cases compress
  · unfold loadLists
    simp only [Bool.false_eq_true, if_false]
    rw [if_pos (by decide), if_pos trivial]
    exact hs
  · unfold loadLists
    simp only [if_true]
    rw [if_pos (by decide), if_neg (by decide), c.complete]
    exact hs

/-- Exactly the saved lists, if all have metadata (possibly no entries). Missing for the full property: a nil map
of metadata comes back as an empty one, which a query can observe, see `C35_nil_metadata_query`. -/
theorem C35_exact_partial (c : Compression) (compress : Bool) (lists old : List ListRec) (h : StorableLists lists)
    (hm : ∀ l ∈ lists, l.metadata ≠ none) : loadLists c old (saveLists c compress lists) = (lists, none) := by
  rw [C35_roundtrip c compress lists old h]
  congr 1
  conv => rhs; rw [← List.map_id lists]
  apply List.map_congr_left
  intro l hl
  have := hm l hl
  cases l with
  | mk id set m a b c d e =>
    cases m with
    | none => exact absurd rfl this
    | some m => rfl

/-- Without compression every truncation is reported as an error. -/
theorem C35_truncated (c : Compression) (lists old : List ListRec) (h : StorableLists lists) (n : Nat)
    (hn : n < (saveLists c false lists).length) :
    ∃ e, (loadLists c old ((saveLists c false lists).take n)).2 = some e := by
  unfold saveLists at *
  simp only [Bool.false_eq_true, if_false] at *
  cases n with
  | zero => exact ⟨.notFound, rfl⟩
  | succ n =>
    rw [List.take_succ_cons]
    unfold loadLists
    simp only
    rw [if_pos (by decide), if_pos trivial]
    refine loadStream_truncated h.fields old (List.take_append_drop n _).symm ?_
    intro hd
    have := congrArg List.length hd
    rw [List.length_drop, List.length_nil] at this
    simp only [List.length_cons] at hn
    omega

/-- With compression a truncated file is reported as an error, unless all lists could still be read. -/
theorem C35_truncated_compressed (c : Compression) (lists old : List ListRec) (h : StorableLists lists) (n : Nat) :
    (∃ e, (loadLists c old ((saveLists c true lists).take n)).2 = some e) ∨
      loadLists c old ((saveLists c true lists).take n) = loadLists c old (saveLists c true lists) := by
  unfold saveLists
  simp only [if_true]
  cases n with
  | zero => exact Or.inl ⟨.notFound, rfl⟩
  | succ n =>
    rw [List.take_succ_cons]
    unfold loadLists
    simp only
    rw [if_pos (by decide), if_neg (by decide), if_pos trivial, c.complete]
    obtain ⟨t, ht⟩ := c.truncated (listStream lists) n
    by_cases htn : t = []
    · subst htn
      rw [List.append_nil] at ht
      rw [ht]
      exact Or.inr rfl
    · exact Or.inl (loadStream_truncated h.fields old ht.symm htn)

/-- A file with another version number is rejected and changes nothing. -/
theorem C35_version (c : Compression) (old : List ListRec) (v : Nat) (hv : v ≤ 255) (hne : v ≠ listVersion)
    (rest : Bytes) : loadLists c old (0x07 :: (encUint v ++ rest)) = (old, some .version) := by
  unfold loadLists
  simp only
  rw [if_pos (by decide), if_pos trivial]
  unfold loadStream
  rw [getVersion_enc hv]
  dsimp only
  rw [if_pos hne]

/-- The catalogue entry (as in the queries for lists) of a stored list. -/
def entryOf (l : ListRec) : Catalogue.Entry := ⟨l.id, l.set, l.metadata⟩

/-- A list without metadata is not found before, but found after saving and loading, by a query for an empty
value. -/
theorem C35_nil_metadata_query : ∃ l : ListRec, l.WF ∧ ∀ c : Compression,
    Catalogue.matchAll [entryOf l] [([107], [])] [] = [] ∧
    Catalogue.matchAll ((loadLists c [] (saveLists c true [l])).1.map entryOf) [([107], [])] [] = [l.id] := by
  refine ⟨⟨[97], [], none, 10, 1, false, [115], []⟩, ?_, fun c => ⟨by decide +kernel, ?_⟩⟩
  · exact ⟨by decide, by decide, by decide, by simp [ListRec.entries], by simp [ListRec.entries], by decide, by decide,
      by decide, by decide⟩
  · rw [C35_roundtrip c true _ [] ⟨?_, by simp⟩]
    · decide +kernel
    · intro l hl
      simp only [List.mem_cons, List.not_mem_nil, or_false] at hl
      subst hl
      exact ⟨by decide, by decide, by decide, by simp [ListRec.entries], by simp [ListRec.entries], by decide, by decide,
        by decide, by decide⟩

/-- A compression for examples: none. -/
def noCompression : Compression :=
  ⟨fun b => b, fun b => b, fun _ => [], fun _ => rfl, fun b n => List.take_prefix n b⟩

/-- Non-vacuity: two lists with different metadata. -/
example : StorableLists [⟨[97], [1], some [([107], [118]), ([108], [])], 100, 10, true, [115], [105]⟩,
    ⟨[98], [], some [], 2000, 500, false, [116], []⟩] := by
  refine ⟨?_, by decide⟩
  intro l hl
  simp only [List.mem_cons, List.not_mem_nil, or_false] at hl
  rcases hl with rfl | rfl
  · exact ⟨by decide, by decide, by decide, by decide, by decide, by decide, by decide, by decide, by decide⟩
  · exact ⟨by decide, by decide, by decide, by simp [ListRec.entries], by simp [ListRec.entries], by decide, by decide,
      by decide, by decide⟩

/-! C36: startup. -/

/-- A readable and valid list file is loaded, whatever the backup is. -/
theorem C36_primary (c : Compression) (old lists : List ListRec) (blob : Bytes) (backup : Option (Except Err Bytes))
    (h : loadLists c old blob = (lists, none)) : managerLoad c old (.ok blob) backup = (lists, none) := by
  unfold managerLoad
  dsimp only
  rw [h]

/-- The list file is unreadable or invalid. -/
def PrimaryFails (c : Compression) (old : List ListRec) : Except Err Bytes → Prop
  | .ok blob => (loadLists c old blob).2 ≠ none
  | .error _ => True

/-- The lists of a stream that is loaded do not depend on what was there before. -/
theorem loadLists_old (c : Compression) (old old' : List ListRec) (blob : Bytes) (lists : List ListRec)
    (h : loadLists c old blob = (lists, none)) : loadLists c old' blob = (lists, none) := by
  have hs : ∀ b, loadStream old b = (lists, none) → loadStream old' b = (lists, none) := by
    intro b
    unfold loadStream
    dsimp only
    split
    · intro h; simp at h
    · exact fun h => h
  unfold loadLists at *
  split
  · simp at h
  · rename_i b r
    simp only at h
    split
    · rename_i h7
      rw [if_pos h7] at h
      split
      · rename_i h1; rw [if_pos h1] at h; exact hs _ h
      · rename_i h1
        rw [if_neg h1] at h
        split
        · rename_i h2; rw [if_pos h2] at h; exact hs _ h
        · rename_i h2; rw [if_neg h2] at h; simp at h
    · rename_i h7
      rw [if_neg h7] at h
      exact hs _ h

/-- If the list file fails and the backup is valid, exactly the lists of the backup are loaded: nothing of a
partially read list file remains. -/
theorem C36_backup (c : Compression) (old lists : List ListRec) (primary : Except Err Bytes) (blob : Bytes)
    (hp : PrimaryFails c old primary) (h : loadLists c [] blob = (lists, none)) :
    managerLoad c old primary (some (.ok blob)) = (lists, none) := by
  have key : ∀ x : List ListRec × Option Err, x.2 ≠ none →
      (match x.2, (some (.ok blob) : Option (Except Err Bytes)) with
        | none, _ => x
        | some _, none => x
        | some _, some (.error e) => (x.1, some e)
        | some _, some (.ok blob) => loadLists c x.1 blob) = (lists, none) := by
    rintro ⟨a, e⟩ hx
    cases e with
    | none => exact absurd rfl hx
    | some e => exact loadLists_old c [] a blob lists h
  unfold managerLoad
  apply key
  cases primary with
  | error e => simp
  | ok b => exact hp

/-- If the list file fails and there is no backup store, or the backup fails as well, an error is reported. -/
theorem C36_error (c : Compression) (old : List ListRec) (primary : Except Err Bytes)
    (backup : Option (Except Err Bytes)) (hp : PrimaryFails c old primary)
    (hb : ∀ blob, backup = some (.ok blob) → ∀ lists, loadLists c [] blob ≠ (lists, none)) :
    (managerLoad c old primary backup).2 ≠ none := by
  have key : ∀ x : List ListRec × Option Err, x.2 ≠ none →
      (match x.2, backup with
        | none, _ => x
        | some _, none => x
        | some _, some (.error e) => (x.1, some e)
        | some _, some (.ok blob) => loadLists c x.1 blob).2 ≠ none := by
    rintro ⟨a, e⟩ hx
    cases e with
    | none => exact absurd rfl hx
    | some e =>
      cases backup with
      | none => simp
      | some r =>
        cases r with
        | error e => simp
        | ok blob =>
          intro hn
          dsimp only at hn
          have : loadLists c a blob = ((loadLists c a blob).1, none) := by rw [← hn]
          exact hb blob rfl _ (loadLists_old c a [] blob _ this)
  unfold managerLoad
  apply key
  cases primary with
  | error e => simp
  | ok b => exact hp

/-- A saved file that was cut off counts as failed, so that the backup is used. -/
theorem C36_truncated_primary (c : Compression) (saved lists old : List ListRec) (h : StorableLists saved)
    (hb : StorableLists lists) (hm : ∀ l ∈ lists, l.metadata ≠ none) (n : Nat)
    (hn : n < (saveLists c false saved).length) (compress : Bool) :
    managerLoad c old (.ok ((saveLists c false saved).take n)) (some (.ok (saveLists c compress lists))) = (lists, none) := by
  apply C36_backup
  · obtain ⟨e, he⟩ := C35_truncated c saved old h n hn
    show (loadLists c old _).2 ≠ none
    rw [he]; simp
  · exact C35_exact_partial c compress lists [] hb hm

/-- If both fail there is an error, but lists of the partially read list file can be visible. -/
theorem C36_both_fail_partial_lists : ∃ blob, (managerLoad noCompression [] (.ok blob) (some (.error .notFound))).2 ≠ none ∧
    (managerLoad noCompression [] (.ok blob) (some (.error .notFound))).1 ≠ [] :=
  ⟨(saveLists noCompression false [⟨[97], [], some [], 10, 1, false, [115], []⟩]).dropLast, by decide +kernel, by decide +kernel⟩

end Props
end RankDB

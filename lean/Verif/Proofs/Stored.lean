import Verif.Proofs.Wire
import Verif.Spec.Stored
/-
Round trips of the stored forms.
-/
namespace RankDB
open Wire

namespace Stored

theorem lt_of_le_maxU32 {n : Nat} (h : n ≤ maxU32) : n < 2 ^ 32 := by unfold maxU32 at h; omega
theorem lt_of_le_maxU64 {n : Nat} (h : n ≤ maxU64) : n < 2 ^ 64 := by unfold maxU64 at h; omega

theorem Reads.bind_cons {α β : Type} {p : Dec α} {f : α → Dec β} {b : UInt8} {e : Bytes} {x : α} {y : β}
    (h1 : Reads p [b] x) (h2 : Reads (f x) e y) : Reads (p >>= f) (b :: e) y := Reads.bind h1 h2

theorem reads_array5 : Reads decArray [0x95] 5 := by
  have := reads_array (n := 5) (by omega)
  unfold encArray at this
  rw [if_pos (by omega)] at this
  exact this

theorem reads_array8 : Reads decArray [0x98] 8 := by
  have := reads_array (n := 8) (by omega)
  unfold encArray at this
  rw [if_pos (by omega)] at this
  exact this

theorem reads_element {e : Element} (h : e.WF) (hp : e.payload.length ≤ maxU32) : Reads decElement (encElement e) e := by
  unfold decElement encElement
  refine Reads.bind_cons (x := 5) (reads_array5) ?_
  rw [if_neg (by simp)]
  simp only [List.append_assoc]
  refine Reads.bind (reads_decUint (lt_of_le_maxU64 h.score) (by omega)) ?_
  refine Reads.bind (reads_decUint (lt_of_le_maxU64 h.id) (by omega)) ?_
  refine Reads.bind (reads_bin (lt_of_le_maxU32 hp)) ?_
  refine Reads.bind (reads_decUint (lt_of_le_maxU32 h.tie) (by omega)) ?_
  refine Reads.bind_nil (reads_decUint (lt_of_le_maxU32 h.updated) (by omega)) ?_
  exact Reads.pure e

theorem reads_elements {l : List Element} (hl : l.length ≤ maxU32)
    (h : ∀ e ∈ l, e.WF ∧ e.payload.length ≤ maxU32) : Reads decElements (encElements l) l :=
  Reads.bind (reads_array (lt_of_le_maxU32 hl)) (reads_decN l fun e he => reads_element (h e he).1 (h e he).2)

theorem mono_element : Mono decElement := by
  unfold decElement
  refine Mono.bind mono_decArray fun n => Mono.ite Mono.fail ?_
  refine Mono.bind (mono_decUint _) fun _ => Mono.bind (mono_decUint _) fun _ => Mono.bind mono_decBin fun _ => ?_
  exact Mono.bind (mono_decUint _) fun _ => Mono.bind (mono_decUint _) fun _ => Mono.pure _

theorem mono_elements : Mono decElements := Mono.bind mono_decArray fun n => mono_decN mono_element n

theorem reads_segment {s : SegMeta} (h : s.WF) : Reads decSegment (encSegment s) s := by
  unfold decSegment encSegment
  refine Reads.bind_cons (x := 8) (reads_array8) ?_
  rw [if_neg (by simp)]
  simp only [List.append_assoc]
  refine Reads.bind (reads_decUint (lt_of_le_maxU32 h.id) (by omega)) ?_
  refine Reads.bind (reads_decUint (lt_of_le_maxU64 h.min) (by omega)) ?_
  refine Reads.bind (reads_decUint (lt_of_le_maxU64 h.max) (by omega)) ?_
  refine Reads.bind (reads_decUint (lt_of_le_maxU32 h.minTie) (by omega)) ?_
  refine Reads.bind (reads_decUint (lt_of_le_maxU32 h.maxTie) (by omega)) ?_
  refine Reads.bind (reads_decInt h.n.1 h.n.2) ?_
  refine Reads.bind (reads_decInt h.updated.1 h.updated.2) ?_
  refine Reads.bind_nil (reads_str (lt_of_le_maxU32 h.parent)) ?_
  exact Reads.pure s

theorem mono_segment : Mono decSegment := by
  unfold decSegment
  refine Mono.bind mono_decArray fun n => Mono.ite Mono.fail ?_
  refine Mono.bind (mono_decUint _) fun _ => Mono.bind (mono_decUint _) fun _ => Mono.bind (mono_decUint _) fun _ => ?_
  refine Mono.bind (mono_decUint _) fun _ => Mono.bind (mono_decUint _) fun _ => Mono.bind mono_decInt fun _ => ?_
  exact Mono.bind mono_decInt fun _ => Mono.bind mono_decStr fun _ => Mono.pure _

/-! Skipping of values. -/

theorem skip_step {f k n p : Nat} {h d rest : Bytes} {res : Unit × Bytes} (ho : Reads objSize h (n, p)) (hn : d.length = n)
    (hs : skipN f (p + k) rest = some res) : skipN (f + 1) (k + 1) (h ++ (d ++ rest)) = some res := by
  unfold skipN
  rw [bind_eq, ho]
  dsimp only
  rw [bind_eq, ← hn, reads_takeN d rest]
  exact hs

theorem skip_more {f f' k : Nat} {b : Bytes} {res : Unit × Bytes} (hf : f ≤ f') (h : skipN f k b = some res) :
    skipN f' k b = some res := by
  have := skipN_mono (c := []) hf (show skipN f k b = some ((), res.2) from h)
  rw [List.append_nil, List.append_nil] at this
  exact this

/-- A value that is a header and some bytes. -/
theorem skip_plain {f k n : Nat} {e h d rest : Bytes} {res : Unit × Bytes} (he : e = h ++ d) (hh : h ≠ [])
    (ho : Reads objSize h (n, 0)) (hn : d.length = n) (hs : skipN f k rest = some res) :
    skipN (f + e.length) (k + 1) (e ++ rest) = some res := by
  subst he
  have : 0 < h.length := List.length_pos_iff.2 hh
  refine skip_more (f := f + 1) (by rw [List.length_append]; omega) ?_
  rw [List.append_assoc]
  exact skip_step ho hn (by rw [Nat.zero_add]; exact hs)

theorem objSize_fix {n : Nat} (h : n < 128) : Reads objSize [UInt8.ofNat n] (0, 0) := by
  unfold objSize
  refine Reads.lead_nil _ ?_
  rw [if_pos (by rw [ofNat_lt_iff (by omega)]; exact h)]
  exact Reads.pure _

theorem not_lt_of_le {a b : UInt8} (h : b ≤ a) : ¬ a < b := UInt8.not_lt.2 h

theorem ofNat_ne {n : Nat} (h : n < 256) {b : UInt8} (hb : n ≠ b.toNat) : UInt8.ofNat n ≠ b := by
  intro he
  apply hb
  rw [← he, toNat_ofNat_lt h]

theorem objSize_negfix {n : Nat} (h : 224 ≤ n) (h2 : n < 256) : Reads objSize [UInt8.ofNat n] (0, 0) := by
  unfold objSize
  refine Reads.lead_nil _ ?_
  have hlt : ∀ b : UInt8, b.toNat ≤ 224 → ¬ UInt8.ofNat n < b := fun b hb => by
    rw [ofNat_lt_iff h2]; omega
  have hne : ∀ b : UInt8, b.toNat < 224 → UInt8.ofNat n ≠ b := fun b hb => ofNat_ne h2 (by omega)
  iterate 4 rw [if_neg (hlt _ (by decide))]
  rw [if_neg (by simp [hne]), if_neg (by simp [hne]), if_neg (by simp [hne]), if_neg (by simp [hne])]
  iterate 5 rw [if_neg (hne _ (by decide))]
  rw [if_neg (by simp [hne]), if_neg (by simp [hne]), if_neg (by simp [hne]), if_neg (by simp [hne])]
  iterate 9 rw [if_neg (hne _ (by decide))]
  rw [if_pos (by rw [le_ofNat_iff h2]; exact h)]
  exact Reads.pure _

theorem objSize_array {n : Nat} (h : n < 2 ^ 32) : Reads objSize (encArray n) (0, n) := by
  unfold encArray
  split
  · unfold objSize
    refine Reads.lead_nil _ ?_
    have hlt : 0x90 + n < 256 := by omega
    rw [if_neg (by rw [ofNat_lt_iff hlt]; show ¬ _ < 128; omega), if_neg (by rw [ofNat_lt_iff hlt]; show ¬ _ < 144; omega),
      if_pos (by rw [ofNat_lt_iff hlt]; show _ < 160; omega), toNat_ofNat_lt hlt, show 0x90 + n - 0x90 = n by omega]
    exact Reads.pure _
  · split
    · unfold objSize; exact Reads.lead _ (reads_decBE_bind (by omega) (Reads.pure _))
    · unfold objSize; exact Reads.lead _ (reads_decBE_bind (by omega) (Reads.pure _))

theorem objSize_map {n : Nat} (h : n < 2 ^ 32) : Reads objSize (encMap n) (0, 2 * n) := by
  unfold encMap
  split
  · unfold objSize
    refine Reads.lead_nil _ ?_
    have hlt : 0x80 + n < 256 := by omega
    rw [if_neg (by rw [ofNat_lt_iff hlt]; show ¬ _ < 128; omega),
      if_pos (by rw [ofNat_lt_iff hlt]; show _ < 144; omega), toNat_ofNat_lt hlt, show 0x80 + n - 0x80 = n by omega]
    exact Reads.pure _
  · split
    · unfold objSize; exact Reads.lead _ (reads_decBE_bind (by omega) (Reads.pure _))
    · unfold objSize; exact Reads.lead _ (reads_decBE_bind (by omega) (Reads.pure _))

/-- The header of a string. -/
theorem objSize_str {d : Bytes} (h : d.length < 2 ^ 32) : ∃ hd, hd ≠ [] ∧ encStr d = hd ++ d ∧ Reads objSize hd (d.length, 0) := by
  refine ⟨_, ?_, rfl, ?_⟩
  · split
    · simp
    · split
      · simp
      · split <;> simp
  · split
    · unfold objSize
      refine Reads.lead_nil _ ?_
      have hlt : 0xa0 + d.length < 256 := by omega
      rw [if_neg (by rw [ofNat_lt_iff hlt]; show ¬ _ < 128; omega), if_neg (by rw [ofNat_lt_iff hlt]; show ¬ _ < 144; omega),
        if_neg (by rw [ofNat_lt_iff hlt]; show ¬ _ < 160; omega),
        if_pos (by rw [ofNat_lt_iff hlt]; show _ < 192; omega), toNat_ofNat_lt hlt,
        show 0xa0 + d.length - 0xa0 = d.length by omega]
      exact Reads.pure _
    · split
      · unfold objSize; exact Reads.lead _ (reads_decBE_bind (by omega) (Reads.pure _))
      · split
        · unfold objSize; exact Reads.lead _ (reads_decBE_bind (by omega) (Reads.pure _))
        · unfold objSize; exact Reads.lead _ (reads_decBE_bind (by omega) (Reads.pure _))

theorem objSize_bin {d : Bytes} (h : d.length < 2 ^ 32) : ∃ hd, hd ≠ [] ∧ encBin d = hd ++ d ∧ Reads objSize hd (d.length, 0) := by
  refine ⟨_, ?_, rfl, ?_⟩
  · split
    · simp
    · split <;> simp
  · split
    · unfold objSize; exact Reads.lead _ (reads_decBE_bind (by omega) (Reads.pure _))
    · split
      · unfold objSize; exact Reads.lead _ (reads_decBE_bind (by omega) (Reads.pure _))
      · unfold objSize; exact Reads.lead _ (reads_decBE_bind (by omega) (Reads.pure _))

theorem objSize_const {b : UInt8} {n : Nat} (h : ∀ r, objSize (b :: r) = some ((n, 0), r)) : Reads objSize [b] (n, 0) :=
  fun r => h r

theorem skip_be {f k m v : Nat} {b : UInt8} {rest : Bytes} {res : Unit × Bytes} (ho : Reads objSize [b] (m, 0))
    (hs : skipN f k rest = some res) : skipN (f + (b :: be m v).length) (k + 1) (b :: be m v ++ rest) = some res :=
  skip_plain (h := [b]) (d := be m v) rfl (by simp) ho (be_length m v) hs

theorem array_ne_nil (n : Nat) : encArray n ≠ [] := by
  unfold encArray
  split
  · simp
  · split <;> simp

theorem map_ne_nil (n : Nat) : encMap n ≠ [] := by
  unfold encMap
  split
  · simp
  · split <;> simp

mutual
theorem skip_val : ∀ (v : Val), v.ok → ∀ {f k : Nat} {rest : Bytes} {res : Unit × Bytes}, skipN f k rest = some res →
    skipN (f + v.encode.length) (k + 1) (v.encode ++ rest) = some res
  | .nil, _, _, _, _, _, hs => skip_plain (h := [0xc0]) (d := []) rfl (by simp) (objSize_const fun _ => rfl) rfl hs
  | .bool b, _, _, _, _, _, hs => by
    cases b
    · exact skip_plain (h := [0xc2]) (d := []) rfl (by simp) (objSize_const fun _ => rfl) rfl hs
    · exact skip_plain (h := [0xc3]) (d := []) rfl (by simp) (objSize_const fun _ => rfl) rfl hs
  | .uint n, _, _, _, _, _, hs => by
    unfold Val.encode encUint
    split
    · exact skip_plain (List.append_nil _).symm (by simp) (objSize_fix (by omega)) rfl hs
    · split
      · exact skip_be (objSize_const (b := 0xcc) fun _ => rfl) hs
      · split
        · exact skip_be (objSize_const (b := 0xcd) fun _ => rfl) hs
        · split
          · exact skip_be (objSize_const (b := 0xce) fun _ => rfl) hs
          · exact skip_be (objSize_const (b := 0xcf) fun _ => rfl) hs
  | .int i, _, _, _, _, _, hs => by
    unfold Val.encode encInt
    by_cases h0 : 0 ≤ i
    · rw [if_pos h0]
      by_cases h3 : i < 2 ^ 7
      · have h3' : i < 128 := h3
        rw [if_pos h3]
        exact skip_plain (List.append_nil _).symm (by simp) (objSize_fix (by omega)) rfl hs
      · rw [if_neg h3]
        by_cases h4 : i < 2 ^ 15
        · rw [if_pos h4]; exact skip_be (objSize_const (b := 0xd1) fun _ => rfl) hs
        · rw [if_neg h4]
          by_cases h5 : i < 2 ^ 31
          · rw [if_pos h5]; exact skip_be (objSize_const (b := 0xd2) fun _ => rfl) hs
          · rw [if_neg h5]; exact skip_be (objSize_const (b := 0xd3) fun _ => rfl) hs
    · rw [if_neg h0]
      by_cases h3 : -32 ≤ i
      · rw [if_pos h3]
        have h5 : unsigned 1 i = (i + 256).toNat := by
          have : unsigned 1 i = (i % 256).toNat := rfl
          rw [this]
          omega
        exact skip_plain (List.append_nil _).symm (by simp) (objSize_negfix (by omega) (by omega)) rfl hs
      · rw [if_neg h3]
        by_cases h4 : -2 ^ 7 ≤ i
        · rw [if_pos h4]; exact skip_be (objSize_const (b := 0xd0) fun _ => rfl) hs
        · rw [if_neg h4]
          by_cases h5 : -2 ^ 15 ≤ i
          · rw [if_pos h5]; exact skip_be (objSize_const (b := 0xd1) fun _ => rfl) hs
          · rw [if_neg h5]
            by_cases h6 : -2 ^ 31 ≤ i
            · rw [if_pos h6]; exact skip_be (objSize_const (b := 0xd2) fun _ => rfl) hs
            · rw [if_neg h6]; exact skip_be (objSize_const (b := 0xd3) fun _ => rfl) hs
  | .float32 d, hok, _, _, _, _, hs =>
    skip_plain (h := [0xca]) (d := d) rfl (by simp) (objSize_const fun _ => rfl) (by simpa [Val.ok] using hok) hs
  | .float64 d, hok, _, _, _, _, hs =>
    skip_plain (h := [0xcb]) (d := d) rfl (by simp) (objSize_const fun _ => rfl) (by simpa [Val.ok] using hok) hs
  | .str d, hok, _, _, _, _, hs => by
    obtain ⟨hd, h1, h2, h3⟩ := objSize_str (d := d) (by simpa [Val.ok] using hok)
    exact skip_plain h2 h1 h3 rfl hs
  | .bin d, hok, _, _, _, _, hs => by
    obtain ⟨hd, h1, h2, h3⟩ := objSize_bin (d := d) (by simpa [Val.ok] using hok)
    exact skip_plain h2 h1 h3 rfl hs
  | .ext t d, hok, _, _, _, _, hs => by
    have hok : d.length < 2 ^ 32 := by simpa [Val.ok] using hok
    refine skip_plain (h := 0xc9 :: be 4 d.length) (d := t :: d) (n := d.length + 1) rfl (by simp) ?_ rfl hs
    unfold objSize
    exact Reads.lead _ (reads_decBE_bind (by omega) (Reads.pure _))
  | .array vs, hok, f, k, rest, res, hs => by
    unfold Val.ok at hok
    unfold Val.encode
    have ih := skip_vals vs hok.2 hs
    have hpos : 0 < (encArray vs.length).length := List.length_pos_iff.2 (array_ne_nil _)
    refine skip_more (f := f + vs.encode.length + 1) (by rw [List.length_append]; omega) ?_
    rw [List.append_assoc]
    exact skip_step (d := []) (objSize_array hok.1) rfl ih
  | .map kvs, hok, f, k, rest, res, hs => by
    unfold Val.ok at hok
    unfold Val.encode
    have ih := skip_pairs kvs hok.2 hs
    have hpos : 0 < (encMap kvs.length).length := List.length_pos_iff.2 (map_ne_nil _)
    refine skip_more (f := f + kvs.encode.length + 1) (by rw [List.length_append]; omega) ?_
    rw [List.append_assoc]
    exact skip_step (d := []) (objSize_map hok.1) rfl ih

theorem skip_vals : ∀ (vs : Vals), vs.ok → ∀ {f k : Nat} {rest : Bytes} {res : Unit × Bytes}, skipN f k rest = some res →
    skipN (f + vs.encode.length) (vs.length + k) (vs.encode ++ rest) = some res
  | .nil, _, f, k, rest, res, hs => by simpa [Vals.encode, Vals.length] using hs
  | .cons v vs, hok, f, k, rest, res, hs => by
    unfold Vals.ok at hok
    have ih := skip_val v hok.1 (skip_vals vs hok.2 hs)
    unfold Vals.encode Vals.length
    rw [List.length_append, List.append_assoc, show f + (v.encode.length + vs.encode.length) =
      f + vs.encode.length + v.encode.length by omega, show vs.length + 1 + k = vs.length + k + 1 by omega]
    exact ih

theorem skip_pairs : ∀ (kvs : Pairs), kvs.ok → ∀ {f k : Nat} {rest : Bytes} {res : Unit × Bytes}, skipN f k rest = some res →
    skipN (f + kvs.encode.length) (2 * kvs.length + k) (kvs.encode ++ rest) = some res
  | .nil, _, f, k, rest, res, hs => by simpa [Pairs.encode, Pairs.length] using hs
  | .cons a v kvs, hok, f, k, rest, res, hs => by
    unfold Pairs.ok at hok
    have ih := skip_val a hok.1 (skip_val v hok.2.1 (skip_pairs kvs hok.2.2 hs))
    unfold Pairs.encode Pairs.length
    rw [List.length_append, List.length_append, List.append_assoc, List.append_assoc,
      show f + (a.encode.length + (v.encode.length + kvs.encode.length)) =
        f + kvs.encode.length + v.encode.length + a.encode.length by omega,
      show 2 * (kvs.length + 1) + k = 2 * kvs.length + k + 1 + 1 by omega]
    exact ih
end

theorem reads_skip {v : Val} (h : v.ok) : Reads skip v.encode () := by
  intro r
  unfold skip
  have := skip_val v h (skipN_zero r.length r)
  rw [List.length_append, Nat.add_comm]
  exact this

end Stored
end RankDB

namespace RankDB
open Wire
namespace Stored

/-- Assignment of a field. -/
def Field.apply (t : Table) : Field → Table
  | .id s => { t with id := s }
  | .segments l => { t with segments := l }
  | .nextID n => { t with nextID := n }
  | .isIndex b => { t with isIndex := b }
  | .other _ _ => t

/-- Values a field may have. -/
def Field.WF : Field → Prop
  | .id s => s.length ≤ maxU32
  | .segments l => l.length ≤ maxU32 ∧ ∀ s ∈ l, s.WF
  | .nextID n => n ≤ maxU32
  | .isIndex _ => True
  | .other k v => (Field.other k v).ok

theorem reads_field (t : Table) {f : Field} (h : f.WF) : Reads (decField t) f.encode (f.apply t) := by
  unfold decField
  cases f with
  | id s =>
    refine Reads.bind (reads_key (by decide)) ?_
    rw [if_pos rfl]
    exact Reads.bind_nil (reads_str (lt_of_le_maxU32 h)) (Reads.pure _)
  | segments l =>
    refine Reads.bind (reads_key (by decide)) ?_
    rw [if_neg (by decide), if_pos rfl]
    refine Reads.bind (reads_array (lt_of_le_maxU32 h.1)) ?_
    exact Reads.bind_nil (reads_decN l fun s hs => reads_segment (h.2 s hs)) (Reads.pure _)
  | nextID n =>
    refine Reads.bind (reads_key (by decide)) ?_
    rw [if_neg (by decide), if_neg (by decide), if_pos rfl]
    exact Reads.bind_nil (reads_decUint (lt_of_le_maxU32 h) (by omega)) (Reads.pure _)
  | isIndex b =>
    refine Reads.bind (reads_key (by decide)) ?_
    rw [if_neg (by decide), if_neg (by decide), if_neg (by decide), if_pos rfl]
    exact Reads.bind_nil (reads_bool b) (Reads.pure _)
  | other k v =>
    obtain ⟨h1, h2, h3, h4, h5, h6⟩ := h
    refine Reads.bind (reads_key h5) ?_
    rw [if_neg h1, if_neg h2, if_neg h3, if_neg h4]
    exact Reads.bind_nil (reads_skip h6) (Reads.pure _)

theorem reads_fields (fs : List Field) (h : ∀ f ∈ fs, f.WF) (t : Table) :
    Reads (decFields fs.length t) (fs.flatMap Field.encode) (fs.foldl Field.apply t) := by
  induction fs generalizing t with
  | nil => exact Reads.pure t
  | cons f fs ih =>
    rw [List.flatMap_cons]
    exact Reads.bind (reads_field t (h f (by simp))) (ih (fun g hg => h g (by simp [hg])) _)

theorem foldl_fields (t : Table) (fs : List Field) (t0 : Table)
    (hid : ∀ x, Field.id x ∈ fs → x = t.id) (hseg : ∀ x, Field.segments x ∈ fs → x = t.segments)
    (hnext : ∀ x, Field.nextID x ∈ fs → x = t.nextID) (hidx : ∀ x, Field.isIndex x ∈ fs → x = t.isIndex)
    (h1 : t0.id = t.id ∨ ∃ x, Field.id x ∈ fs) (h2 : t0.segments = t.segments ∨ ∃ x, Field.segments x ∈ fs)
    (h3 : t0.nextID = t.nextID ∨ ∃ x, Field.nextID x ∈ fs) (h4 : t0.isIndex = t.isIndex ∨ ∃ x, Field.isIndex x ∈ fs) :
    fs.foldl Field.apply t0 = t := by
  induction fs generalizing t0 with
  | nil =>
    simp at h1 h2 h3 h4
    cases t; cases t0; simp_all
  | cons f fs ih =>
    rw [List.foldl_cons]
    apply ih
    · exact fun x hx => hid x (by simp [hx])
    · exact fun x hx => hseg x (by simp [hx])
    · exact fun x hx => hnext x (by simp [hx])
    · exact fun x hx => hidx x (by simp [hx])
    · cases f with
      | id s => exact Or.inl (hid s (by simp))
      | _ => rcases h1 with h | ⟨x, hx⟩
             · exact Or.inl h
             · exact Or.inr ⟨x, by simpa using hx⟩
    · cases f with
      | segments s => exact Or.inl (hseg s (by simp))
      | _ => rcases h2 with h | ⟨x, hx⟩
             · exact Or.inl h
             · exact Or.inr ⟨x, by simpa using hx⟩
    · cases f with
      | nextID s => exact Or.inl (hnext s (by simp))
      | _ => rcases h3 with h | ⟨x, hx⟩
             · exact Or.inl h
             · exact Or.inr ⟨x, by simpa using hx⟩
    · cases f with
      | isIndex s => exact Or.inl (hidx s (by simp))
      | _ => rcases h4 with h | ⟨x, hx⟩
             · exact Or.inl h
             · exact Or.inr ⟨x, by simpa using hx⟩

theorem foldl_perm {t : Table} {fs : List Field} (hp : (fs.filter Field.known).Perm (Table.fields t)) (t0 : Table) :
    fs.foldl Field.apply t0 = t := by
  have hmem : ∀ f, f.known = true → (f ∈ fs ↔ f ∈ Table.fields t) := by
    intro f hf
    rw [← hp.mem_iff, List.mem_filter]
    simp [hf]
  apply foldl_fields
  · intro x hx
    have := (hmem _ rfl).1 hx
    simpa [Table.fields] using this
  · intro x hx
    have := (hmem _ rfl).1 hx
    simpa [Table.fields] using this
  · intro x hx
    have := (hmem _ rfl).1 hx
    simpa [Table.fields] using this
  · intro x hx
    have := (hmem _ rfl).1 hx
    simpa [Table.fields] using this
  · exact Or.inr ⟨t.id, (hmem _ rfl).2 (by simp [Table.fields])⟩
  · exact Or.inr ⟨t.segments, (hmem _ rfl).2 (by simp [Table.fields])⟩
  · exact Or.inr ⟨t.nextID, (hmem _ rfl).2 (by simp [Table.fields])⟩
  · exact Or.inr ⟨t.isIndex, (hmem _ rfl).2 (by simp [Table.fields])⟩

theorem field_wf {t : Table} (ht : t.WF) {fs : List Field} (hp : (fs.filter Field.known).Perm (Table.fields t))
    (hok : ∀ f ∈ fs, f.ok) : ∀ f ∈ fs, f.WF := by
  intro f hf
  have hmem : f.known = true → f ∈ Table.fields t := by
    intro hk
    rw [← hp.mem_iff, List.mem_filter]
    exact ⟨hf, hk⟩
  cases f with
  | id s =>
    have : s = t.id := by simpa [Table.fields] using hmem rfl
    subst this; exact ht.id
  | segments s =>
    have : s = t.segments := by simpa [Table.fields] using hmem rfl
    subst this; exact ⟨ht.count, ht.segments⟩
  | nextID s =>
    have : s = t.nextID := by simpa [Table.fields] using hmem rfl
    subst this; exact ht.nextID
  | isIndex s => trivial
  | other k v => exact hok _ hf

theorem reads_table {t : Table} (ht : t.WF) {fs : List Field} (hl : fs.length ≤ maxU32)
    (hp : (fs.filter Field.known).Perm (Table.fields t)) (hok : ∀ f ∈ fs, f.ok) :
    Reads decTable (encMap fs.length ++ fs.flatMap Field.encode) t := by
  have h := reads_fields fs (field_wf ht hp hok) {}
  rw [foldl_perm hp] at h
  exact Reads.bind (reads_map (lt_of_le_maxU32 hl)) h

theorem encTable_fields (t : Table) : encTable t = encMap 4 ++ (Table.fields t).flatMap Field.encode := by
  have h1 : encStr keyID = [0xa2, 0x49, 0x44] := by decide +kernel
  have h2 : encStr keySegments = [0xa8, 0x53, 0x65, 0x67, 0x6d, 0x65, 0x6e, 0x74, 0x73] := by decide +kernel
  have h3 : encStr keyNextID = [0xa6, 0x4e, 0x65, 0x78, 0x74, 0x49, 0x44] := by decide +kernel
  have h4 : encStr keyIsIndex = [0xa7, 0x49, 0x73, 0x49, 0x6e, 0x64, 0x65, 0x78] := by decide +kernel
  have h5 : encMap 4 = [0x84] := by decide +kernel
  simp only [Table.fields, List.flatMap_cons, List.flatMap_nil, Field.encode, h1, h2, h3, h4, h5]
  simp [encTable]

theorem reads_encTable {t : Table} (ht : t.WF) : Reads decTable (encTable t) t := by
  rw [encTable_fields]
  refine reads_table ht (fs := Table.fields t) (show 4 ≤ maxU32 by decide) ?_ ?_
  · exact .refl _
  · intro f hf
    simp only [Table.fields, List.mem_cons, List.not_mem_nil, or_false] at hf
    rcases hf with rfl | rfl | rfl | rfl <;> trivial

theorem mono_field (t : Table) : Mono (decField t) := by
  unfold decField
  refine Mono.bind mono_decKey fun k => ?_
  refine Mono.ite (Mono.bind mono_decStr fun _ => Mono.pure _) ?_
  refine Mono.ite (Mono.bind mono_decArray fun _ => Mono.bind (mono_decN mono_segment _) fun _ => Mono.pure _) ?_
  refine Mono.ite (Mono.bind (mono_decUint _) fun _ => Mono.pure _) ?_
  refine Mono.ite (Mono.bind mono_decBool fun _ => Mono.pure _) ?_
  exact Mono.bind mono_skip fun _ => Mono.pure _

theorem mono_fields (n : Nat) : ∀ t, Mono (decFields n t) := by
  induction n with
  | zero => exact fun t => Mono.pure t
  | succ n ih => exact fun t => Mono.bind (mono_field t) fun t => ih t

theorem mono_table : Mono decTable := Mono.bind mono_decMap fun n => mono_fields n {}

/-! Lists. -/

/-- What is read back: a nil map of metadata comes back as an empty map. -/
def ListRec.stored (l : ListRec) : ListRec := { l with metadata := some l.entries }

theorem put_new {m : List (Str × Str)} {k v : Str} (h : k ∉ m.map (·.1)) : put m k v = m ++ [(k, v)] := by
  unfold put
  congr 1
  rw [List.filter_eq_self]
  intro e he
  simp only [bne_iff_ne, ne_eq]
  rintro rfl
  exact h (List.mem_map_of_mem (f := (·.1)) he)

theorem reads_meta (es : List (Str × Str)) (h : ∀ kv ∈ es, kv.1.length ≤ maxU32 ∧ kv.2.length ≤ maxU32)
    (m : List (Str × Str)) (hn : ((m ++ es).map (·.1)).Nodup) :
    Reads (decMeta es.length m) (es.flatMap fun kv => encStr kv.1 ++ encStr kv.2) (m ++ es) := by
  induction es generalizing m with
  | nil => rw [List.append_nil]; exact Reads.pure m
  | cons e es ih =>
    rw [List.flatMap_cons, List.append_assoc]
    have hput : put m e.1 e.2 = m ++ [e] := by
      apply put_new
      rw [List.map_append, List.map_cons, List.nodup_append] at hn
      intro hm
      exact hn.2.2 _ hm _ (by simp) rfl
    refine Reads.bind (reads_str (lt_of_le_maxU32 (h e (by simp)).1)) ?_
    refine Reads.bind (reads_str (lt_of_le_maxU32 (h e (by simp)).2)) ?_
    rw [hput]
    have := ih (fun kv hkv => h kv (by simp [hkv])) (m ++ [e]) (by simpa using hn)
    simpa using this

theorem reads_list {l : ListRec} (h : l.WF) : Reads decList (encList l) l.stored := by
  unfold decList encList
  refine Reads.bind_cons (x := 8) reads_array8 ?_
  rw [if_neg (by simp)]
  simp only [List.append_assoc]
  refine Reads.bind (reads_str (lt_of_le_maxU32 h.id)) ?_
  refine Reads.bind (reads_str (lt_of_le_maxU32 h.set)) ?_
  refine Reads.bind (reads_map (lt_of_le_maxU32 h.count)) ?_
  refine Reads.bind (reads_meta l.entries h.entries [] (by simpa using h.keys)) ?_
  refine Reads.bind (reads_decInt h.splitSize.1 h.splitSize.2) ?_
  refine Reads.bind (reads_decInt h.mergeSize.1 h.mergeSize.2) ?_
  refine Reads.bind (reads_bool _) ?_
  refine Reads.bind (reads_str (lt_of_le_maxU32 h.scores)) ?_
  exact Reads.bind_nil (reads_str (lt_of_le_maxU32 h.index)) (Reads.pure _)

theorem mono_meta (n : Nat) : ∀ m, Mono (decMeta n m) := by
  induction n with
  | zero => exact fun m => Mono.pure m
  | succ n ih => exact fun m => Mono.bind mono_decStr fun _ => Mono.bind mono_decStr fun _ => ih _

theorem mono_list : Mono decList := by
  unfold decList
  refine Mono.bind mono_decArray fun n => Mono.ite Mono.fail ?_
  refine Mono.bind mono_decStr fun _ => Mono.bind mono_decStr fun _ => Mono.bind mono_decMap fun _ => ?_
  refine Mono.bind (mono_meta _ _) fun _ => Mono.bind mono_decInt fun _ => Mono.bind mono_decInt fun _ => ?_
  exact Mono.bind mono_decBool fun _ => Mono.bind mono_decStr fun _ => Mono.bind mono_decStr fun _ => Mono.pure _

end Stored
end RankDB

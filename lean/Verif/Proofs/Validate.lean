import Verif.Spec.Validate
/-
Lemmas about the reading of requests: each check of `Model/Validate` against the rule in `Spec/Validate`.
-/
namespace RankDB.Validate
open Spec Server

theorem idByte_iff (b : UInt8) : idByte b = true ↔ ('a'.toUInt8 ≤ b ∧ b ≤ 'z'.toUInt8) ∨ ('A'.toUInt8 ≤ b ∧ b ≤ 'Z'.toUInt8) ∨
    ('0'.toUInt8 ≤ b ∧ b ≤ '9'.toUInt8) ∨ b = '-'.toUInt8 ∨ b = '_'.toUInt8 ∨ b = '.'.toUInt8 := by
  have e1 : 'a'.toUInt8 = 97 := by decide
  have e2 : 'z'.toUInt8 = 122 := by decide
  have e3 : 'A'.toUInt8 = 65 := by decide
  have e4 : 'Z'.toUInt8 = 90 := by decide
  have e5 : '0'.toUInt8 = 48 := by decide
  have e6 : '9'.toUInt8 = 57 := by decide
  have e7 : '-'.toUInt8 = 45 := by decide
  have e8 : '_'.toUInt8 = 95 := by decide
  have e9 : '.'.toUInt8 = 46 := by decide
  rw [e1, e2, e3, e4, e5, e6, e7, e8, e9]
  simp only [idByte, Bool.or_eq_true, decide_eq_true_eq, beq_iff_eq]
  grind

theorem idByte_ascii (b : UInt8) (h : idByte b = true) : b < 128 := by
  simp only [idByte, Bool.or_eq_true, decide_eq_true_eq, beq_iff_eq] at h
  have hb := b.toNat_lt
  simp only [UInt8.le_iff_toNat_le, ← UInt8.toNat_inj, UInt8.lt_iff_toNat_lt] at h ⊢
  simp at h ⊢
  omega

theorem digit_ascii (b : UInt8) (h : digit b = true) : b < 128 := by
  simp only [digit, decide_eq_true_eq] at h
  simp only [UInt8.le_iff_toNat_le, UInt8.lt_iff_toNat_lt] at h ⊢
  simp at h ⊢
  omega

theorem runeCount_ascii (s : Str) (h : ∀ b ∈ s, b < 128) : runeCount s = s.length := by
  unfold runeCount
  rw [List.filter_eq_self.mpr]
  intro b hb
  have := h b hb
  simp only [Bool.not_eq_true', decide_eq_false_iff_not]
  simp only [UInt8.le_iff_toNat_le, UInt8.lt_iff_toNat_lt] at this ⊢
  omega

theorem runeCount_characters (s : Str) : runeCount s = characters s := by
  unfold runeCount characters
  rw [List.countP_eq_length_filter]
  congr 1
  apply List.filter_congr
  intro b hb
  rw [Bool.eq_iff_iff]
  simp only [UInt8.le_iff_toNat_le, UInt8.lt_iff_toNat_lt, Bool.not_eq_true', decide_eq_false_iff_not, decide_eq_true_eq]
  simp
  omega

theorem okListID_iff (s : Str) : okListID s = true ↔ IsListID s := by
  unfold okListID IsListID
  simp only [Bool.and_eq_true, List.all_eq_true, Bool.not_eq_true', decide_eq_false_iff_not, ← idByte_iff]
  constructor
  · rintro ⟨⟨⟨-, h1⟩, h2⟩, h3⟩
    rw [runeCount_ascii s fun b hb => idByte_ascii b (h1 b hb)] at h2 h3
    exact ⟨by omega, by omega, h1⟩
  · rintro ⟨h2, h3, h1⟩
    rw [runeCount_ascii s fun b hb => idByte_ascii b (h1 b hb)]
    refine ⟨⟨⟨?_, h1⟩, by omega⟩, by omega⟩
    cases s with
    | nil => simp at h2
    | cons => rfl

/-! ### Numbers -/

theorem foldl_digits (s : Str) (a : Nat) :
    s.foldl (fun n b => n * 10 + (b.toNat - 48)) a = a * 10 ^ s.length + digitsValue s := by
  induction s generalizing a with
  | nil => simp [digitsValue]
  | cons b s ih =>
    simp only [List.foldl_cons, digitsValue, List.length_cons]
    rw [ih, ih (0 * 10 + (b.toNat - 48)), Nat.pow_succ']
    rw [Nat.add_mul, Nat.mul_assoc a, Nat.zero_mul, Nat.zero_add]
    omega

theorem digitsValue_cons (b : UInt8) (s : Str) : digitsValue (b :: s) = (b.toNat - 48) * 10 ^ s.length + digitsValue s := by
  show s.foldl _ _ = _
  rw [foldl_digits]
  simp

theorem digit_of (d : Nat) (h : d < 10) : digit (UInt8.ofNat (48 + d)) = true ∧ (UInt8.ofNat (48 + d)).toNat - 48 = d := by
  have : (UInt8.ofNat (48 + d)).toNat = 48 + d := by
    rw [UInt8.toNat_ofNat']; omega
  constructor
  · simp only [digit, decide_eq_true_eq, UInt8.le_iff_toNat_le, this]
    simp
    omega
  · omega

theorem of_digit (b : UInt8) (h : digit b = true) : b.toNat - 48 < 10 ∧ b = UInt8.ofNat (48 + (b.toNat - 48)) := by
  simp only [digit, decide_eq_true_eq, UInt8.le_iff_toNat_le] at h
  simp at h
  refine ⟨by omega, ?_⟩
  rw [show 48 + (b.toNat - 48) = b.toNat by omega]
  simp

theorem decimal_iff (s : Str) (n : Nat) : Decimal s n ↔ (s.isEmpty || !s.all digit) = false ∧ digitsValue s = n := by
  constructor
  · intro h
    induction h with
    | one d hd =>
      obtain ⟨h1, h2⟩ := digit_of d hd
      refine ⟨by simp only [List.isEmpty_cons, List.all_cons, h1, List.all_nil]; rfl, ?_⟩
      rw [digitsValue_cons, h2]
      simp [digitsValue]
    | more d s n hd _ ih =>
      obtain ⟨h1, h2⟩ := digit_of d hd
      obtain ⟨i1, i2⟩ := ih
      simp only [Bool.or_eq_false_iff, Bool.not_eq_false', List.all_eq_true] at i1
      refine ⟨?_, ?_⟩
      · simp only [List.isEmpty_cons, Bool.false_or, List.all_cons, h1, Bool.true_and, Bool.not_eq_false', List.all_eq_true]
        exact i1.2
      · rw [digitsValue_cons, h2, i2]
  · rintro ⟨h, rfl⟩
    induction s with
    | nil => simp at h
    | cons b s ih =>
      simp only [List.isEmpty_cons, Bool.false_or, List.all_cons, Bool.not_eq_false', Bool.and_eq_true] at h
      obtain ⟨d1, d2⟩ := of_digit b h.1
      rw [digitsValue_cons]
      cases s with
      | nil =>
        have := Decimal.one _ d1
        rw [← d2] at this
        simpa [digitsValue] using this
      | cons c s =>
        have := Decimal.more _ _ _ d1 (ih (by simpa using h.2))
        rw [← d2] at this
        exact this

theorem decimal_unique {s : Str} {m n : Nat} (h : Decimal s m) (h' : Decimal s n) : m = n :=
  ((decimal_iff s m).mp h).2.symm.trans ((decimal_iff s n).mp h').2

theorem parseUint_iff (s : Str) (v : Nat) : parseUint s = some v ↔ Decimal s v ∧ v < 2 ^ 64 := by
  rw [decimal_iff]
  unfold parseUint
  cases h : (s.isEmpty || !s.all digit)
  · simp only [Bool.false_eq_true, if_false, true_and]
    split <;> simp <;> omega
  · simp

theorem decimal_digits {s : Str} {v : Nat} (h : Decimal s v) : s ≠ [] ∧ ∀ b ∈ s, digit b = true := by
  have := ((decimal_iff s v).mp h).1
  simp only [Bool.or_eq_false_iff, Bool.not_eq_false', List.all_eq_true] at this
  refine ⟨?_, this.2⟩
  rintro rfl
  simp at this

theorem okElementID_of {s : Str} {v : Nat} (h : IsElementID s v) : okElementID s = true := by
  obtain ⟨h1, h2, -⟩ := h
  obtain ⟨hne, hd⟩ := decimal_digits h1
  unfold okElementID
  rw [runeCount_ascii s fun b hb => digit_ascii b (hd b hb)]
  have : 0 < s.length := List.length_pos_iff.mpr hne
  simp only [Bool.and_eq_true, List.all_eq_true, Bool.not_eq_true', decide_eq_false_iff_not]
  refine ⟨⟨⟨?_, hd⟩, by omega⟩, by omega⟩
  cases s <;> simp_all

theorem elementID_of {s : Str} {v : Nat} (h : okElementID s = true) (hp : parseUint s = some v) : IsElementID s v := by
  obtain ⟨h1, h2⟩ := (parseUint_iff s v).mp hp
  unfold okElementID at h
  simp only [Bool.and_eq_true, List.all_eq_true, Bool.not_eq_true', decide_eq_false_iff_not] at h
  rw [runeCount_ascii s fun b hb => digit_ascii b (h.1.1.2 b hb)] at h
  exact ⟨h1, by omega, h2⟩

theorem parse_of {s : Str} {v : Nat} (h : IsElementID s v) : parseUint s = some v := (parseUint_iff s v).mpr ⟨h.1, h.2.2⟩

theorem signed_false (s : Str) (v : Int) : signed false s = some v ↔ ∃ n : Nat, v = n ∧ Decimal s n ∧ n < 2 ^ 63 := by
  simp only [decimal_iff]
  unfold signed
  cases h : (s.isEmpty || !s.all digit)
  · simp only [Bool.false_eq_true, if_false, true_and]
    split
    · simp
      constructor
      · rintro rfl; exact ⟨_, rfl, rfl, by omega⟩
      · rintro ⟨n, rfl, e, -⟩; rw [e]
    · simp
      rintro n rfl e; omega
  · simp

theorem signed_true (s : Str) (v : Int) : signed true s = some v ↔ ∃ n : Nat, v = -n ∧ Decimal s n ∧ n ≤ 2 ^ 63 := by
  simp only [decimal_iff]
  unfold signed
  cases h : (s.isEmpty || !s.all digit)
  · simp only [Bool.false_eq_true, if_false, true_and, if_true]
    split
    · simp
      constructor
      · rintro rfl; exact ⟨_, rfl, rfl, by omega⟩
      · rintro ⟨n, rfl, e, -⟩; rw [e]
    · simp
      rintro n rfl e; omega
  · simp

theorem atoi_iff (s : Str) (v : Int) : atoi s = some v ↔ Integer s v := by
  have ep : '+'.toUInt8 = 43 := by decide
  have em : '-'.toUInt8 = 45 := by decide
  constructor
  · intro h
    cases s with
    | nil => simp [atoi] at h
    | cons b s =>
      simp only [atoi] at h
      split at h
      · subst b
        obtain ⟨n, rfl, hn, hl⟩ := (signed_true s v).mp h
        rw [← em]
        exact .minus s n hn hl
      · split at h
        · subst b
          obtain ⟨n, rfl, hn, hl⟩ := (signed_false s v).mp h
          rw [← ep]
          exact .plus s n hn hl
        · obtain ⟨n, rfl, hn, hl⟩ := (signed_false _ v).mp h
          exact .plain _ n hn hl
  · intro h
    cases h with
    | plain _ n hn hl =>
      obtain ⟨hne, hd⟩ := decimal_digits hn
      cases s with
      | nil => exact absurd rfl hne
      | cons b s =>
        have hb := hd b List.mem_cons_self
        have n1 : b ≠ 45 := by rintro rfl; exact absurd hb (by decide)
        have n2 : b ≠ 43 := by rintro rfl; exact absurd hb (by decide)
        simp only [atoi]
        rw [if_neg n1, if_neg n2]
        exact (signed_false _ _).mpr ⟨_, rfl, hn, hl⟩
    | plus s n hn hl =>
      simp only [atoi]
      rw [ep, if_neg (by decide), if_pos rfl]
      exact (signed_false _ _).mpr ⟨_, rfl, hn, hl⟩
    | minus s n hn hl =>
      simp only [atoi]
      rw [em, if_pos rfl]
      exact (signed_true _ _).mpr ⟨_, rfl, hn, hl⟩

theorem intParam_iff (d lo hi : Nat) (raw : Option Str) (v : Nat) : intParam d lo hi raw = some v ↔ IsNumber d lo hi raw v := by
  cases raw with
  | none => simp [intParam, IsNumber, eq_comm]
  | some s =>
    simp only [intParam, IsNumber, ← atoi_iff]
    cases h : atoi s with
    | none => simp
    | some i =>
      dsimp only
      split
      · simp; omega
      · split
        · simp; omega
        · simp; omega

theorem boolParam_iff (raw : Option Str) (v : Bool) : boolParam raw = some v ↔ IsFlag raw v := by
  cases raw with
  | none => cases v <;> simp [boolParam, IsFlag]
  | some s =>
    simp only [boolParam, IsFlag, parseBool]
    cases v
    · simp only [Bool.false_eq_true, if_false]
      split
      · rename_i h
        have : s ∉ ["0", "f", "F", "false", "FALSE", "False"].map fun x : String => x.toUTF8.toList := by
          intro h'
          revert h h'
          have : ∀ x ∈ ["1", "t", "T", "true", "TRUE", "True"].map (fun x : String => x.toUTF8.toList),
            x ∉ ["0", "f", "F", "false", "FALSE", "False"].map (fun x : String => x.toUTF8.toList) := by decide +kernel
          exact fun a b => this s a b
        exact ⟨fun h => by simp at h, fun h => absurd h this⟩
      · split
        · exact ⟨fun _ => by assumption, fun _ => rfl⟩
        · exact ⟨fun h => by simp at h, fun h => by contradiction⟩
    · simp only [if_true]
      split
      · exact ⟨fun _ => by assumption, fun _ => rfl⟩
      · split
        · exact ⟨fun h => by simp at h, fun h => by contradiction⟩
        · exact ⟨fun h => by simp at h, fun h => by contradiction⟩

/-! ### Bodies -/

theorem isElement_iff (b : RawElement) (e : Element) : IsElement b e ↔ okElement b = true ∧ e = toElement b := by
  unfold IsElement okElement toElement
  rcases b with ⟨id, score, tie, payload⟩
  cases id <;> cases score <;> simp
  cases tie <;> simp

theorem areElements_iff (bs : List (Option RawElement)) (es : List Element) :
    AreElements bs es ↔ bs.all okEntry = true ∧ publicizeAll bs = some es := by
  constructor
  · intro h
    induction h with
    | nil => exact ⟨rfl, rfl⟩
    | cons b e bs es hb _ ih =>
      obtain ⟨h1, rfl⟩ := (isElement_iff b e).mp hb
      simp [okEntry, publicizeAll, h1, ih.1, ih.2]
  · rintro ⟨h1, h2⟩
    induction bs generalizing es with
    | nil => simp [publicizeAll] at h2; subst h2; exact .nil
    | cons b bs ih =>
      cases b with
      | none => simp [publicizeAll] at h2
      | some b =>
        simp only [List.all_cons, Bool.and_eq_true, okEntry] at h1
        cases hp : publicizeAll bs with
        | none => simp [publicizeAll, hp] at h2
        | some es' =>
          simp [publicizeAll, hp] at h2
          subst h2
          exact .cons b _ bs es' ((isElement_iff _ _).mpr ⟨h1.1, rfl⟩) (ih es' h1.2 hp)

theorem publicizeAll_some {bs : List (Option RawElement)} (h : none ∉ bs) : ∃ es, publicizeAll bs = some es := by
  induction bs with
  | nil => exact ⟨_, rfl⟩
  | cons b bs ih =>
    cases b with
    | none => simp at h
    | some b =>
      obtain ⟨es, he⟩ := ih (by simp at h; exact h)
      exact ⟨_, by simp only [publicizeAll, he, Option.map_some]; rfl⟩

theorem publicizeAll_none {bs : List (Option RawElement)} (h : none ∈ bs) : publicizeAll bs = none := by
  induction bs with
  | nil => simp at h
  | cons b bs ih =>
    cases b with
    | none => rfl
    | some b => simp only [publicizeAll, ih (by simpa using h), Option.map_none]

theorem publicizeAll_length {bs : List (Option RawElement)} {es : List Element} (h : publicizeAll bs = some es) : es.length = bs.length := by
  induction bs generalizing es with
  | nil => simp [publicizeAll] at h; subst h; rfl
  | cons b bs ih =>
    cases b with
    | none => simp [publicizeAll] at h
    | some b =>
      cases hp : publicizeAll bs with
      | none => simp [publicizeAll, hp] at h
      | some es' =>
        simp [publicizeAll, hp] at h
        subst h
        simp [ih hp]

theorem isSize_iff (d : Nat) (raw : Option Int) (v : Nat) (hd : 10 ≤ d ∧ d ≤ 100000) :
    IsSize d raw v ↔ okSize (some (raw.getD d)) = true ∧ v = (raw.getD d).toNat := by
  cases raw <;> simp [IsSize, okSize] <;> omega

theorem isList_iff (b : RawList) (p : Payload) : IsList b p ↔ okList (finalize b) = true ∧ publicize (finalize b) = some p := by
  have s1 := isSize_iff 500 b.mergeSize p.mergeSize (by decide)
  have s2 := isSize_iff 2000 b.splitSize p.splitSize (by decide)
  have hset : ∀ s, okSet s = true ↔ 2 ≤ characters s ∧ characters s ≤ 100 := by
    intro s
    unfold okSet
    rw [runeCount_characters]
    simp
  constructor
  · intro h
    obtain ⟨m1, m2⟩ := s1.mp h.merge
    obtain ⟨l1, l2⟩ := s2.mp h.split
    have hi := (okListID_iff _).mpr h.goodID
    have hs := (hset _).mpr h.goodSet
    have hp := h.populate
    cases hb : b.populate with
    | none =>
      rw [hb] at hp
      refine ⟨?_, ?_⟩
      · unfold okList finalize
        simp only [h.id, h.set, Option.any_some, hi, hs, hb, Option.getD_none, List.all_nil, Bool.and_true, Bool.true_and]
        exact Bool.and_eq_true_iff.mpr ⟨m1, l1⟩
      · unfold publicize finalize
        simp only [h.id, h.set, hb, Option.getD_some]
        rw [Option.some.injEq]
        have h3 := h.loadIndex
        have h4 := h.metadata
        clear h s1 s2
        rcases p with ⟨_, _, _, _, _, _, _⟩
        simp_all
    | some bs =>
      rw [hb] at hp
      obtain ⟨es, e1, e2⟩ := hp
      obtain ⟨a1, a2⟩ := (areElements_iff bs es).mp e2
      refine ⟨?_, ?_⟩
      · unfold okList finalize
        simp only [h.id, h.set, Option.any_some, hi, hs, hb, Option.getD_some, a1, Bool.and_true, Bool.true_and]
        exact Bool.and_eq_true_iff.mpr ⟨m1, l1⟩
      · unfold publicize finalize
        simp only [h.id, h.set, hb, Option.getD_some, a2, Option.map_some]
        rw [Option.some.injEq]
        have h3 := h.loadIndex
        have h4 := h.metadata
        clear h s1 s2
        rcases p with ⟨_, _, _, _, _, _, _⟩
        simp_all
  · rintro ⟨h1, h2⟩
    unfold okList finalize at h1
    simp only [Bool.and_eq_true] at h1
    obtain ⟨⟨⟨⟨i1, i2⟩, i3⟩, i4⟩, i5⟩ := h1
    cases hi : b.id with
    | none => simp [hi] at i1
    | some id =>
      cases hs : b.set with
      | none => simp [hs] at i2
      | some set =>
        simp only [hi, Option.any_some] at i1
        simp only [hs, Option.any_some] at i2
        unfold publicize finalize at h2
        cases hb : b.populate with
        | none =>
          simp only [hi, hs, hb, Option.getD_some, Option.some.injEq] at h2
          subst h2
          exact ⟨hi, (okListID_iff _).mp i1, hs, (hset _).mp i2, s1.mpr ⟨i3, rfl⟩, s2.mpr ⟨i4, rfl⟩, rfl, rfl, by rw [hb]⟩
        | some bs =>
          simp only [hb, Option.getD_some] at i5
          cases hp : publicizeAll bs with
          | none => simp [hb, hp] at h2
          | some es =>
            simp only [hi, hs, hb, hp, Option.getD_some, Option.map_some, Option.some.injEq] at h2
            subst h2
            exact ⟨hi, (okListID_iff _).mp i1, hs, (hset _).mp i2, s1.mpr ⟨i3, rfl⟩, s2.mpr ⟨i4, rfl⟩, rfl, rfl,
              by rw [hb]; exact ⟨es, rfl, (areElements_iff bs es).mpr ⟨i5, hp⟩⟩⟩

/-! ### Percentiles -/

theorem roundDiv_bounds (a b : Nat) (hb : 0 < b) : 2 * (b * roundDiv a b) ≤ 2 * a + b ∧ 2 * a ≤ 2 * (b * roundDiv a b) + b := by
  have h := Nat.div_add_mod a b
  have hm := Nat.mod_lt a hb
  unfold roundDiv
  split
  · omega
  · split
    · rw [Nat.mul_add]; omega
    · split
      · omega
      · rw [Nat.mul_add]; omega

theorem arith1' (P X Y Z W : Nat) (a : 2 * (100 * X) ≤ 2 * Y + Z) (c : Z * P ≤ W) : 100 * X * (2 * P) ≤ Y * (2 * P) + W := by
  have h := Nat.mul_le_mul_right P a
  grind

theorem arith2' (P X Y Z W : Nat) (a : 2 * Y ≤ 2 * (100 * X) + Z) (c : Z * P ≤ W) : Y * (2 * P) ≤ 100 * X * (2 * P) + W := by
  have h := Nat.mul_le_mul_right P a
  grind

theorem half1 (Q A B X Y : Nat) (ha : A = 2 * X) (hb : B = 2 * Y) (Z W : Nat) (hz : Z = 2 * W) (h : 100 * A * Q ≤ B * Q + Z) :
    100 * X * Q ≤ Y * Q + W := by
  subst ha hb hz
  grind

theorem half2 (Q A B X Y : Nat) (ha : A = 2 * X) (hb : B = 2 * Y) (Z W : Nat) (hz : Z = 2 * W) (h : B * Q ≤ 100 * A * Q + Z) :
    Y * Q ≤ 100 * X * Q + W := by
  subst ha hb hz
  grind

theorem pow53 : 2 ^ 53 = 2 * 2 ^ 52 := rfl

theorem div100_spec (m e : Nat) (hm : m ≤ 100 * 2 ^ e) (hf : e = 0 ∨ m < 2 ^ 53 ∧ e ≤ 1074) :
    (100 * ((div100 m e).1 * 2 ^ e) * 2 ^ 53 ≤ (m * 2 ^ (div100 m e).2) * 2 ^ 53 + 100 * 2 ^ e * 2 ^ (div100 m e).2) ∧
    ((m * 2 ^ (div100 m e).2) * 2 ^ 53 ≤ 100 * ((div100 m e).1 * 2 ^ e) * 2 ^ 53 + 100 * 2 ^ e * 2 ^ (div100 m e).2) ∧
    (div100 m e).1 < 2 ^ 53 ∧ ((div100 m e).1 < 2 ^ (div100 m e).2 ↔ m < 100 * 2 ^ e) := by
  have hm53 : m < 2 ^ 53 := by
    rcases hf with rfl | h
    · have : 100 * 2 ^ 0 = 100 := rfl
      omega
    · exact h.1
  have he : e ≤ 1074 := by rcases hf with rfl | h <;> omega
  have hpe := Nat.two_pow_pos e
  unfold div100
  by_cases h0 : m = 0
  · subst h0
    rw [if_pos rfl]
    simp [hpe]
  rw [if_neg h0]
  have l1 : 2 ^ Nat.log2 m ≤ m := Nat.log2_self_le h0
  have l2 : m < 2 ^ (Nat.log2 m + 1) := Nat.lt_log2_self
  have l3 : Nat.log2 m < 53 := by
    rcases Nat.lt_or_ge (Nat.log2 m) 53 with h | h
    · exact h
    · have := Nat.pow_le_pow_right (show 0 < 2 by decide) h; omega
  have l4 : Nat.log2 m < e + 7 := by
    rcases Nat.lt_or_ge (Nat.log2 m) (e + 7) with h | h
    · exact h
    · have := Nat.pow_le_pow_right (show 0 < 2 by decide) h
      have e7 : 2 ^ (e + 7) = 128 * 2 ^ e := by rw [Nat.pow_add, Nat.mul_comm]
      omega
  generalize hL : Nat.log2 m = L at *
  dsimp only
  generalize hk1 : (if 100 * 2 ^ 53 ≤ m * 2 ^ (59 - L) then 59 - L - 1 else 59 - L) = k1
  have k1b : 58 - L ≤ k1 ∧ k1 ≤ 59 - L ∧ m * 2 ^ k1 < 100 * 2 ^ 53 := by
    subst hk1
    split
    · refine ⟨by omega, by omega, ?_⟩
      have a : m * 2 ^ (59 - L - 1) < 2 ^ (L + 1) * 2 ^ (59 - L - 1) := Nat.mul_lt_mul_of_pos_right l2 (Nat.two_pow_pos _)
      rw [← Nat.pow_add, show L + 1 + (59 - L - 1) = 59 by omega] at a
      exact Nat.lt_trans a (by decide)
    · exact ⟨by omega, by omega, by omega⟩
  generalize hk : min k1 (1074 - e) = k
  have kb : m * 2 ^ k < 100 * 2 ^ 53 :=
    Nat.lt_of_le_of_lt (Nat.mul_le_mul_left m (Nat.pow_le_pow_right (by decide) (show k ≤ k1 by omega))) k1b.2.2
  have ek : 52 ≤ e + k := by omega
  have r := roundDiv_bounds (m * 2 ^ k) 100 (by decide)
  generalize hn : roundDiv (m * 2 ^ k) 100 = n at *
  have hpk := Nat.two_pow_pos k
  have hpek : 2 ^ (e + k) = 2 ^ e * 2 ^ k := Nat.pow_add ..
  -- the value of the quotient
  have n53 : n ≤ 2 ^ 53 := by omega
  have err1 : 100 * (n * 2 ^ e) * 2 ^ 53 ≤ (m * 2 ^ (e + k)) * 2 ^ 53 + 100 * 2 ^ e * 2 ^ (e + k) := by
    have a : 2 * (100 * n) * 2 ^ e ≤ (2 * (m * 2 ^ k) + 100) * 2 ^ e := Nat.mul_le_mul_right _ r.1
    have b : 2 ^ 52 ≤ 2 ^ (e + k) := Nat.pow_le_pow_right (by decide) ek
    have c : 100 * 2 ^ e * 2 ^ 52 ≤ 100 * 2 ^ e * 2 ^ (e + k) := Nat.mul_le_mul_left _ b
    have d : m * 2 ^ (e + k) = m * 2 ^ k * 2 ^ e := by rw [hpek, Nat.mul_assoc, Nat.mul_comm (2 ^ e)]
    rw [d]
    rw [Nat.add_mul, Nat.mul_assoc 2, Nat.mul_assoc 2, Nat.mul_assoc 100] at a
    rw [pow53]
    exact arith1' _ _ _ _ _ a c
  have err2 : (m * 2 ^ (e + k)) * 2 ^ 53 ≤ 100 * (n * 2 ^ e) * 2 ^ 53 + 100 * 2 ^ e * 2 ^ (e + k) := by
    have a : 2 * (m * 2 ^ k) * 2 ^ e ≤ (2 * (100 * n) + 100) * 2 ^ e := Nat.mul_le_mul_right _ r.2
    have b : 2 ^ 52 ≤ 2 ^ (e + k) := Nat.pow_le_pow_right (by decide) ek
    have c : 100 * 2 ^ e * 2 ^ 52 ≤ 100 * 2 ^ e * 2 ^ (e + k) := Nat.mul_le_mul_left _ b
    have d : m * 2 ^ (e + k) = m * 2 ^ k * 2 ^ e := by rw [hpek, Nat.mul_assoc, Nat.mul_comm (2 ^ e)]
    rw [d]
    rw [Nat.add_mul, Nat.mul_assoc 2, Nat.mul_assoc 2, Nat.mul_assoc 100] at a
    rw [pow53]
    exact arith2' _ _ _ _ _ a c
  have one : n < 2 ^ (e + k) ↔ m < 100 * 2 ^ e := by
    constructor
    · intro h
      rcases Nat.lt_or_ge m (100 * 2 ^ e) with h' | h'
      · exact h'
      · have hmm : m = 100 * 2 ^ e := by omega
        have a : m * 2 ^ k = 100 * 2 ^ (e + k) := by rw [hmm, Nat.mul_assoc, hpek]
        rw [a] at r
        omega
    · intro h
      rcases Nat.lt_or_ge k 6 with hk6 | hk6
      · have e1 : 1068 < e := by omega
        have b : 2 ^ 60 ≤ 2 ^ (e + k) := Nat.pow_le_pow_right (by decide) (by omega)
        omega
      · have a : (m + 1) * 2 ^ k ≤ 100 * 2 ^ e * 2 ^ k := Nat.mul_le_mul_right _ h
        rw [Nat.add_mul, Nat.one_mul, Nat.mul_assoc 100, ← hpek] at a
        have b : 2 ^ 6 ≤ 2 ^ k := Nat.pow_le_pow_right (by decide) hk6
        omega
  by_cases hx : n = 2 ^ 53
  · rw [if_pos hx]
    dsimp only
    have hek : 2 ^ (e + k) = 2 * 2 ^ (e + k - 1) := by
      rw [Nat.mul_comm, ← Nat.pow_succ]; congr 1; omega
    rw [hx] at err1 err2 one
    have x1 : (2 ^ 53 : Nat) * 2 ^ e = 2 * (2 ^ 52 * 2 ^ e) := by omega
    have x2 : m * 2 ^ (e + k) = 2 * (m * 2 ^ (e + k - 1)) := by rw [hek, Nat.mul_left_comm]
    have x3 : 100 * 2 ^ e * 2 ^ (e + k) = 2 * (100 * 2 ^ e * 2 ^ (e + k - 1)) := by rw [hek, Nat.mul_left_comm]
    refine ⟨half1 _ _ _ _ _ x1 x2 _ _ x3 err1, half2 _ _ _ _ _ x1 x2 _ _ x3 err2, by decide, ?_⟩
    rw [← one, hek]
    omega
  · rw [if_neg hx]
    exact ⟨err1, err2, by dsimp only; omega, one⟩

end RankDB.Validate

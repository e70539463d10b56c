import Verif.Spec.ClientArgs
import Verif.Proofs.Validate
import Verif.Props.Keys
/-
Lemmas for C115: escaped texts, queries and decimal numbers.
-/
namespace RankDB.ClientArgs
open Spec Validate Routes

theorem bytes_all {P : UInt8 → Bool} (h : (List.range 256).all (fun n => P (UInt8.ofNat n)) = true) (b : UInt8) : P b = true := by
  have := List.all_eq_true.1 h b.toNat (List.mem_range.2 b.toNat_lt)
  simpa using this

/-- Escaped texts have no separators. -/
theorem escapeByte_safe (b : UInt8) : (escapeByte b).all (fun c => c != 38 && c != 61 && c != 59) = true :=
  bytes_all (P := fun b => (escapeByte b).all fun c => c != 38 && c != 61 && c != 59) (by decide +kernel) b

theorem escape_safe (s : Str) : ∀ c ∈ escape s, c ≠ 38 ∧ c ≠ 61 ∧ c ≠ 59 := by
  intro c hc
  obtain ⟨b, -, hb⟩ := List.mem_flatMap.1 hc
  have := List.all_eq_true.1 (escapeByte_safe b) c hb
  simp only [Bool.and_eq_true, bne_iff_ne] at this
  exact ⟨this.1.1, this.1.2, this.2⟩

theorem plain_ne (b : UInt8) (h : plain b = true) : b ≠ 37 ∧ b ≠ 43 := by
  have := bytes_all (P := fun b => !plain b || (b != 37 && b != 43)) (by decide +kernel) b
  simpa [h] using this

theorem unhex_hex {n : Nat} (h : n < 16) : unhex (hex n) = some n := by
  have : ∀ n < 16, unhex (hex n) = some n := by decide +kernel
  exact this n h

theorem unescape_cons {c : UInt8} (hc : c ≠ 37) (s : Str) :
    unescape (c :: s) = (unescape s).map ((if c = 43 then 32 else c) :: ·) := by
  rcases s with _ | ⟨a, _ | ⟨b, s⟩⟩
  · simp [unescape, hc]
  · show (if c = 37 then _ else _) = _
    rw [if_neg hc]
  · rw [unescape, if_neg hc]

theorem unescape_byte (b : UInt8) (s : Str) : unescape (escapeByte b ++ s) = (unescape s).map (b :: ·) := by
  unfold escapeByte
  split
  · rename_i h
    obtain ⟨h1, h2⟩ := plain_ne b h
    rw [List.singleton_append, unescape_cons h1]
    simp only [if_neg h2]
  · split
    · rename_i h
      subst h
      rw [List.singleton_append, unescape_cons (by decide)]
      simp
    · have hb := b.toNat_lt
      simp only [List.cons_append, List.nil_append]
      rw [unescape, if_pos rfl, unhex_hex (by omega), unhex_hex (by omega)]
      dsimp only
      rw [Nat.div_add_mod]
      simp

theorem unescape_escape (s : Str) : unescape (escape s) = some s := by
  induction s with
  | nil => rfl
  | cons b s ih =>
    have : escape (b :: s) = escapeByte b ++ escape s := rfl
    rw [this, unescape_byte, ih]
    rfl

theorem pairs_last {x : Str} (h : 38 ∉ x) : pairs x = [x] := by
  induction x with
  | nil => rfl
  | cons c x ih =>
    simp only [List.mem_cons, not_or] at h
    unfold pairs
    rw [if_neg (fun hc => h.1 hc.symm), ih h.2]

theorem pairs_cons {x : Str} (h : 38 ∉ x) (y : Str) : pairs (x ++ 38 :: y) = x :: pairs y := by
  induction x with
  | nil => simp [pairs]
  | cons c x ih =>
    simp only [List.mem_cons, not_or] at h
    rw [List.cons_append, pairs, if_neg (fun hc => h.1 hc.symm), ih h.2]

theorem takeWhile_key {k v : Str} (h : ∀ c ∈ k, c ≠ 61) : (k ++ 61 :: v).takeWhile (· != 61) = k := by
  induction k with
  | nil => simp
  | cons c k ih =>
    have hc := h c (List.mem_cons_self ..)
    rw [List.cons_append, List.takeWhile_cons, if_pos (by simpa using hc), ih fun c' h' => h c' (List.mem_cons_of_mem _ h')]

theorem dropWhile_key {k v : Str} (h : ∀ c ∈ k, c ≠ 61) : (k ++ 61 :: v).dropWhile (· != 61) = 61 :: v := by
  induction k with
  | nil => simp
  | cons c k ih =>
    have hc := h c (List.mem_cons_self ..)
    rw [List.cons_append, List.dropWhile_cons, if_pos (by simpa using hc), ih fun c' h' => h c' (List.mem_cons_of_mem _ h')]

theorem pair_escaped (k v : Str) : pair (escape k ++ 61 :: escape v) = some (k, v) := by
  unfold pair
  rw [if_neg, takeWhile_key fun c hc => (escape_safe k c hc).2.1, dropWhile_key fun c hc => (escape_safe k c hc).2.1]
  · rw [List.drop_succ_cons, List.drop_zero, unescape_escape, unescape_escape]
  · simp only [List.append_eq_nil_iff, reduceCtorEq, and_false, false_or, List.mem_append, List.mem_cons, not_or]
    exact ⟨fun h => (escape_safe k _ h).2.2 rfl, by decide, fun h => (escape_safe v _ h).2.2 rfl⟩

theorem piece_safe (k v : Str) : 38 ∉ escape k ++ 61 :: escape v := by
  simp only [List.mem_append, List.mem_cons, not_or]
  exact ⟨fun h => (escape_safe k _ h).1 rfl, by decide, fun h => (escape_safe v _ h).1 rfl⟩

theorem parse_encode : ∀ ps : List (Str × Str), parse (encode ps) = ps
  | [] => by simp [parse, encode, pairs, pair]
  | [p] => by
    rw [parse, encode, pairs_last (piece_safe _ _), List.filterMap_cons, pair_escaped]
    rfl
  | p :: q :: ps => by
    have ih := parse_encode (q :: ps)
    rw [parse] at ih ⊢
    have e : encode (p :: q :: ps) = (escape p.1 ++ 61 :: escape p.2) ++ 38 :: encode (q :: ps) := by
      rw [encode]; simp
    rw [e, pairs_cons (piece_safe _ _), List.filterMap_cons, pair_escaped]
    dsimp only
    rw [ih]

theorem itoa_decimal (n : Nat) : Decimal (Keys.itoa n) n := by
  rw [decimal_iff]
  refine ⟨?_, Keys.value_digits (Nat.lt_succ_self n)⟩
  have h1 : (Keys.itoa n).isEmpty = false := by
    cases h : Keys.itoa n with
    | nil => exact absurd h (Keys.itoa_ne_nil n)
    | cons _ _ => rfl
  have h2 : (Keys.itoa n).all digit = true := by
    rw [List.all_eq_true]
    intro d hd
    have := Keys.itoa_range n d hd
    simp only [digit, decide_eq_true_eq, UInt8.le_iff_toNat_le]
    exact ⟨this.1, Nat.le_of_lt_succ this.2⟩
  rw [h1, h2]
  rfl

theorem formatInt_integer {i : Int} (h : -2 ^ 63 ≤ i ∧ i < 2 ^ 63) : Integer (formatInt i) i := by
  cases i with
  | ofNat n => exact .plain _ _ (itoa_decimal n) (by have := h.2; rw [Int.ofNat_eq_natCast] at this; omega)
  | negSucc n =>
    have : Int.negSucc n = -((n + 1 : Nat) : Int) := rfl
    rw [this]
    exact .minus _ _ (itoa_decimal (n + 1)) (by omega)

theorem integer_formatInt {i : Int} (h : -2 ^ 63 ≤ i ∧ i < 2 ^ 63) (v : Int) : Integer (formatInt i) v ↔ i = v := by
  constructor
  · intro hv
    have h1 := (atoi_iff ..).mpr hv
    rw [(atoi_iff ..).mpr (formatInt_integer h)] at h1
    exact Option.some.inj h1
  · rintro rfl
    exact formatInt_integer h

theorem amount_iff {d lo hi : Nat} {arg : Option Int} {v : Nat} (h : IsInt arg) :
    IsNumber d lo hi (arg.map formatInt) v ↔ Amount d lo hi arg v := by
  cases arg with
  | none => exact Iff.rfl
  | some i => simp only [IsNumber, Amount, Option.map_some, integer_formatInt (h i rfl)]

theorem flag_iff {arg : Option Bool} {v : Bool} : IsFlag (arg.map formatBool) v ↔ v = arg.getD false := by
  cases arg with
  | none => exact Iff.rfl
  | some b => cases b <;> cases v <;> simp only [IsFlag, Option.map_some, Option.getD_some] <;> decide +kernel

theorem values_append (a b : List (Str × Str)) (k : Str) : values (a ++ b) k = values a k ++ values b k := by
  simp [values]

theorem values_set_same (k : String) (arg : Option Str) : values (set k arg) (w k) = arg.toList := by
  cases arg <;> simp [values, set]

theorem values_set_other {k k' : String} (h : w k ≠ w k') (arg : Option Str) : values (set k arg) (w k') = [] := by
  cases arg <;> simp [values, set, h]

theorem values_nil (k : Str) : values [] k = [] := rfl

theorem values_many (k : Str) (l : List Str) : values (l.map fun e => (k, e)) k = l := by
  induction l with
  | nil => rfl
  | cons a l ih => simp only [values, List.map_cons, List.filter_cons, beq_self_eq_true, if_true] at ih ⊢; rw [ih]

theorem unhex_digit {c : UInt8} {n : Nat} (h : HexDigit c n) : unhex c = some n := by
  have hn : n < 16 := by
    rcases h with h | h <;> exact (List.getElem?_eq_some_iff.1 h).1
  have : ∀ n < 16, ((w "0123456789abcdef")[n]?.bind unhex) = some n ∧ ((w "0123456789ABCDEF")[n]?.bind unhex) = some n := by
    decide +kernel
  rcases h with h | h
  · simpa [h] using (this n hn).1
  · simpa [h] using (this n hn).2

theorem hexDigit_hex {n : Nat} (h : n < 16) : HexDigit (hex n) n := by
  have : ∀ n < 16, (w "0123456789ABCDEF")[n]? = some (hex n) := by decide +kernel
  exact .inr (this n h)

theorem hexDigit_safe {c : UInt8} {n : Nat} (h : HexDigit c n) : c ≠ 38 ∧ c ≠ 61 ∧ c ≠ 59 := by
  have h1 : ∀ c ∈ w "0123456789abcdef" ++ w "0123456789ABCDEF", c ≠ 38 ∧ c ≠ 61 ∧ c ≠ 59 := by decide +kernel
  refine h1 c (List.mem_append.2 ?_)
  rcases h with h | h
  · exact .inl (List.mem_of_getElem? h)
  · exact .inr (List.mem_of_getElem? h)

theorem special : w "%+&;=" = [37, 43, 38, 59, 61] := by decide +kernel

theorem spells_unescape {s t : Str} (h : Spells s t) : unescape s = some t ∧ ∀ c ∈ s, c ≠ 38 ∧ c ≠ 61 ∧ c ≠ 59 := by
  induction h with
  | nil => exact ⟨rfl, by simp⟩
  | same c hc _ ih =>
    simp only [special, List.mem_cons, List.not_mem_nil, or_false, not_or] at hc
    refine ⟨by rw [unescape_cons hc.1, ih.1, Option.map_some, if_neg hc.2.1], ?_⟩
    rw [List.forall_mem_cons]
    exact ⟨⟨hc.2.2.1, hc.2.2.2.2, hc.2.2.2.1⟩, ih.2⟩
  | blank _ ih =>
    refine ⟨by rw [unescape_cons (by decide), ih.1]; rfl, ?_⟩
    rw [List.forall_mem_cons]
    exact ⟨by decide, ih.2⟩
  | code hx hy _ ih =>
    refine ⟨?_, ?_⟩
    · rw [unescape, if_pos (by decide), unhex_digit hx, unhex_digit hy]
      dsimp only
      rw [ih.1]
      rfl
    · rw [List.forall_mem_cons, List.forall_mem_cons, List.forall_mem_cons]
      exact ⟨by decide, hexDigit_safe hx, hexDigit_safe hy, ih.2⟩

theorem pair_spelled {k v key value : Str} (hk : Spells k key) (hv : Spells v value) :
    pair (k ++ 61 :: v) = some (key, value) ∧ 38 ∉ k ++ 61 :: v := by
  obtain ⟨k1, k2⟩ := spells_unescape hk
  obtain ⟨v1, v2⟩ := spells_unescape hv
  refine ⟨?_, ?_⟩
  · unfold pair
    rw [if_neg, takeWhile_key fun c hc => (k2 c hc).2.1, dropWhile_key fun c hc => (k2 c hc).2.1]
    · rw [List.drop_succ_cons, List.drop_zero, k1, v1]
    · simp only [List.append_eq_nil_iff, reduceCtorEq, and_false, false_or, List.mem_append, List.mem_cons, not_or]
      exact ⟨fun h => (k2 _ h).2.2 rfl, by decide, fun h => (v2 _ h).2.2 rfl⟩
  · simp only [List.mem_append, List.mem_cons, not_or]
    exact ⟨fun h => (k2 _ h).1 rfl, by decide, fun h => (v2 _ h).1 rfl⟩

theorem parse_writes {q : Str} {args : List (Str × Str)} (h : Writes q args) : parse q = args := by
  induction h with
  | nil => simp [parse, pairs, pair]
  | one hk hv =>
    have e : '='.toUInt8 = 61 := rfl
    obtain ⟨p1, p2⟩ := pair_spelled hk hv
    rw [e, parse, pairs_last p2, List.filterMap_cons, p1]
    rfl
  | more hk hv _ ih =>
    have e : '='.toUInt8 = 61 := rfl
    have e' : '&'.toUInt8 = 38 := rfl
    obtain ⟨p1, p2⟩ := pair_spelled hk hv
    rw [parse] at ih
    rw [e, e', parse, pairs_cons p2, List.filterMap_cons, p1]
    dsimp only
    rw [ih]

theorem plain_same (b : UInt8) (h : plain b = true) : b ∉ w "%+&;=" := by
  have := bytes_all (P := fun b => !plain b || !(w "%+&;=").contains b) (by decide +kernel) b
  simpa [h] using this

theorem spells_escape : ∀ s : Str, Spells (escape s) s
  | [] => .nil
  | b :: s => by
    have e : escape (b :: s) = escapeByte b ++ escape s := rfl
    rw [e, escapeByte]
    split
    · rename_i h
      exact .same b (plain_same b h) (spells_escape s)
    · split
      · rename_i h
        subst h
        exact .blank (spells_escape s)
      · have hb := b.toNat_lt
        have := Spells.code (hexDigit_hex (n := b.toNat / 16) (by omega)) (hexDigit_hex (n := b.toNat % 16) (by omega)) (spells_escape s)
        rw [Nat.div_add_mod, UInt8.ofNat_toNat] at this
        exact this

theorem writes_encode : ∀ args : List (Str × Str), Writes (encode args) args
  | [] => .nil
  | [p] => .one (spells_escape p.1) (spells_escape p.2)
  | p :: q :: ps => by
    have e : encode (p :: q :: ps) = (escape p.1 ++ 61 :: escape p.2) ++ 38 :: encode (q :: ps) := by
      rw [encode]; simp
    rw [e]
    exact .more (spells_escape p.1) (spells_escape p.2) (writes_encode (q :: ps))

theorem escape_legal (s : Str) : ∀ c ∈ escape s, plain c = true ∨ c ∈ w "%+" := by
  intro c hc
  obtain ⟨b, -, hb⟩ := List.mem_flatMap.1 hc
  have := bytes_all (P := fun b => (escapeByte b).all fun c => plain c || (w "%+").contains c) (by decide +kernel) b
  have := List.all_eq_true.1 this c hb
  simpa using this

theorem encode_legal : ∀ args : List (Str × Str), ∀ c ∈ encode args, plain c = true ∨ c ∈ w "%+&="
  | [], c, hc => by simp [encode] at hc
  | [p], c, hc => by
    have up : ∀ c ∈ w "%+", c ∈ w "%+&=" := by decide +kernel
    simp only [encode, List.mem_append, List.mem_cons] at hc
    rcases hc with h | rfl | h
    · exact (escape_legal _ c h).imp id (up c)
    · exact .inr (by decide +kernel)
    · exact (escape_legal _ c h).imp id (up c)
  | p :: q :: ps, c, hc => by
    have up : ∀ c ∈ w "%+", c ∈ w "%+&=" := by decide +kernel
    rw [encode] at hc
    simp only [List.mem_append, List.mem_cons] at hc
    rcases hc with h | rfl | h | rfl | h
    · exact (escape_legal _ c h).imp id (up c)
    · exact .inr (by decide +kernel)
    · exact (escape_legal _ c h).imp id (up c)
    · exact .inr (by decide +kernel)
    · exact encode_legal (q :: ps) c h

end RankDB.ClientArgs

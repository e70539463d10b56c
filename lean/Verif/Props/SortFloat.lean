import Verif.Model.SortFloat
/-
Property C46: sortable floats. The meaning of a bit pattern (`value`, `isNaN`) is IEEE 754 binary64.
-/
namespace RankDB
namespace SortFloat

theorem add_eq_or {b : Nat} (h : b < 2 ^ 63) : 2 ^ 63 + b = 2 ^ 63 ||| b := by
  have := Nat.two_pow_add_eq_or_of_lt h 1
  rwa [Nat.mul_one] at this

theorem xor_top (a : Bits) : (a ^^^ 0x8000000000000000).toNat =
    if a.toNat < 2 ^ 63 then a.toNat + 2 ^ 63 else a.toNat - 2 ^ 63 := by
  rw [BitVec.toNat_xor]
  show a.toNat ^^^ 2 ^ 63 = _
  have hlt := a.isLt
  split
  · rename_i h
    have h1 : a.toNat ^^^ 2 ^ 63 = 2 ^ 63 + a.toNat := by
      rw [add_eq_or h]
      apply Nat.eq_of_testBit_eq
      intro i
      rw [Nat.testBit_xor, Nat.testBit_or, Nat.testBit_two_pow]
      by_cases hi : 63 = i
      · subst hi
        rw [Nat.testBit_lt_two_pow h]; simp
      · simp [hi]
    omega
  · rename_i h
    obtain ⟨b, hb⟩ : ∃ b, a.toNat = 2 ^ 63 + b := ⟨a.toNat - 2 ^ 63, by omega⟩
    have hb' : b < 2 ^ 63 := by omega
    rw [hb, Nat.add_sub_cancel_left, add_eq_or hb']
    apply Nat.eq_of_testBit_eq
    intro i
    rw [Nat.testBit_xor, Nat.testBit_or, Nat.testBit_two_pow]
    by_cases hi : 63 = i
    · subst hi
      rw [Nat.testBit_lt_two_pow hb']; simp
    · simp [hi]

theorem xor_all (a : Bits) : (a ^^^ 0xFFFFFFFFFFFFFFFF).toNat = 2 ^ 64 - 1 - a.toNat := by
  have : a ^^^ 0xFFFFFFFFFFFFFFFF = ~~~ a := by
    have h : (0xFFFFFFFFFFFFFFFF : Bits) = BitVec.allOnes 64 := by decide
    rw [h, BitVec.xor_allOnes]
  rw [this, BitVec.toNat_not]

theorem xor_low (a : Bits) (h : a.toNat < 2 ^ 63) : (a ^^^ 0x7FFFFFFFFFFFFFFF).toNat = 2 ^ 63 - 1 - a.toNat := by
  have h1 : a ^^^ 0x7FFFFFFFFFFFFFFF = (a ^^^ 0xFFFFFFFFFFFFFFFF) ^^^ 0x8000000000000000 := by
    rw [BitVec.xor_assoc]; rfl
  rw [h1, xor_top, xor_all]
  split <;> omega

theorem shift_zero (a : Bits) : a >>> 63 = 0 ↔ a.toNat < 2 ^ 63 := by
  rw [← BitVec.toNat_inj, BitVec.toNat_ushiftRight, Nat.shiftRight_eq_div_pow]
  have := a.isLt
  show a.toNat / 2 ^ 63 = 0 ↔ _
  omega

/-- The magnitude of the value is monotone in the bits without the sign. -/
def mag (x : Nat) : Nat := if x / 2 ^ 52 = 0 then x % 2 ^ 52 else (2 ^ 52 + x % 2 ^ 52) * 2 ^ (x / 2 ^ 52 - 1)

theorem mag_lt {x y : Nat} (h : x < y) : mag x < mag y := by
  unfold mag
  by_cases hx : x / 2 ^ 52 = 0
  · rw [if_pos hx]
    by_cases hy : y / 2 ^ 52 = 0
    · rw [if_pos hy]; omega
    · rw [if_neg hy]
      have : 1 ≤ 2 ^ (y / 2 ^ 52 - 1) := Nat.one_le_two_pow
      have h2 : (2 ^ 52 + y % 2 ^ 52) * 1 ≤ (2 ^ 52 + y % 2 ^ 52) * 2 ^ (y / 2 ^ 52 - 1) := Nat.mul_le_mul_left _ this
      omega
  · have hy : ¬ y / 2 ^ 52 = 0 := by omega
    rw [if_neg hx, if_neg hy]
    by_cases he : x / 2 ^ 52 = y / 2 ^ 52
    · rw [he]
      exact Nat.mul_lt_mul_of_pos_right (by omega) (Nat.two_pow_pos _)
    · obtain ⟨d, hd⟩ : ∃ d, y / 2 ^ 52 - 1 = (x / 2 ^ 52 - 1) + (d + 1) := ⟨y / 2 ^ 52 - x / 2 ^ 52 - 1, by omega⟩
      rw [hd, Nat.pow_add 2 (x / 2 ^ 52 - 1), show 2 ^ (d + 1) = 2 ^ d * 2 from Nat.pow_succ 2 d]
      have h1 : 1 ≤ 2 ^ d := Nat.one_le_two_pow
      have hp : 0 < 2 ^ (x / 2 ^ 52 - 1) := Nat.two_pow_pos _
      generalize 2 ^ (x / 2 ^ 52 - 1) = P at *
      generalize 2 ^ d = D at *
      have hlt : 2 ^ 52 + x % 2 ^ 52 < (2 ^ 52 + y % 2 ^ 52) * (D * 2) := by
        have h2 : (2 ^ 52 + y % 2 ^ 52) * 2 ≤ (2 ^ 52 + y % 2 ^ 52) * (D * 2) := Nat.mul_le_mul_left _ (by omega)
        omega
      calc (2 ^ 52 + x % 2 ^ 52) * P < (2 ^ 52 + y % 2 ^ 52) * (D * 2) * P := Nat.mul_lt_mul_of_pos_right hlt hp
        _ = (2 ^ 52 + y % 2 ^ 52) * (P * (D * 2)) := by rw [Nat.mul_assoc, Nat.mul_comm P]

theorem mag_lt_iff {x y : Nat} : mag x < mag y ↔ x < y := by
  constructor
  · intro h
    rcases Nat.lt_trichotomy x y with h1 | h1 | h1
    · exact h1
    · subst h1; omega
    · have := mag_lt h1; omega
  · exact mag_lt

theorem mag_zero : mag 0 = 0 := by unfold mag; simp

theorem value_eq (a : Bits) : value a = if a.toNat < 2 ^ 63 then (mag a.toNat : Int) else - (mag (a.toNat - 2 ^ 63) : Int) := by
  have hlt := a.isLt
  unfold value mag expo frac sign
  by_cases h : a.toNat < 2 ^ 63
  · rw [if_pos h]
    have h1 : a.toNat / 2 ^ 52 % 2 ^ 11 = a.toNat / 2 ^ 52 := by omega
    simp only [h1]
    rw [if_neg (by simp; omega)]
    split <;> rfl
  · rw [if_neg h]
    have h1 : a.toNat / 2 ^ 52 % 2 ^ 11 = (a.toNat - 2 ^ 63) / 2 ^ 52 := by omega
    have h2 : a.toNat % 2 ^ 52 = (a.toNat - 2 ^ 63) % 2 ^ 52 := by omega
    simp only [h1, h2]
    rw [if_pos (by simp; omega)]
    split <;> rfl

theorem isNaN_iff (a : Bits) : isNaN a = true ↔
    (if a.toNat < 2 ^ 63 then a.toNat else a.toNat - 2 ^ 63) > 2047 * 2 ^ 52 := by
  have hlt := a.isLt
  unfold isNaN expo frac
  rw [decide_eq_true_eq]
  split <;> omega

theorem value_neg (a : Bits) : value a < 0 ↔ 2 ^ 63 < a.toNat := by
  rw [value_eq]
  split
  · omega
  · have h1 : mag 0 < mag (a.toNat - 2 ^ 63) ↔ _ := mag_lt_iff
    rw [mag_zero] at h1
    omega

theorem value_zero (a : Bits) : value a = 0 ↔ a.toNat = 0 ∨ a.toNat = 2 ^ 63 := by
  rw [value_eq]
  split
  · have h1 : mag 0 < mag a.toNat ↔ _ := mag_lt_iff
    rw [mag_zero] at h1
    omega
  · have h1 : mag 0 < mag (a.toNat - 2 ^ 63) ↔ _ := mag_lt_iff
    rw [mag_zero] at h1
    omega

/-- The score of a number, as a natural number. -/
theorem sortable_toNat (a : Bits) (h : isNaN a = false) : (sortable a).toNat =
    if a.toNat < 2 ^ 63 then a.toNat + 2 ^ 63
    else if a.toNat = 2 ^ 63 then 2 ^ 63 else 2 ^ 64 - 1 - a.toNat := by
  have hn := value_neg a
  have hz := value_zero a
  unfold sortable isZero isNeg
  rw [h]
  simp only [Bool.false_eq_true, if_false, Bool.not_false, Bool.true_and, decide_eq_true_eq]
  split
  · rename_i h0
    rcases hz.1 h0 with h1 | h1
    · rw [if_pos (by omega), h1]; rfl
    · rw [if_neg (by omega), if_pos h1]; rfl
  · rename_i h0
    split
    · rename_i h1
      have := hn.1 h1
      rw [xor_all, if_neg (by omega), if_neg (by omega)]
    · rename_i h1
      have h2 : ¬ 2 ^ 63 < a.toNat := fun h => h1 (hn.2 h)
      have h3 : ¬ (a.toNat = 0 ∨ a.toNat = 2 ^ 63) := fun h => h0 (hz.2 h)
      rw [xor_top]
      rw [if_pos (by omega)]
      rw [if_pos (by omega)]

end SortFloat

namespace Props
open SortFloat

theorem sortable_lt (a b : Bits) (ha : isNaN a = false) (hb : isNaN b = false) :
    sortable a < sortable b ↔ value a < value b := by
  rw [BitVec.lt_def, sortable_toNat a ha, sortable_toNat b hb, value_eq, value_eq]
  have ha' := a.isLt
  have hb' := b.isLt
  have m1 : mag a.toNat < mag b.toNat ↔ _ := mag_lt_iff
  have m2 : mag (b.toNat - 2 ^ 63) < mag (a.toNat - 2 ^ 63) ↔ _ := mag_lt_iff
  have m3 : mag 0 < mag (a.toNat - 2 ^ 63) ↔ _ := mag_lt_iff
  have m4 : mag 0 < mag b.toNat ↔ _ := mag_lt_iff
  rw [mag_zero] at m3 m4
  by_cases h1 : a.toNat < 2 ^ 63 <;> by_cases h2 : b.toNat < 2 ^ 63
  · rw [if_pos h1, if_pos h2, if_pos h1, if_pos h2]; omega
  · rw [if_pos h1, if_neg h2, if_pos h1, if_neg h2]; split <;> omega
  · rw [if_neg h1, if_pos h2, if_neg h1, if_pos h2]; split <;> omega
  · rw [if_neg h1, if_neg h2, if_neg h1, if_neg h2]; split <;> split <;> omega

/-- Order is preserved: scores compare like the numbers, and are equal only for equal numbers. -/
theorem C46_order (a b : Bits) (ha : isNaN a = false) (hb : isNaN b = false) :
    (sortable a < sortable b ↔ value a < value b) ∧ (sortable a = sortable b ↔ value a = value b) := by
  have h1 := sortable_lt a b ha hb
  have h2 := sortable_lt b a hb ha
  refine ⟨h1, ?_⟩
  rw [BitVec.lt_def] at h1 h2
  rw [← BitVec.toNat_inj]
  omega

/-- NaN gets the score 0, below the score of every number. -/
theorem C46_nan_lowest (n a : Bits) (hn : isNaN n = true) (ha : isNaN a = false) :
    sortable n = 0 ∧ sortable n < sortable a := by
  have h0 : sortable n = 0 := by unfold sortable; rw [if_pos hn]
  refine ⟨h0, ?_⟩
  rw [h0, BitVec.lt_def, sortable_toNat a ha]
  have ha' := a.isLt
  have hna : ¬ (isNaN a = true) := by simp [ha]
  rw [isNaN_iff] at hna
  show 0 < _
  by_cases h : a.toNat < 2 ^ 63
  · rw [if_pos h]; omega
  · rw [if_neg h] at hna ⊢
    split <;> omega

/-- Converting back returns the same bits, except that the negative zero becomes the positive one. -/
theorem C46_round_trip (a : Bits) (ha : isNaN a = false) :
    reverse (sortable a) = (if a = 0x8000000000000000 then 0 else a) ∧
    value (reverse (sortable a)) = value a ∧ isNaN (reverse (sortable a)) = false := by
  have ha' := a.isLt
  have hst := sortable_toNat a ha
  have hna : ¬ (isNaN a = true) := by simp [ha]
  rw [isNaN_iff] at hna
  have h80 : a = 0x8000000000000000 ↔ a.toNat = 2 ^ 63 := by rw [← BitVec.toNat_inj]; rfl
  have hne : sortable a ≠ 0 := by
    intro h
    have : (sortable a).toNat = 0 := by rw [h]; rfl
    rw [hst] at this
    by_cases h : a.toNat < 2 ^ 63
    · rw [if_pos h] at this; omega
    · rw [if_neg h] at this hna
      split at this <;> omega
  have main : reverse (sortable a) = (if a = 0x8000000000000000 then 0 else a) := by
    unfold reverse
    rw [if_neg hne]
    simp only []
    rw [← BitVec.toNat_inj]
    by_cases h : a.toNat < 2 ^ 63
    · rw [if_pos h] at hst
      rw [if_neg (by rw [shift_zero, hst]; omega), xor_top, hst, if_neg (by omega), if_neg (by rw [h80]; omega)]
      omega
    · rw [if_neg h] at hst
      by_cases h2 : a.toNat = 2 ^ 63
      · rw [if_pos h2] at hst
        rw [if_neg (by rw [shift_zero, hst]; omega), xor_top, hst, if_neg (by omega), if_pos (h80.2 h2)]
        rfl
      · rw [if_neg h2] at hst
        rw [if_pos (by rw [shift_zero, hst]; omega), xor_top, xor_low _ (by omega), hst, if_pos (by omega),
          if_neg (by rw [h80]; omega)]
        omega
  rw [main]
  refine ⟨rfl, ?_, ?_⟩
  · split
    · rename_i h
      rw [h]; decide +kernel
    · rfl
  · split
    · decide +kernel
    · exact ha

/-- NaN comes back as NaN. -/
theorem C46_round_trip_nan (a : Bits) (ha : isNaN a = true) : isNaN (reverse (sortable a)) = true := by
  have : sortable a = 0 := by unfold sortable; rw [if_pos ha]
  rw [this]
  decide +kernel

/-- Examples of values: 1.5 is 3 * 2^1073 units; -2 < -0 = 0 < smallest < 1.5 < infinity. -/
example : value 0x3FF8000000000000 = 3 * 2 ^ 1073 ∧ isNaN 0x3FF8000000000000 = false ∧
    isNaN 0x7FF0000000000000 = false ∧ isNaN 0x7FF0000000000001 = true ∧
    sortable 0xC000000000000000 < sortable 0x8000000000000000 ∧ sortable 0x8000000000000000 = sortable 0 ∧
    sortable 0 < sortable 1 ∧ sortable 1 < sortable 0x3FF8000000000000 ∧
    sortable 0x3FF8000000000000 < sortable 0x7FF0000000000000 := by decide +kernel

end Props
end RankDB

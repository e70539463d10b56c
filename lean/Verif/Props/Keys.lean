import Verif.Model.Keys
/-
Property C42: keys identify what is stored under them.
-/
namespace RankDB
namespace Keys

/-- The number written with digits. -/
def value (s : Str) : Nat := s.foldl (fun acc d => acc * 10 + (d.toNat - 48)) 0

theorem toNat_ofNat {n : Nat} (h : n < 256) : (UInt8.ofNat n).toNat = n := by
  rw [UInt8.toNat_ofNat']
  exact Nat.mod_eq_of_lt h

theorem value_digits {fuel n : Nat} (h : n < fuel) : value (digits fuel n) = n := by
  induction fuel generalizing n with
  | zero => omega
  | succ fuel ih =>
    unfold digits
    split
    · rename_i hn
      simp only [value, List.foldl_cons, List.foldl_nil, toNat_ofNat (show 48 + n < 256 by omega)]
      omega
    · have := ih (n := n / 10) (by omega)
      unfold value at this ⊢
      rw [List.foldl_append, this, List.foldl_cons, List.foldl_nil, toNat_ofNat (by omega)]
      omega

theorem value_zeros (k : Nat) (s : Str) : value (List.replicate k 48 ++ s) = value s := by
  unfold value
  rw [List.foldl_append]
  congr 1
  induction k with
  | zero => rfl
  | succ k ih =>
    rw [List.replicate_succ, List.foldl_cons]
    exact ih

theorem itoa_inj {a b : Nat} (h : itoa a = itoa b) : a = b := by
  have := congrArg value h
  unfold itoa at this
  rwa [value_digits (Nat.lt_succ_self a), value_digits (Nat.lt_succ_self b)] at this

theorem pad6_inj {a b : Nat} (h : pad6 a = pad6 b) : a = b := by
  have := congrArg value h
  unfold pad6 at this
  rw [value_zeros, value_zeros] at this
  unfold itoa at this
  rwa [value_digits (Nat.lt_succ_self a), value_digits (Nat.lt_succ_self b)] at this

theorem digits_range (fuel n : Nat) : ∀ d ∈ digits fuel n, 48 ≤ d.toNat ∧ d.toNat < 58 := by
  induction fuel generalizing n with
  | zero => simp [digits]
  | succ fuel ih =>
    intro d hd
    unfold digits at hd
    split at hd
    · simp only [List.mem_cons, List.not_mem_nil, or_false] at hd
      subst hd
      rw [toNat_ofNat (by omega)]
      omega
    · simp only [List.mem_append, List.mem_cons, List.not_mem_nil, or_false] at hd
      rcases hd with hd | rfl
      · exact ih _ d hd
      · rw [toNat_ofNat (by omega)]
        omega

theorem itoa_range (n : Nat) : ∀ d ∈ itoa n, 48 ≤ d.toNat ∧ d.toNat < 58 := digits_range _ n

theorem pad6_range (n : Nat) : ∀ d ∈ pad6 n, 48 ≤ d.toNat ∧ d.toNat < 58 := by
  intro d hd
  unfold pad6 at hd
  rcases List.mem_append.1 hd with hd | hd
  · have := (List.mem_replicate.1 hd).2
    subst this
    decide
  · exact itoa_range n d hd

theorem itoa_ne_nil (n : Nat) : itoa n ≠ [] := by
  unfold itoa digits
  split <;> simp

/-- A mark that does not occur behind it splits in one way. -/
theorem split_last {c : UInt8} {a b x y : Str} (h : a ++ c :: x = b ++ c :: y) (hx : c ∉ x) (hy : c ∉ y) :
    a = b ∧ x = y := by
  rcases List.append_eq_append_iff.1 h with ⟨t, h1, h2⟩ | ⟨t, h1, h2⟩
  · cases t with
    | nil => simp at h1 h2; exact ⟨h1.symm, h2⟩
    | cons d t =>
      simp only [List.cons_append, List.cons.injEq] at h2
      exact absurd (by rw [h2.2]; simp) hx
  · cases t with
    | nil => simp at h1 h2; exact ⟨h1, h2.symm⟩
    | cons d t =>
      simp only [List.cons_append, List.cons.injEq] at h2
      exact absurd (by rw [h2.2]; simp) hy

/-- A mark that does not occur before it splits in one way. -/
theorem split_first {c : UInt8} {a b x y : Str} (h : a ++ c :: x = b ++ c :: y) (ha : c ∉ a) (hb : c ∉ b) :
    a = b ∧ x = y := by
  rcases List.append_eq_append_iff.1 h with ⟨t, h1, h2⟩ | ⟨t, h1, h2⟩
  · cases t with
    | nil => simp at h1 h2; exact ⟨h1.symm, h2⟩
    | cons d t =>
      simp only [List.cons_append, List.cons.injEq] at h2
      exact absurd (by rw [h1, ← h2.1]; simp) hb
  · cases t with
    | nil => simp at h1 h2; exact ⟨h1, h2.symm⟩
    | cons d t =>
      simp only [List.cons_append, List.cons.injEq] at h2
      exact absurd (by rw [h1, ← h2.1]; simp) ha

theorem not_mem_of_range {s : Str} (h : ∀ d ∈ s, 48 ≤ d.toNat ∧ d.toNat < 58) {c : UInt8}
    (hc : c.toNat < 48 ∨ 58 ≤ c.toNat) : c ∉ s := by
  intro hm
  have := h c hm
  omega

/-- Letters and digits. -/
def Alnum (c : UInt8) : Prop :=
  (48 ≤ c.toNat ∧ c.toNat ≤ 57) ∨ (65 ≤ c.toNat ∧ c.toNat ≤ 90) ∨ (97 ≤ c.toNat ∧ c.toNat ≤ 122)

theorem randChar_alnum (r : Nat) : Alnum (randChar r) := by
  unfold Alnum randChar
  dsimp only
  have : r % 62 < 62 := Nat.mod_lt _ (by omega)
  split
  · rw [toNat_ofNat (by omega)]; omega
  · split
    · rw [toNat_ofNat (by omega)]; omega
    · rw [toNat_ofNat (by omega)]; omega

theorem randChar_inj {a b : Nat} (ha : a < 62) (hb : b < 62) (h : randChar a = randChar b) : a = b := by
  have h := congrArg UInt8.toNat h
  unfold randChar at h
  dsimp only at h
  rw [Nat.mod_eq_of_lt ha, Nat.mod_eq_of_lt hb] at h
  repeat' split at h
  all_goals (rw [toNat_ofNat (by omega), toNat_ofNat (by omega)] at h; omega)

theorem timeDigits_length (k t : Nat) : (timeDigits k t).length = k := by
  induction k generalizing t with
  | zero => rfl
  | succ k ih => simp [timeDigits, ih]

theorem timeDigits_inj {k a b : Nat} (ha : a < 62 ^ k) (hb : b < 62 ^ k)
    (h : (timeDigits k a).map randChar = (timeDigits k b).map randChar) : a = b := by
  induction k generalizing a b with
  | zero => simp at ha hb; omega
  | succ k ih =>
    simp only [timeDigits, List.map_cons, List.cons.injEq] at h
    have h1 := randChar_inj (Nat.mod_lt _ (by omega)) (Nat.mod_lt _ (by omega)) h.1
    have h2 := ih (a := a / 62) (b := b / 62) (by
      rw [Nat.pow_succ] at ha
      exact Nat.div_lt_of_lt_mul (by omega)) (by
      rw [Nat.pow_succ] at hb
      exact Nat.div_lt_of_lt_mul (by omega)) h.2
    omega

end Keys

namespace Props
open Keys

/-- Segments with different IDs or parents have different storage keys: any parent, any ID. -/
theorem C42_storage_key (p p' : Str) (id id' : Nat) (h : storageKey p id = storageKey p' id') : p = p' ∧ id = id' := by
  unfold storageKey at h
  obtain ⟨h1, h2⟩ := split_last h (not_mem_of_range (pad6_range id) (by decide))
    (not_mem_of_range (pad6_range id') (by decide))
  exact ⟨h1, pad6_inj h2⟩

/-- Segments with different IDs or parents have different cache keys. -/
theorem C42_cache_key (p p' : Str) (id id' : Nat) (h : cacheID p id = cacheID p' id') : p = p' ∧ id = id' := by
  unfold cacheID at h
  obtain ⟨h1, h2⟩ := split_first h (not_mem_of_range (itoa_range id) (by decide))
    (not_mem_of_range (itoa_range id') (by decide))
  exact ⟨List.append_cancel_right h2, itoa_inj h1⟩

/-- Generated IDs of segment tables consist of letters and digits. -/
theorem C42_generated_ids (rnd : List UInt8) (t : Nat) : ∀ c ∈ randString rnd t, Alnum c := by
  intro c hc
  obtain ⟨r, _, rfl⟩ := List.mem_map.1 hc
  exact randChar_alnum r

/-- The key of a segment is never the key of a segment table (which is its generated ID), and neither of them is
the key of the list file. -/
theorem C42_segment_table (p : Str) (id : Nat) (rnd : List UInt8) (t : Nat) :
    storageKey p id ≠ randString rnd t ∧ storageKey p id ≠ listStorageKey ∧
      randString rnd t ≠ listStorageKey ∧ storageKey p id ≠ [] := by
  have hdash : (45 : UInt8) ∈ storageKey p id := by simp [storageKey]
  refine ⟨?_, ?_, ?_, by simp [storageKey]⟩
  · intro h
    rw [h] at hdash
    have := C42_generated_ids rnd t 45 hdash
    revert this
    unfold Alnum
    decide
  · intro h
    rw [h] at hdash
    revert hdash
    decide
  · intro h
    have := congrArg List.length h
    simp [randString, timeDigits_length, listStorageKey] at this

/-- IDs generated at different times (in units of 100 microseconds, within 62^8 units, about 690 years) are
different whatever the random bytes are. -/
theorem C42_generated_distinct (rnd rnd' : List UInt8) (t t' : Nat) (hl : rnd.length = rnd'.length)
    (ht : t / 62 ^ 8 = t' / 62 ^ 8) (h : randString rnd t = randString rnd' t') : t = t' := by
  unfold randString at h
  rw [List.map_append, List.map_append] at h
  have h2 := (List.append_inj h (by simp [hl])).2
  have hmod : ∀ k t, timeDigits k (t % 62 ^ k) = timeDigits k t := by
    intro k
    induction k with
    | zero => intro t; rfl
    | succ k ih =>
      intro t
      unfold timeDigits
      have e1 : t % 62 ^ (k + 1) % 62 = t % 62 := by
        rw [Nat.pow_succ]
        exact Nat.mod_mod_of_dvd t ⟨62 ^ k, by rw [Nat.mul_comm]⟩
      have e2 : t % 62 ^ (k + 1) / 62 = t / 62 % 62 ^ k := by
        rw [Nat.pow_succ, Nat.mul_comm (62 ^ k) 62, Nat.mod_mul_right_div_self]
      rw [e1, e2, ih]
  rw [← hmod 8 t, ← hmod 8 t'] at h2
  have := timeDigits_inj (Nat.mod_lt _ (by decide)) (Nat.mod_lt _ (by decide)) h2
  have e1 := Nat.div_add_mod t (62 ^ 8)
  have e2 := Nat.div_add_mod t' (62 ^ 8)
  rw [← e1, ← e2, ht, this]

/-- A clone and its original, whose segment tables were generated at different times, share no storage key and no
cache key of any segment. (Generated at the same time they rely on the random bytes, `C42_random_collision`.) -/
theorem C20_clone_keys (rnd rnd' : List UInt8) (t t' id id' : Nat) (hl : rnd.length = rnd'.length)
    (ht : t / 62 ^ 8 = t' / 62 ^ 8) (hne : t ≠ t') :
    storageKey (randString rnd t) id ≠ storageKey (randString rnd' t') id' ∧
      cacheID (randString rnd t) id ≠ cacheID (randString rnd' t') id' :=
  ⟨fun h => hne (C42_generated_distinct rnd rnd' t t' hl ht (C42_storage_key _ _ _ _ h).1),
    fun h => hne (C42_generated_distinct rnd rnd' t t' hl ht (C42_cache_key _ _ _ _ h).1)⟩

/-- Within one unit of time different random bytes can give the same ID. -/
theorem C42_random_collision : ∃ rnd rnd' : List UInt8, rnd ≠ rnd' ∧ rnd.length = 8 ∧ rnd'.length = 8 ∧
    ∀ t, randString rnd t = randString rnd' t := by
  refine ⟨[0, 0, 0, 0, 0, 0, 0, 0], [62, 0, 0, 0, 0, 0, 0, 0], by decide, rfl, rfl, fun t => ?_⟩
  unfold randString
  rw [List.map_append, List.map_append]
  congr 1

/-- Non-vacuity: keys of segments below and above six digits. -/
example : storageKey [65] 7 = [65, 45, 48, 48, 48, 48, 48, 55] ∧
    storageKey [65] 1234567 = [65, 45, 49, 50, 51, 52, 53, 54, 55] ∧ cacheID [65] 10 = [49, 48, 91, 65, 93] := by
  decide +kernel

end Props
end RankDB

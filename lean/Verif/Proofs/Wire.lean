import Verif.Model.Wire
/-
Reading back what was written, and reading of a prefix.
-/
namespace RankDB.Wire

/-- Reading the bytes `e`, whatever follows, gives `x` and consumes exactly `e`. -/
def Reads {α : Type} (p : Dec α) (e : Bytes) (x : α) : Prop := ∀ r, p (e ++ r) = some (x, r)

/-- A reader that succeeds does the same with more bytes at the end. -/
def Mono {α : Type} (p : Dec α) : Prop := ∀ b c a r, p b = some (a, r) → p (b ++ c) = some (a, r ++ c)

theorem bind_eq {α β : Type} (p : Dec α) (f : α → Dec β) (b : Bytes) :
    (p >>= f) b = match p b with
      | some (a, r) => f a r
      | none => none := rfl

theorem pure_eq {α : Type} (a : α) (b : Bytes) : (pure a : Dec α) b = some (a, b) := rfl

theorem Reads.pure {α : Type} (x : α) : Reads (Pure.pure x) [] x := fun _ => rfl

theorem Reads.bind {α β : Type} {p : Dec α} {f : α → Dec β} {e1 e2 : Bytes} {x : α} {y : β}
    (h1 : Reads p e1 x) (h2 : Reads (f x) e2 y) : Reads (p >>= f) (e1 ++ e2) y := by
  intro r
  rw [bind_eq, List.append_assoc, h1]
  exact h2 r

theorem Reads.bind_nil {α β : Type} {p : Dec α} {f : α → Dec β} {e : Bytes} {x : α} {y : β}
    (h1 : Reads p e x) (h2 : Reads (f x) [] y) : Reads (p >>= f) e y := by
  have := Reads.bind h1 h2
  rwa [List.append_nil] at this

theorem Reads.lead (b : UInt8) {β : Type} {f : UInt8 → Dec β} {e : Bytes} {y : β} (h : Reads (f b) e y) :
    Reads (Wire.lead >>= f) (b :: e) y := fun r => h r

theorem Reads.lead_nil (b : UInt8) {β : Type} {f : UInt8 → Dec β} {y : β} (h : Reads (f b) [] y) :
    Reads (Wire.lead >>= f) [b] y := fun r => h r

theorem reads_takeN (d : Bytes) : Reads (takeN d.length) d d := by
  intro r
  unfold takeN
  rw [if_pos (by simp)]
  simp

theorem be_length (k v : Nat) : (be k v).length = k := by
  induction k with
  | zero => rfl
  | succ k ih => simp [be, ih]

theorem foldl_be (k v acc : Nat) :
    (be k v).foldl (fun acc (x : UInt8) => acc * 256 + x.toNat) acc = acc * 256 ^ k + v % 256 ^ k := by
  induction k generalizing acc with
  | zero => simp [be, Nat.mod_one]
  | succ k ih =>
    have h256 : (UInt8.ofNat (v / 256 ^ k)).toNat = v / 256 ^ k % 256 := UInt8.toNat_ofNat'
    rw [be, List.foldl_cons, ih, h256, Nat.pow_succ, Nat.mod_mul (x := v) (a := 256 ^ k) (b := 256), Nat.add_mul,
      Nat.mul_assoc, Nat.mul_comm 256, Nat.mul_comm (v / 256 ^ k % 256)]
    omega

theorem unbe_be {k v : Nat} (h : v < 256 ^ k) : unbe (be k v) = v := by
  unfold unbe
  rw [foldl_be, Nat.mod_eq_of_lt h]
  omega

theorem reads_decBE {k v : Nat} (h : v < 256 ^ k) : Reads (decBE k) (be k v) v := by
  unfold decBE
  refine Reads.bind_nil (x := be k v) ?_ ?_
  · have := reads_takeN (be k v)
    rwa [be_length] at this
  · rw [unbe_be h]
    exact Reads.pure v

theorem reads_decBE_bind {β : Type} {k v : Nat} {f : Nat → Dec β} {y : β} (h : v < 256 ^ k) (hf : Reads (f v) [] y) :
    Reads (decBE k >>= f) (be k v) y := Reads.bind_nil (reads_decBE h) hf

theorem toNat_ofNat_lt {n : Nat} (h : n < 256) : (UInt8.ofNat n).toNat = n := by
  rw [UInt8.toNat_ofNat']
  exact Nat.mod_eq_of_lt h

theorem ofNat_lt_iff {n : Nat} (h : n < 256) (b : UInt8) : UInt8.ofNat n < b ↔ n < b.toNat := by
  rw [UInt8.lt_iff_toNat_lt, toNat_ofNat_lt h]

theorem le_ofNat_iff {n : Nat} (h : n < 256) (b : UInt8) : b ≤ UInt8.ofNat n ↔ b.toNat ≤ n := by
  rw [UInt8.le_iff_toNat_le, toNat_ofNat_lt h]

theorem reads_uint {v : Nat} (h : v < 2 ^ 64) : Reads decNumber (encUint v) v := by
  unfold encUint decNumber
  split
  · refine Reads.lead_nil _ ?_
    rw [if_pos (by rw [ofNat_lt_iff (by omega)]; show v < 128; omega), toNat_ofNat_lt (by omega)]
    exact Reads.pure _
  · split
    · exact Reads.lead _ (reads_decBE_bind (by omega) (Reads.pure _))
    · split
      · exact Reads.lead _ (reads_decBE_bind (by omega) (Reads.pure _))
      · split
        · exact Reads.lead _ (reads_decBE_bind (by omega) (Reads.pure _))
        · exact Reads.lead _ (reads_decBE_bind (by omega) (Reads.pure _))

theorem reads_decUint {bits v : Nat} (h : v < 2 ^ bits) (hb : bits ≤ 64) : Reads (decUint bits) (encUint v) v := by
  unfold decUint
  refine Reads.bind_nil (reads_uint (Nat.lt_of_lt_of_le h (Nat.pow_le_pow_right (by omega) hb))) ?_
  rw [if_pos ⟨Int.natCast_nonneg v, by exact_mod_cast h⟩]
  exact Reads.pure _

theorem signed_unsigned {k : Nat} {i : Int} (hk : 0 < k) (h1 : -2 ^ (8 * k - 1) ≤ i) (h2 : i < 2 ^ (8 * k - 1)) :
    unsigned k i < 2 ^ (8 * k) ∧ signed k (unsigned k i) = i := by
  unfold unsigned signed
  have hp : (2 ^ (8 * k) : Int) = 2 * 2 ^ (8 * k - 1) := by
    have : 8 * k = (8 * k - 1) + 1 := by omega
    rw [this, Int.pow_succ, Int.mul_comm]
    simp
  have hpn : (2 ^ (8 * k) : Nat) = 2 * 2 ^ (8 * k - 1) := by
    have : 8 * k = (8 * k - 1) + 1 := by omega
    rw [this, Nat.pow_succ, Nat.mul_comm]
    simp
  have hpos : (0 : Int) < 2 ^ (8 * k - 1) := Int.pow_pos (by omega)
  have hc : ((2 ^ (8 * k - 1) : Nat) : Int) = 2 ^ (8 * k - 1) := by simp
  by_cases h0 : 0 ≤ i
  · rw [Int.emod_eq_of_lt h0 (by omega), if_pos (by omega)]
    omega
  · have : i % (2 ^ (8 * k) : Int) = i + 2 ^ (8 * k) := by
      rw [← Int.add_emod_right, Int.emod_eq_of_lt (by omega) (by omega)]
    rw [this, if_neg (by omega)]
    omega

theorem reads_signed_bind {k : Nat} {i : Int} (hk : 0 < k) (h1 : -2 ^ (8 * k - 1) ≤ i) (h2 : i < 2 ^ (8 * k - 1)) :
    Reads (decBE k >>= fun v => Pure.pure (signed k v)) (be k (unsigned k i)) i := by
  obtain ⟨h3, h4⟩ := signed_unsigned hk h1 h2
  have : unsigned k i < 256 ^ k := by
    rw [show (256 : Nat) = 2 ^ 8 by rfl, ← Nat.pow_mul]; exact h3
  have h := reads_decBE_bind (f := fun v => Pure.pure (signed k v)) this (Reads.pure (signed k (unsigned k i)))
  rwa [h4] at h

theorem reads_neg_fix {i : Int} (h1 : -32 ≤ i) (h2 : i < 0) : Reads decNumber [UInt8.ofNat (unsigned 1 i)] i := by
  unfold decNumber
  refine Reads.lead_nil _ ?_
  have h5 : unsigned 1 i = (i + 256).toNat := by
    have : unsigned 1 i = (i % 256).toNat := rfl
    rw [this]
    omega
  have h4 : signed 1 (unsigned 1 i) = i := by
    rw [h5]
    show (if (i + 256).toNat < 128 then _ else ((i + 256).toNat : Int) - 256) = i
    rw [if_neg (by omega)]
    omega
  have hlt : unsigned 1 i < 256 := by omega
  rw [if_neg (by rw [ofNat_lt_iff hlt, h5]; show ¬ _ < 128; omega),
    if_pos (by rw [le_ofNat_iff hlt, h5]; show 224 ≤ _; omega), toNat_ofNat_lt hlt, h4]
  exact Reads.pure _

theorem reads_signed1 {i : Int} (h1 : -128 ≤ i) (h2 : i < 128) : Reads decNumber (0xd0 :: be 1 (unsigned 1 i)) i :=
  Reads.lead _ (reads_signed_bind (k := 1) (by omega) h1 h2)

theorem reads_signed2 {i : Int} (h1 : -32768 ≤ i) (h2 : i < 32768) : Reads decNumber (0xd1 :: be 2 (unsigned 2 i)) i :=
  Reads.lead _ (reads_signed_bind (k := 2) (by omega) h1 h2)

theorem reads_signed4 {i : Int} (h1 : -2147483648 ≤ i) (h2 : i < 2147483648) :
    Reads decNumber (0xd2 :: be 4 (unsigned 4 i)) i :=
  Reads.lead _ (reads_signed_bind (k := 4) (by omega) h1 h2)

theorem reads_signed8 {i : Int} (h1 : -9223372036854775808 ≤ i) (h2 : i < 9223372036854775808) :
    Reads decNumber (0xd3 :: be 8 (unsigned 8 i)) i :=
  Reads.lead _ (reads_signed_bind (k := 8) (by omega) h1 h2)

theorem reads_int {i : Int} (h1 : -2 ^ 63 ≤ i) (h2 : i < 2 ^ 63) : Reads decNumber (encInt i) i := by
  have h1 : -9223372036854775808 ≤ i := h1
  have h2 : i < 9223372036854775808 := h2
  unfold encInt
  by_cases h0 : 0 ≤ i
  · rw [if_pos h0]
    by_cases h3 : i < 2 ^ 7
    · have h3' : i < 128 := h3
      rw [if_pos h3]
      have hlt : i.toNat < 256 := by omega
      unfold decNumber
      refine Reads.lead_nil _ ?_
      rw [if_pos (by rw [ofNat_lt_iff hlt]; show i.toNat < 128; omega), toNat_ofNat_lt hlt]
      have : ((i.toNat : Nat) : Int) = i := by omega
      rw [this]
      exact Reads.pure _
    · rw [if_neg h3]
      by_cases h4 : i < 2 ^ 15
      · rw [if_pos h4]; exact reads_signed2 (by omega) h4
      · rw [if_neg h4]
        by_cases h5 : i < 2 ^ 31
        · rw [if_pos h5]; exact reads_signed4 (by omega) h5
        · rw [if_neg h5]; exact reads_signed8 h1 h2
  · rw [if_neg h0]
    by_cases h3 : -32 ≤ i
    · rw [if_pos h3]
      exact reads_neg_fix h3 (by omega)
    · rw [if_neg h3]
      by_cases h4 : -2 ^ 7 ≤ i
      · rw [if_pos h4]; exact reads_signed1 h4 (by omega)
      · rw [if_neg h4]
        by_cases h5 : -2 ^ 15 ≤ i
        · rw [if_pos h5]; exact reads_signed2 h5 (by omega)
        · rw [if_neg h5]
          by_cases h6 : -2 ^ 31 ≤ i
          · rw [if_pos h6]; exact reads_signed4 h6 (by omega)
          · rw [if_neg h6]; exact reads_signed8 h1 h2

theorem reads_decInt {i : Int} (h1 : -2 ^ 63 ≤ i) (h2 : i < 2 ^ 63) : Reads decInt (encInt i) i := by
  unfold decInt
  refine Reads.bind_nil (reads_int h1 h2) ?_
  rw [if_pos h2]
  exact Reads.pure _

theorem reads_array {n : Nat} (h : n < 2 ^ 32) : Reads decArray (encArray n) n := by
  unfold encArray decArray
  split
  · refine Reads.lead_nil _ ?_
    rw [if_pos (by
      rw [ofNat_lt_iff (by omega), le_ofNat_iff (by omega)]
      show 144 ≤ _ ∧ _ < 160
      omega), toNat_ofNat_lt (by omega)]
    rw [show 144 + n - 144 = n by omega]
    exact Reads.pure _
  · split
    · exact Reads.lead _ (reads_decBE (by omega))
    · exact Reads.lead _ (reads_decBE (by omega))

theorem reads_map {n : Nat} (h : n < 2 ^ 32) : Reads decMap (encMap n) n := by
  unfold encMap decMap
  split
  · refine Reads.lead_nil _ ?_
    rw [if_pos (by
      rw [ofNat_lt_iff (by omega), le_ofNat_iff (by omega)]
      show 128 ≤ _ ∧ _ < 144
      omega), toNat_ofNat_lt (by omega)]
    rw [show 128 + n - 128 = n by omega]
    exact Reads.pure _
  · split
    · exact Reads.lead _ (reads_decBE (by omega))
    · exact Reads.lead _ (reads_decBE (by omega))

theorem reads_sized {k : Nat} {d : Bytes} (h : d.length < 256 ^ k) :
    Reads (decBE k >>= fun n => takeN n) (be k d.length ++ d) d :=
  Reads.bind (reads_decBE h) (reads_takeN d)

theorem reads_bin {d : Bytes} (h : d.length < 2 ^ 32) : Reads decBin (encBin d) d := by
  unfold encBin decBin
  split
  · exact Reads.lead _ (reads_sized (by omega))
  · split
    · exact Reads.lead _ (reads_sized (by omega))
    · exact Reads.lead _ (reads_sized (by omega))

theorem reads_str {d : Bytes} (h : d.length < 2 ^ 32) : Reads decStr (encStr d) d := by
  unfold encStr decStr
  split
  · refine Reads.lead _ ?_
    rw [if_pos (by
      rw [ofNat_lt_iff (by omega), le_ofNat_iff (by omega)]
      show 160 ≤ _ ∧ _ < 192
      omega), toNat_ofNat_lt (by omega)]
    rw [show 160 + d.length - 160 = d.length by omega]
    exact reads_takeN d
  · split
    · exact Reads.lead _ (reads_sized (by omega))
    · split
      · exact Reads.lead _ (reads_sized (by omega))
      · exact Reads.lead _ (reads_sized (by omega))

theorem reads_key {d : Bytes} (h : d.length < 2 ^ 32) : Reads decKey (encStr d) d := by
  unfold encStr decKey
  split
  · refine Reads.lead _ ?_
    rw [if_pos (by
      rw [ofNat_lt_iff (by omega), le_ofNat_iff (by omega)]
      show 160 ≤ _ ∧ _ < 192
      omega), toNat_ofNat_lt (by omega)]
    rw [show 160 + d.length - 160 = d.length by omega]
    exact reads_takeN d
  · split
    · exact Reads.lead _ (reads_sized (by omega))
    · split
      · exact Reads.lead _ (reads_sized (by omega))
      · exact Reads.lead _ (reads_sized (by omega))

theorem reads_bool (b : Bool) : Reads decBool (encBool b) b := by
  unfold encBool decBool
  cases b
  · exact Reads.lead_nil _ (Reads.pure _)
  · exact Reads.lead_nil _ (Reads.pure _)

theorem reads_decN {α : Type} {p : Dec α} {enc : α → Bytes} (xs : List α) (h : ∀ x ∈ xs, Reads p (enc x) x) :
    Reads (decN p xs.length) (xs.flatMap enc) xs := by
  induction xs with
  | nil => exact Reads.pure _
  | cons x xs ih =>
    rw [List.flatMap_cons]
    exact Reads.bind (h x (by simp)) (Reads.bind_nil (ih fun y hy => h y (by simp [hy])) (Reads.pure _))

/-! Prefixes. -/

theorem Mono.pure {α : Type} (x : α) : Mono (Pure.pure x : Dec α) := by
  intro b c a r h
  rw [pure_eq] at *
  simp only [Option.some.injEq, Prod.mk.injEq] at h ⊢
  exact ⟨h.1, by rw [h.2]⟩

theorem Mono.fail {α : Type} : Mono (fail : Dec α) := by
  intro b c a r h
  simp [Wire.fail] at h

theorem Mono.bind {α β : Type} {p : Dec α} {f : α → Dec β} (h1 : Mono p) (h2 : ∀ x, Mono (f x)) :
    Mono (p >>= f) := by
  intro b c y r h
  rw [bind_eq] at h ⊢
  cases hp : p b with
  | none => rw [hp] at h; simp at h
  | some ar =>
    obtain ⟨x, r1⟩ := ar
    rw [hp] at h
    rw [h1 b c x r1 hp]
    exact h2 x r1 c y r h

theorem Mono.ite {α : Type} {P : Prop} [Decidable P] {p q : Dec α} (h1 : Mono p) (h2 : Mono q) :
    Mono (if P then p else q) := by
  split
  · exact h1
  · exact h2

theorem mono_takeN (n : Nat) : Mono (takeN n) := by
  intro b c a r h
  unfold takeN at *
  split at h
  · rename_i hl
    rw [if_pos (by rw [List.length_append]; omega)]
    simp only [Option.some.injEq, Prod.mk.injEq] at h ⊢
    rw [List.take_append_of_le_length hl, List.drop_append_of_le_length hl]
    exact ⟨h.1, by rw [h.2]⟩
  · simp at h

theorem mono_lead : Mono lead := by
  intro b c a r h
  cases b with
  | nil => simp [lead] at h
  | cons x b =>
    simp only [lead, Option.some.injEq, Prod.mk.injEq, List.cons_append] at h ⊢
    exact ⟨h.1, by rw [h.2]⟩

theorem mono_decBE (k : Nat) : Mono (decBE k) := Mono.bind (mono_takeN k) fun _ => Mono.pure _

theorem mono_decNumber : Mono decNumber := by
  unfold decNumber
  refine Mono.bind mono_lead fun b => ?_
  repeat' with_reducible apply Mono.ite
  all_goals first
    | with_reducible exact Mono.pure _
    | with_reducible exact Mono.fail
    | with_reducible exact Mono.bind (mono_decBE _) fun _ => Mono.pure _

theorem mono_decUint (bits : Nat) : Mono (decUint bits) :=
  Mono.bind mono_decNumber fun _ => Mono.ite (Mono.pure _) Mono.fail

theorem mono_decInt : Mono decInt := Mono.bind mono_decNumber fun _ => Mono.ite (Mono.pure _) Mono.fail

theorem mono_decArray : Mono decArray := by
  unfold decArray
  refine Mono.bind mono_lead fun b => ?_
  repeat' with_reducible apply Mono.ite
  all_goals first
    | with_reducible exact Mono.pure _
    | with_reducible exact Mono.fail
    | with_reducible exact mono_decBE _

theorem mono_decMap : Mono decMap := by
  unfold decMap
  refine Mono.bind mono_lead fun b => ?_
  repeat' with_reducible apply Mono.ite
  all_goals first
    | with_reducible exact Mono.pure _
    | with_reducible exact Mono.fail
    | with_reducible exact mono_decBE _

theorem mono_decBin : Mono decBin := by
  unfold decBin
  refine Mono.bind mono_lead fun b => ?_
  repeat' with_reducible apply Mono.ite
  all_goals first
    | with_reducible exact Mono.fail
    | with_reducible exact Mono.bind (mono_decBE _) fun _ => mono_takeN _

theorem mono_decStr : Mono decStr := by
  unfold decStr
  refine Mono.bind mono_lead fun b => ?_
  repeat' with_reducible apply Mono.ite
  all_goals first
    | with_reducible exact Mono.fail
    | with_reducible exact mono_takeN _
    | with_reducible exact Mono.bind (mono_decBE _) fun _ => mono_takeN _

theorem mono_decKey : Mono decKey := by
  unfold decKey
  refine Mono.bind mono_lead fun b => ?_
  repeat' with_reducible apply Mono.ite
  all_goals first
    | with_reducible exact Mono.fail
    | with_reducible exact mono_takeN _
    | with_reducible exact Mono.bind (mono_decBE _) fun _ => mono_takeN _

theorem mono_decBool : Mono decBool := by
  unfold decBool
  refine Mono.bind mono_lead fun b => ?_
  repeat' with_reducible apply Mono.ite
  all_goals first
    | with_reducible exact Mono.pure _
    | with_reducible exact Mono.fail

theorem mono_decN {α : Type} {p : Dec α} (h : Mono p) : ∀ n, Mono (decN p n)
  | 0 => Mono.pure _
  | n + 1 => Mono.bind h fun _ => Mono.bind (mono_decN h n) fun _ => Mono.pure _

theorem mono_objSize : Mono objSize := by
  unfold objSize
  refine Mono.bind mono_lead fun b => ?_
  repeat' with_reducible apply Mono.ite
  all_goals first
    | with_reducible exact Mono.pure _
    | with_reducible exact Mono.fail
    | with_reducible exact Mono.bind (mono_decBE _) fun _ => Mono.pure _

theorem skipN_zero (f : Nat) (b : Bytes) : skipN f 0 b = some ((), b) := by
  cases f <;> rfl

theorem skipN_mono {f f' k : Nat} {b c r : Bytes} (hf : f ≤ f') (h : skipN f k b = some ((), r)) :
    skipN f' k (b ++ c) = some ((), r ++ c) := by
  induction f generalizing f' k b with
  | zero =>
    cases k with
    | zero =>
      rw [skipN_zero] at h ⊢
      simp only [Option.some.injEq, Prod.mk.injEq, true_and] at h
      rw [h]
    | succ k => exact absurd h (by simp [skipN, fail])
  | succ f ih =>
    cases k with
    | zero =>
      rw [skipN_zero] at h ⊢
      simp only [Option.some.injEq, Prod.mk.injEq, true_and] at h
      rw [h]
    | succ k =>
      cases f' with
      | zero => omega
      | succ f' =>
        unfold skipN at h ⊢
        rw [bind_eq] at h ⊢
        cases ho : objSize b with
        | none => rw [ho] at h; simp at h
        | some x =>
          obtain ⟨⟨n, parts⟩, r1⟩ := x
          rw [ho] at h
          rw [mono_objSize b c _ _ ho]
          dsimp only at h ⊢
          rw [bind_eq] at h ⊢
          cases ht : takeN n r1 with
          | none => rw [ht] at h; simp at h
          | some x =>
            obtain ⟨d, r2⟩ := x
            rw [ht] at h
            rw [mono_takeN n r1 c _ _ ht]
            exact ih (by omega) h

theorem mono_skip : Mono skip := by
  intro b c a r h
  unfold skip at *
  exact skipN_mono (by rw [List.length_append]; omega) h

/-- A proper prefix of what a reader consumes is an error. -/
theorem prefix_fails {α : Type} {p : Dec α} {e : Bytes} {x : α} (hr : Reads p e x) (hm : Mono p) {a c : Bytes}
    (he : e = a ++ c) (hc : c ≠ []) : p a = none := by
  cases hp : p a with
  | none => rfl
  | some y =>
    obtain ⟨y, r⟩ := y
    have h1 := hm a c y r hp
    have h2 := hr []
    rw [List.append_nil, he, h1] at h2
    simp only [Option.some.injEq, Prod.mk.injEq, List.append_eq_nil_iff] at h2
    exact absurd h2.2.2 hc

end RankDB.Wire

import Verif.Spec.Hosts
import Verif.Props.ValidateMany
/-
Lemmas for C116.
-/
namespace RankDB.Hosts
open Spec Validate Props

theorem split_last {sep : UInt8} {x : Str} (h : sep ∉ x) : split sep x = [x] := by
  induction x with
  | nil => rfl
  | cons c x ih =>
    simp only [List.mem_cons, not_or] at h
    unfold split
    rw [if_neg (fun hc => h.1 hc.symm), ih h.2]

theorem split_cons {sep : UInt8} {x : Str} (h : sep ∉ x) (y : Str) : split sep (x ++ sep :: y) = x :: split sep y := by
  induction x with
  | nil => simp [split]
  | cons c x ih =>
    simp only [List.mem_cons, not_or] at h
    rw [List.cons_append, split, if_neg (fun hc => h.1 hc.symm), ih h.2]

theorem split_ne_nil (sep : UInt8) (s : Str) : split sep s ≠ [] := by
  cases s with
  | nil => simp [split]
  | cons c s =>
    unfold split
    split
    · simp
    · split <;> simp

theorem split_mem {sep : UInt8} {s x : Str} (h : x ∈ split sep s) : sep ∉ x := by
  induction s generalizing x with
  | nil => simp [split] at h; subst h; simp
  | cons c s ih =>
    unfold split at h
    split at h
    · rcases List.mem_cons.1 h with rfl | h
      · simp
      · exact ih h
    · rename_i hc
      split at h
      · rename_i h0
        exact absurd h0 (split_ne_nil sep s)
      · rename_i p ps hp
        rcases List.mem_cons.1 h with rfl | h
        · simp only [List.mem_cons, not_or]
          exact ⟨fun e => hc e.symm, ih (by rw [hp]; exact List.mem_cons_self ..)⟩
        · exact ih (by rw [hp]; exact List.mem_cons_of_mem _ h)

theorem scan_digits {s : Str} (hd : ∀ b ∈ s, digit b = true) (t : Str) : ∀ n,
    s.foldl (fun n b => n * 10 + (b.toNat - 48)) n < 2 ^ 64 →
    scan n (s ++ t) = scan (s.foldl (fun n b => n * 10 + (b.toNat - 48)) n) t := by
  induction s with
  | nil => intro n _; rfl
  | cons c s ih =>
    intro n hn
    rw [List.forall_mem_cons] at hd
    rw [List.foldl_cons] at hn ⊢
    have hle : n * 10 + (c.toNat - 48) ≤ s.foldl (fun n b => n * 10 + (b.toNat - 48)) (n * 10 + (c.toNat - 48)) := by
      rw [foldl_digits]
      have : 1 ≤ 10 ^ s.length := Nat.one_le_pow _ _ (by omega)
      have := Nat.le_mul_of_pos_right (n * 10 + (c.toNat - 48)) this
      omega
    rw [List.cons_append, scan, if_pos hd.1, if_neg (by omega), ih hd.2 _ hn]

theorem scan_decimal {s : Str} {v : Nat} (h : Decimal s v) (hv : v < 2 ^ 64) (t : Str) : scan 0 (s ++ t) = scan v t := by
  have hd := (decimal_digits h).2
  have he : s.foldl (fun n b => n * 10 + (b.toNat - 48)) 0 = v := ((decimal_iff s v).1 h).2
  rw [scan_digits hd t 0 (by rw [he]; exact hv), he]

theorem atoiValue_digits {s : Str} {v : Nat} (h : Decimal s v) (t : Str) : atoiValue (s ++ t) = signedValue false (s ++ t) := by
  obtain ⟨h1, h2⟩ := decimal_digits h
  cases s with
  | nil => exact absurd rfl h1
  | cons b s =>
    have hb := h2 b (List.mem_cons_self ..)
    simp only [digit, decide_eq_true_eq] at hb
    rw [List.cons_append, atoiValue, if_neg, if_neg]
    · rintro rfl; exact absurd hb.1 (by decide)
    · rintro rfl; exact absurd hb.1 (by decide)

theorem atoiValue_decimal {s : Str} {v : Nat} (h : Decimal s v) (hv : v < 2 ^ 63) : atoiValue s = v := by
  have h1 := atoiValue_digits h []
  have h2 := scan_decimal h (by omega) []
  rw [List.append_nil] at h1 h2
  rw [h1, signedValue, if_neg (decimal_digits h).1, h2]
  simp only [scan, Bool.false_eq_true, if_false]
  rw [Nat.min_eq_left (by omega)]

theorem atoiValue_junk {s t : Str} {v : Nat} {c : UInt8} (h : Decimal s v) (hv : v < 2 ^ 64) (hc : digit c = false) :
    atoiValue (s ++ c :: t) = 0 := by
  rw [atoiValue_digits h, signedValue, if_neg (by simp), scan_decimal h hv, scan]
  simp [hc]

theorem decimal_apart {s : Str} {v : Nat} (h : Decimal s v) : Apart s := by
  intro c hc
  have := (decimal_digits h).2 c hc
  simp only [digit, decide_eq_true_eq] at this
  constructor <;> rintro rfl <;> exact absurd this (by decide)

theorem apart_comma {s : Str} (h : Apart s) : 44 ∉ s := fun hc => (h _ hc).1 rfl

theorem apart_colon {s : Str} (h : Apart s) : 58 ∉ s := fun hc => (h _ hc).2 rfl

/-- An entry with a port. -/
theorem parseHost_port {raw name text : Str} (d : Int) (h : Apart raw) (hn : Spelled raw name) (ht : Apart text) :
    parseHost d (raw ++ 58 :: text) = (name, if 0 < atoiValue text then atoiValue text else d) := by
  rw [parseHost, split_cons (apart_colon h), split_last (apart_colon ht)]
  simp only [(written_iff ..).1 hn]

theorem port_comma {raw text : Str} (h : Apart raw) (ht : Apart text) : 44 ∉ raw ++ 58 :: text := by
  simp only [List.mem_append, List.mem_cons, not_or]
  exact ⟨apart_comma h, by decide, apart_comma ht⟩

theorem names_parse {raw : Str} {h : Str × Nat} (hn : Names raw h) : parseHost 3000 raw = (h.1, (h.2 : Int)) ∧ 44 ∉ raw := by
  cases hn with
  | plain h1 h2 h3 =>
    refine ⟨?_, apart_comma h1⟩
    rw [parseHost, split_last (apart_colon h1)]
    simp only [(written_iff ..).1 h2]
    rfl
  | port h1 h2 h3 h4 h5 h6 =>
    have e : ':'.toUInt8 = 58 := rfl
    rw [e]
    refine ⟨?_, port_comma h1 (decimal_apart h4)⟩
    rw [parseHost_port _ h1 h2 (decimal_apart h4), atoiValue_decimal h4 (by omega), if_pos (by omega)]

end RankDB.Hosts

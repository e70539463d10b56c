import Verif.Spec.Untrusted
import Verif.Props.Backup
/-
Lemmas for C108: how many bytes a reader consumes.
-/
namespace RankDB.Untrusted
open Wire Stored Backup

/-- A reader consumes at least `w a` bytes for the value `a`. -/
def Eats {α : Type} (p : Dec α) (w : α → Nat) : Prop := ∀ b a r, p b = some (a, r) → r.length + w a ≤ b.length

theorem Eats.weaken {α : Type} {p : Dec α} {w w' : α → Nat} (h : Eats p w) (hw : ∀ a, w' a ≤ w a) : Eats p w' :=
  fun b a r he => by have := h b a r he; have := hw a; omega

theorem eats_pure {α : Type} (x : α) {w : α → Nat} (h : w x = 0) : Eats (Pure.pure x : Dec α) w := by
  intro b a r he
  rw [pure_eq] at he
  simp only [Option.some.injEq, Prod.mk.injEq] at he
  obtain ⟨rfl, rfl⟩ := he
  omega

theorem eats_fail {α : Type} {w : α → Nat} : Eats (fail : Dec α) w := fun _ _ _ he => by cases he

theorem eats_bind {α β : Type} {p : Dec α} {f : α → Dec β} {w : α → Nat} {v : β → Nat} (h1 : Eats p w)
    (h2 : ∀ x, Eats (f x) (fun y => v y - w x)) : Eats (p >>= f) v := by
  intro b y r he
  rw [bind_eq] at he
  cases hp : p b with
  | none => rw [hp] at he; cases he
  | some ar =>
    obtain ⟨a, r'⟩ := ar
    rw [hp] at he
    have e1 := h1 _ _ _ hp
    have e2 := h2 a _ _ _ he
    dsimp only at e2
    omega

theorem eats_ite {α : Type} {P : Prop} [Decidable P] {p q : Dec α} {w : α → Nat} (h1 : Eats p w) (h2 : Eats q w) :
    Eats (if P then p else q) w := by
  split
  · exact h1
  · exact h2

theorem eats_zero_takeN (n : Nat) : Eats (takeN n) (fun _ => n) := by
  intro b a r he
  unfold takeN at he
  split at he
  · simp only [Option.some.injEq, Prod.mk.injEq] at he
    obtain ⟨rfl, rfl⟩ := he
    rw [List.length_drop]
    dsimp only
    omega
  · cases he

theorem eats_lead : Eats lead (fun _ => 1) := by
  intro b a r he
  cases b with
  | nil => cases he
  | cons x b =>
    simp only [lead, Option.some.injEq, Prod.mk.injEq] at he
    obtain ⟨rfl, rfl⟩ := he
    simp

theorem eats_decBE (k : Nat) : Eats (decBE k) (fun _ => k) :=
  eats_bind (eats_zero_takeN k) fun _ => eats_pure _ (by omega)

theorem eats_any_BE {k : Nat} : Eats (decBE k) (fun _ => 0) := (eats_decBE k).weaken fun _ => Nat.zero_le _

theorem eats_decNumber : Eats decNumber (fun _ => 1) := by
  unfold decNumber
  refine eats_bind eats_lead fun b => ?_
  simp only [Nat.sub_self]
  repeat' first
    | exact eats_pure _ rfl
    | exact eats_fail
    | refine eats_ite ?_ ?_
    | exact eats_bind eats_any_BE fun _ => eats_pure _ rfl

theorem eats_decUint (bits : Nat) : Eats (decUint bits) (fun _ => 1) :=
  eats_bind eats_decNumber fun _ => eats_ite (eats_pure _ rfl) eats_fail

theorem eats_decInt : Eats decInt (fun _ => 1) := eats_bind eats_decNumber fun _ => eats_ite (eats_pure _ rfl) eats_fail

theorem eats_decArray : Eats decArray (fun _ => 1) := by
  unfold decArray
  refine eats_bind eats_lead fun b => ?_
  simp only [Nat.sub_self]
  repeat' first
    | exact eats_pure _ rfl
    | exact eats_fail
    | exact eats_any_BE
    | refine eats_ite ?_ ?_

theorem eats_takeN {n : Nat} : Eats (takeN n) (fun _ => 0) := (eats_zero_takeN n).weaken fun _ => Nat.zero_le _

theorem eats_sized (k : Nat) : Eats (do takeN (← decBE (k + 1))) (fun _ => 1) :=
  eats_bind (w := fun _ => 1) ((eats_decBE (k + 1)).weaken fun _ => by omega) fun _ => eats_takeN

theorem eats_decBin : Eats decBin (fun _ => 2) := by
  unfold decBin
  refine eats_bind eats_lead fun b => ?_
  show Eats _ (fun _ => 1)
  exact eats_ite (eats_sized 0) (eats_ite (eats_sized 1) (eats_ite (eats_sized 3) eats_fail))

theorem eats_long {k : Nat} : Eats (do takeN (← decBE k)) (fun _ => 0) :=
  eats_bind (w := fun _ => 0) eats_any_BE fun _ => eats_takeN

theorem eats_decStr : Eats decStr (fun _ => 1) := by
  unfold decStr
  refine eats_bind eats_lead fun b => ?_
  show Eats _ (fun _ => 0)
  exact eats_ite eats_takeN (eats_ite eats_long (eats_ite eats_long (eats_ite eats_long eats_fail)))

theorem eats_decN {α : Type} {p : Dec α} {w : α → Nat} (h : Eats p w) : ∀ n, Eats (decN p n) (fun l => (l.map w).sum)
  | 0 => eats_pure _ rfl
  | n + 1 => by
    intro b l r he
    simp only [decN] at he
    rw [bind_eq] at he
    cases h1 : p b with
    | none => rw [h1] at he; cases he
    | some x =>
      obtain ⟨x, b1⟩ := x
      rw [h1] at he
      dsimp only at he
      rw [bind_eq] at he
      cases h2 : decN p n b1 with
      | none => rw [h2] at he; cases he
      | some xs =>
        obtain ⟨xs, b2⟩ := xs
        rw [h2] at he
        dsimp only at he
        rw [pure_eq] at he
        simp only [Option.some.injEq, Prod.mk.injEq] at he
        obtain ⟨rfl, rfl⟩ := he
        have e1 := h _ _ _ h1
        have e2 := eats_decN h n _ _ _ h2
        simp only [List.map_cons, List.sum_cons]
        dsimp only at e2
        omega

theorem decN_length {α : Type} {p : Dec α} : ∀ (n : Nat) (b : Bytes) (l : List α) (r : Bytes), decN p n b = some (l, r) → l.length = n
  | 0, b, l, r, he => by
    simp only [decN] at he
    rw [pure_eq] at he
    simp only [Option.some.injEq, Prod.mk.injEq] at he
    rw [← he.1]; rfl
  | n + 1, b, l, r, he => by
    simp only [decN] at he
    rw [bind_eq] at he
    cases h1 : p b with
    | none => rw [h1] at he; cases he
    | some x =>
      obtain ⟨x, b1⟩ := x
      rw [h1] at he
      dsimp only at he
      rw [bind_eq] at he
      cases h2 : decN p n b1 with
      | none => rw [h2] at he; cases he
      | some xs =>
        obtain ⟨xs, b2⟩ := xs
        rw [h2] at he
        dsimp only at he
        rw [pure_eq] at he
        simp only [Option.some.injEq, Prod.mk.injEq] at he
        obtain ⟨rfl, rfl⟩ := he
        rw [List.length_cons, decN_length n b1 xs b2 h2]

theorem decN_all {α : Type} {p : Dec α} {P : α → Prop} (h : ∀ b a r, p b = some (a, r) → P a) :
    ∀ (n : Nat) (b : Bytes) (l : List α) (r : Bytes), decN p n b = some (l, r) → ∀ a ∈ l, P a
  | 0, b, l, r, he => by
    simp only [decN] at he
    rw [pure_eq] at he
    simp only [Option.some.injEq, Prod.mk.injEq] at he
    rw [← he.1]; intro a ha; cases ha
  | n + 1, b, l, r, he => by
    simp only [decN] at he
    rw [bind_eq] at he
    cases h1 : p b with
    | none => rw [h1] at he; cases he
    | some x =>
      obtain ⟨x, b1⟩ := x
      rw [h1] at he
      dsimp only at he
      rw [bind_eq] at he
      cases h2 : decN p n b1 with
      | none => rw [h2] at he; cases he
      | some xs =>
        obtain ⟨xs, b2⟩ := xs
        rw [h2] at he
        dsimp only at he
        rw [pure_eq] at he
        simp only [Option.some.injEq, Prod.mk.injEq] at he
        obtain ⟨rfl, rfl⟩ := he
        intro a ha
        rcases List.mem_cons.1 ha with rfl | ha
        · exact h _ _ _ h1
        · exact decN_all h n b1 xs b2 h2 a ha

theorem eats_element : Eats decElement (fun _ => 7) := by
  unfold decElement
  refine eats_bind eats_decArray fun n => eats_ite eats_fail ?_
  refine eats_bind (eats_decUint 64) fun _ => eats_bind (eats_decUint 64) fun _ => eats_bind eats_decBin fun _ => ?_
  exact eats_bind (eats_decUint 32) fun _ => eats_bind (eats_decUint 32) fun _ => eats_pure _ (by omega)

theorem sum_const {α : Type} (k : Nat) (l : List α) : (l.map fun _ => k).sum = k * l.length := by
  induction l with
  | nil => simp
  | cons a l ih => rw [List.map_cons, List.sum_cons, ih, List.length_cons, Nat.mul_succ]; omega

theorem eats_elements : Eats decElements (fun l => 7 * l.length + 1) := by
  refine eats_bind eats_decArray fun n => ?_
  refine (eats_decN eats_element n).weaken fun l => ?_
  rw [sum_const]
  omega

theorem eats_segment : Eats decSegment (fun _ => 9) := by
  unfold decSegment
  refine eats_bind eats_decArray fun n => eats_ite eats_fail ?_
  refine eats_bind (eats_decUint 32) fun _ => eats_bind (eats_decUint 64) fun _ => eats_bind (eats_decUint 64) fun _ => ?_
  refine eats_bind (eats_decUint 32) fun _ => eats_bind (eats_decUint 32) fun _ => eats_bind eats_decInt fun _ => ?_
  exact eats_bind eats_decInt fun _ => eats_bind eats_decStr fun _ => eats_pure _ (by omega)

theorem eats_part : Eats decPart (fun p => 7 * p.2.length + 10) := by
  refine eats_bind eats_segment fun m => eats_bind eats_elements fun es => eats_pure _ ?_
  dsimp only
  omega

theorem decUint_lt {bits : Nat} {b r : Bytes} {v : Nat} (h : decUint bits b = some (v, r)) : v < 2 ^ bits := by
  unfold decUint at h
  rw [bind_eq] at h
  cases hn : decNumber b with
  | none => rw [hn] at h; cases h
  | some i =>
    obtain ⟨i, b'⟩ := i
    rw [hn] at h
    dsimp only at h
    split at h
    · rename_i hi
      rw [pure_eq] at h
      simp only [Option.some.injEq, Prod.mk.injEq] at h
      rw [← h.1]
      have : (i.toNat : Int) < ((2 ^ bits : Nat) : Int) := by
        rw [Int.toNat_of_nonneg hi.1]
        push_cast
        exact hi.2
      exact Int.ofNat_lt.1 this
    · cases h

theorem element_fits {b r : Bytes} {e : Element} (h : decElement b = some (e, r)) : e.WF := by
  unfold decElement at h
  rw [bind_eq] at h
  cases h0 : decArray b with
  | none => rw [h0] at h; cases h
  | some n =>
    rw [h0] at h
    dsimp only at h
    split at h
    · cases h
    · rw [bind_eq] at h
      cases h1 : decUint 64 n.2 with
      | none => rw [h1] at h; cases h
      | some s =>
        rw [h1] at h
        dsimp only at h
        rw [bind_eq] at h
        cases h2 : decUint 64 s.2 with
        | none => rw [h2] at h; cases h
        | some i =>
          rw [h2] at h
          dsimp only at h
          rw [bind_eq] at h
          cases h3 : decBin i.2 with
          | none => rw [h3] at h; cases h
          | some p =>
            rw [h3] at h
            dsimp only at h
            rw [bind_eq] at h
            cases h4 : decUint 32 p.2 with
            | none => rw [h4] at h; cases h
            | some t =>
              rw [h4] at h
              dsimp only at h
              rw [bind_eq] at h
              cases h5 : decUint 32 t.2 with
              | none => rw [h5] at h; cases h
              | some u =>
                rw [h5] at h
                dsimp only at h
                rw [pure_eq] at h
                simp only [Option.some.injEq, Prod.mk.injEq] at h
                obtain ⟨rfl, -⟩ := h
                have a1 := decUint_lt h1
                have a2 := decUint_lt h2
                have a3 := decUint_lt h4
                have a4 := decUint_lt h5
                refine ⟨?_, ?_, ?_, ?_⟩ <;> simp only [maxU64, maxU32] <;> omega

theorem elements_split {b r : Bytes} {l : List Element} (h : decElements b = some (l, r)) :
    ∃ r', decArray b = some (l.length, r') ∧ decN decElement l.length r' = some (l, r) := by
  unfold decElements at h
  rw [bind_eq] at h
  cases h0 : decArray b with
  | none => rw [h0] at h; cases h
  | some n =>
    obtain ⟨n, r'⟩ := n
    rw [h0] at h
    dsimp only at h
    have := decN_length n _ _ _ h
    subst this
    exact ⟨r', rfl, h⟩

theorem elements_fit {b r : Bytes} {l : List Element} (h : decElements b = some (l, r)) : ∀ e ∈ l, e.WF := by
  obtain ⟨r', -, h2⟩ := elements_split h
  exact decN_all (P := fun e => e.WF) (fun _ _ _ => element_fits) _ _ _ _ h2

/-! Readers that give no bytes back. -/

/-- A reader leaves at most the bytes it got. -/
def Takes {α : Type} (p : Dec α) : Prop := Eats p (fun _ => 0)

theorem Eats.takes {α : Type} {p : Dec α} {w : α → Nat} (h : Eats p w) : Takes p := h.weaken fun _ => Nat.zero_le _

theorem takes_bind {α β : Type} {p : Dec α} {f : α → Dec β} (h1 : Takes p) (h2 : ∀ x, Takes (f x)) : Takes (p >>= f) :=
  eats_bind (w := fun _ => 0) h1 h2

theorem takes_pure {α : Type} (x : α) : Takes (Pure.pure x : Dec α) := eats_pure _ rfl

theorem takes_ite {α : Type} {P : Prop} [Decidable P] {p q : Dec α} (h1 : Takes p) (h2 : Takes q) : Takes (if P then p else q) :=
  eats_ite h1 h2

theorem takes_map : Takes decMap := by
  unfold decMap
  refine takes_bind eats_lead.takes fun b => ?_
  exact takes_ite (takes_pure _) (takes_ite eats_any_BE (takes_ite eats_any_BE eats_fail))

theorem takes_bool : Takes decBool := by
  unfold decBool
  exact takes_bind eats_lead.takes fun b => takes_ite (takes_pure _) (takes_ite (takes_pure _) eats_fail)

theorem takes_key : Takes decKey := by
  unfold decKey
  refine takes_bind eats_lead.takes fun b => ?_
  exact takes_ite eats_takeN (takes_ite eats_long (takes_ite eats_long (takes_ite eats_long eats_fail)))

theorem takes_objSize : Takes objSize := by
  unfold objSize
  refine takes_bind eats_lead.takes fun b => ?_
  repeat' first
    | exact takes_pure _
    | exact eats_fail
    | refine takes_ite ?_ ?_
    | exact takes_bind eats_any_BE fun _ => takes_pure _

theorem takes_skipN : ∀ (f k : Nat), Takes (skipN f k)
  | 0, 0 => takes_pure _
  | _ + 1, 0 => takes_pure _
  | 0, _ + 1 => eats_fail
  | f + 1, k + 1 => by
    simp only [skipN]
    exact takes_bind takes_objSize fun x => takes_bind eats_takeN fun _ => takes_skipN f _

theorem takes_skip : Takes skip := fun b a r he => takes_skipN _ _ b a r he

theorem takes_field (t : Table) : Takes (decField t) := by
  unfold decField
  refine takes_bind takes_key fun key => ?_
  refine takes_ite (takes_bind eats_decStr.takes fun _ => takes_pure _) (takes_ite ?_ (takes_ite ?_ (takes_ite ?_ ?_)))
  · exact takes_bind eats_decArray.takes fun n => takes_bind (eats_decN eats_segment n).takes fun _ => takes_pure _
  · exact takes_bind (eats_decUint 32).takes fun _ => takes_pure _
  · exact takes_bind takes_bool fun _ => takes_pure _
  · exact takes_bind takes_skip fun _ => takes_pure _

theorem takes_fields : ∀ (n : Nat) (t : Table), Takes (decFields n t)
  | 0, _ => takes_pure _
  | n + 1, t => by
    simp only [decFields]
    exact takes_bind (takes_field t) fun t => takes_fields n t

theorem takes_table : Takes decTable := takes_bind takes_map fun n => takes_fields n _

theorem takes_meta : ∀ (n : Nat) (m : List (Str × Str)), Takes (decMeta n m)
  | 0, _ => takes_pure _
  | n + 1, m => by
    simp only [decMeta]
    exact takes_bind eats_decStr.takes fun _ => takes_bind eats_decStr.takes fun _ => takes_meta n _

theorem takes_list : Takes decList := by
  unfold decList
  refine takes_bind eats_decArray.takes fun n => takes_ite eats_fail ?_
  refine takes_bind eats_decStr.takes fun _ => takes_bind eats_decStr.takes fun _ => takes_bind takes_map fun _ => ?_
  refine takes_bind (takes_meta _ _) fun _ => takes_bind eats_decInt.takes fun _ => takes_bind eats_decInt.takes fun _ => ?_
  exact takes_bind takes_bool fun _ => takes_bind eats_decStr.takes fun _ => takes_bind eats_decStr.takes fun _ => takes_pure _

theorem field_nextID {t t' : Table} {b r : Bytes} (ht : t.nextID < 2 ^ 32) (h : decField t b = some (t', r)) :
    t'.nextID < 2 ^ 32 := by
  unfold decField at h
  rw [bind_eq] at h
  cases hk : decKey b with
  | none => rw [hk] at h; cases h
  | some k =>
    rw [hk] at h
    dsimp only at h
    split at h
    · rw [bind_eq] at h
      split at h
      · rw [pure_eq] at h
        simp only [Option.some.injEq, Prod.mk.injEq] at h
        rw [← h.1]; exact ht
      · cases h
    · split at h
      · rw [bind_eq] at h
        split at h
        · rw [bind_eq] at h
          split at h
          · rw [pure_eq] at h
            simp only [Option.some.injEq, Prod.mk.injEq] at h
            rw [← h.1]; exact ht
          · cases h
        · cases h
      · split at h
        · rw [bind_eq] at h
          split at h
          · rename_i hd
            rw [pure_eq] at h
            simp only [Option.some.injEq, Prod.mk.injEq] at h
            rw [← h.1]; exact decUint_lt hd
          · cases h
        · split at h
          · rw [bind_eq] at h
            split at h
            · rw [pure_eq] at h
              simp only [Option.some.injEq, Prod.mk.injEq] at h
              rw [← h.1]; exact ht
            · cases h
          · rw [bind_eq] at h
            split at h
            · rw [pure_eq] at h
              simp only [Option.some.injEq, Prod.mk.injEq] at h
              rw [← h.1]; exact ht
            · cases h

theorem fields_nextID : ∀ (n : Nat) {t t' : Table} {b r : Bytes}, t.nextID < 2 ^ 32 → decFields n t b = some (t', r) →
    t'.nextID < 2 ^ 32
  | 0, t, t', b, r, ht, h => by
    simp only [decFields] at h
    rw [pure_eq] at h
    simp only [Option.some.injEq, Prod.mk.injEq] at h
    rw [← h.1]; exact ht
  | n + 1, t, t', b, r, ht, h => by
    simp only [decFields] at h
    rw [bind_eq] at h
    cases hf : decField t b with
    | none => rw [hf] at h; cases h
    | some x =>
      rw [hf] at h
      exact fields_nextID n (field_nextID ht hf) h

theorem table_nextID {t : Table} {b r : Bytes} (h : decTable b = some (t, r)) : t.nextID < 2 ^ 32 := by
  unfold decTable at h
  rw [bind_eq] at h
  cases hm : decMap b with
  | none => rw [hm] at h; cases h
  | some n =>
    rw [hm] at h
    exact fields_nextID _ (by decide) h

theorem getVersion_takes (b : Bytes) : (getVersion b).2.length ≤ b.length := by
  unfold getVersion
  cases hd : decUint 8 b with
  | none => exact Nat.le_refl _
  | some x => have := eats_decUint 8 _ _ _ hd; dsimp only at this ⊢; omega

end RankDB.Untrusted

import Verif.Props.Keys
import Verif.Spec.MaxSize
/-
Lemmas for C38.
-/
namespace RankDB.MaxSize
open Keys Wire Spec.MaxSize

theorem extKey_inj {k k' : Str} {n n' : Nat} (h : extKey k n = extKey k' n') : k = k' ∧ n = n' := by
  unfold extKey at h
  obtain ⟨h1, h2⟩ := split_last h (not_mem_of_range (itoa_range n) (by decide))
    (not_mem_of_range (itoa_range n') (by decide))
  exact ⟨h1, itoa_inj h2⟩

theorem extKey_ne (k : Str) (n : Nat) : extKey k n ≠ k := by
  intro h
  have := congrArg List.length h
  simp [extKey] at this

theorem partKey_inj {K : Str → Prop} (hK : Separate K) {k k' : Str} {i j : Nat} (hk : K k) (hk' : K k')
    (h : partKey k i = partKey k' j) : k = k' ∧ i = j := by
  unfold partKey at h
  split at h <;> split at h
  · rename_i h1 h2; exact ⟨h, by omega⟩
  · exact absurd h (hK k k' _ hk hk')
  · exact absurd h.symm (hK k' k _ hk' hk)
  · obtain ⟨h1, h2⟩ := extKey_inj h
    exact ⟨h1, by omega⟩

theorem put_same (s : Store) (set key : Str) (b : Option Bytes) : s.put set key b set key = b := by
  simp [Store.put]

theorem put_ne {s : Store} {set key set' key' : Str} {b : Option Bytes} (h : ¬(set' = set ∧ key' = key)) :
    s.put set key b set' key' = s set' key' := by
  simp only [Store.put]
  rw [if_neg h]

/-! ### Header -/

theorem putUvarint_length_pos (fuel x : Nat) : 0 < (putUvarint (fuel + 1) x).length := by
  unfold putUvarint
  split <;> simp

theorem putUvarint_length (fuel x : Nat) : (putUvarint fuel x).length ≤ fuel := by
  induction fuel generalizing x with
  | zero => simp [putUvarint]
  | succ fuel ih =>
    unfold putUvarint
    split
    · simp
    · simp only [List.length_cons]
      have := ih (x / 128)
      omega

theorem uvarint_put (fuel : Nat) (i acc x : Nat) (r : Bytes) (hx : x < 128 ^ fuel) (hi : i + fuel ≤ 9) (hf : 0 < fuel) :
    uvarintAux i acc (putUvarint fuel x ++ r) = some (acc + x * 2 ^ (7 * i), i + (putUvarint fuel x).length) := by
  induction fuel generalizing i acc x with
  | zero => omega
  | succ fuel ih =>
    unfold putUvarint
    by_cases h : x < 128
    · rw [if_pos h]
      simp only [List.cons_append, List.nil_append, uvarintAux]
      rw [toNat_ofNat (by omega), if_neg (by omega), if_pos h, if_neg (by omega)]
      rfl
    · rw [if_neg h]
      simp only [List.cons_append, uvarintAux]
      rw [toNat_ofNat (by omega), if_neg (by omega), if_neg (by omega)]
      have hf' : 0 < fuel := by
        cases fuel with
        | zero => simp at hx; omega
        | succ n => omega
      rw [ih (i + 1) _ (x / 128) (by
        rw [Nat.pow_succ] at hx
        exact Nat.div_lt_of_lt_mul (by omega)) (by omega) hf']
      have e : 2 ^ (7 * (i + 1)) = 128 * 2 ^ (7 * i) := by
        rw [show 7 * (i + 1) = 7 * i + 7 by omega, Nat.pow_add, Nat.mul_comm]
      rw [e, show (x % 128 + 128) % 128 = x % 128 by omega]
      congr 1
      rw [Prod.mk.injEq]
      constructor
      · rw [Nat.add_assoc, ← Nat.mul_assoc, ← Nat.add_mul]
        congr 2
        omega
      · simp only [List.length_cons]
        omega

theorem uvarint_header {n : Nat} (h : n < 65535) (r : Bytes) :
    uvarint (putUvarint 3 n ++ r) = some (n, (putUvarint 3 n).length) := by
  unfold uvarint
  rw [uvarint_put 3 0 0 n r (by omega) (by omega) (by omega)]
  simp

/-! ### Parts -/

/-- The stored parts of a blob. -/
def Holds (max : Nat) (s : Store) (set key : Str) (b : Bytes) : Prop :=
  total max b < 65535 ∧ ∀ i < total max b,
    s set (partKey key i) = some (((putUvarint 3 (total max b - 1) ++ b).drop (i * max)).take max)

theorem total_pos {max : Nat} (hm : 0 < max) (b : Bytes) : 0 < total max b := by
  unfold total
  exact Nat.div_pos (by omega) hm

theorem total_fits {max : Nat} (hm : 0 < max) (b : Bytes) :
    (putUvarint 3 (total max b - 1) ++ b).length ≤ total max b * max := by
  have h1 := putUvarint_length 3 (total max b - 1)
  rw [List.length_append]
  have : b.length + 3 ≤ total max b * max := by
    unfold total
    have := Nat.div_add_mod (b.length + 3 + max - 1) max
    have h2 := Nat.mod_lt (b.length + 3 + max - 1) hm
    rw [Nat.mul_comm] at this
    omega
  omega

theorem total_tight {max : Nat} (hm : 0 < max) (b : Bytes) : 65535 ≤ total max b ↔ 65534 * max < b.length + 3 := by
  unfold total
  rw [Nat.le_div_iff_mul_le hm]
  omega

theorem setParts_other {max : Nat} {f : Nat → Bool} {late : Bool} {set key : Str} {c i : Nat} {b2 : Bytes} {s : Store}
    {set' key' : Str} (h : ∀ j, i ≤ j → j < i + c → ¬(set' = set ∧ key' = partKey key j)) :
    (setParts max f late set key c i b2 s).1 set' key' = s set' key' := by
  induction c generalizing i b2 s with
  | zero => rfl
  | succ c ih =>
    unfold setParts
    split
    · rw [ih (fun j h1 h2 => h j (by omega) (by omega))]
      exact put_ne (h i (by omega) (by omega))
    · dsimp only; split
      · exact put_ne (h i (by omega) (by omega))
      · rfl

theorem setParts_parts {K : Str → Prop} (hK : Separate K) {max : Nat} {f : Nat → Bool} {late : Bool} {set key : Str} (hk : K key)
    {c i : Nat} {b2 : Bytes} {s : Store} (hok : (setParts max f late set key c i b2 s).2 = true) (j : Nat) (hj : j < c) :
    (setParts max f late set key c i b2 s).1 set (partKey key (i + j)) = some ((b2.drop (j * max)).take max) := by
  induction c generalizing i b2 s j with
  | zero => omega
  | succ c ih =>
    unfold setParts at hok ⊢
    split at hok
    · rename_i hf
      rw [if_pos hf]
      cases j with
      | zero =>
        rw [setParts_other]
        · simp [put_same]
        · intro j h1 h2 ⟨_, h3⟩
          have := (partKey_inj hK hk hk h3).2
          omega
      | succ j =>
        have := ih hok j (by omega)
        rw [show i + (j + 1) = i + 1 + j by omega, this, List.drop_drop]
        congr 3
        rw [Nat.succ_mul]
        omega
    · simp at hok

theorem deleteExtra_other {g : Nat → Bool} {set key : Str} {c i : Nat} {s : Store} {set' key' : Str}
    (h : ∀ j, i ≤ j → j < i + c → ¬(set' = set ∧ key' = extKey key (j - 1))) :
    deleteExtra g set key c i s set' key' = s set' key' := by
  induction c generalizing i s with
  | zero => rfl
  | succ c ih =>
    unfold deleteExtra
    rw [ih (fun j h1 h2 => h j (by omega) (by omega))]
    split
    · exact put_ne (h i (by omega) (by omega))
    · rfl

theorem deleteParts_other {f : Nat → Bool} {late : Bool} {set key : Str} {c i : Nat} {s : Store} {set' key' : Str}
    (h : ∀ j, i ≤ j → j < i + c → ¬(set' = set ∧ key' = partKey key j)) :
    (deleteParts f late set key c i s).1 set' key' = s set' key' := by
  induction c generalizing i s with
  | zero => rfl
  | succ c ih =>
    unfold deleteParts
    split
    · rw [ih (fun j h1 h2 => h j (by omega) (by omega))]
      exact put_ne (h i (by omega) (by omega))
    · dsimp only; split
      · exact put_ne (h i (by omega) (by omega))
      · rfl

theorem deleteParts_parts {K : Str → Prop} (hK : Separate K) {f : Nat → Bool} {late : Bool} {set key : Str} (hk : K key)
    {c i : Nat} {s : Store} (hok : (deleteParts f late set key c i s).2 = true) (j : Nat) (hj : j < c) :
    (deleteParts f late set key c i s).1 set (partKey key (i + j)) = none := by
  induction c generalizing i s j with
  | zero => omega
  | succ c ih =>
    unfold deleteParts at hok ⊢
    split at hok
    · rename_i hf
      rw [if_pos hf]
      cases j with
      | zero =>
        rw [deleteParts_other]
        · simp [put_same]
        · intro j h1 h2 ⟨_, h3⟩
          have := (partKey_inj hK hk hk h3).2
          omega
      | succ j =>
        have := ih hok j (by omega)
        rw [show i + (j + 1) = i + 1 + j by omega, this]
    · simp at hok

theorem getParts_holds {max : Nat} {f : Nat → Bool} {s : Store} {set key : Str} {b2 : Bytes} {c i : Nat} {acc : Bytes}
    (h : ∀ j, i ≤ j → j < i + c → s set (extKey key j) = some ((b2.drop ((j + 1) * max)).take max))
    (hl : b2.length ≤ (i + c + 1) * max) :
    getParts f s set key c i acc = .ok (acc ++ b2.drop ((i + 1) * max)) ∨
      getParts f s set key c i acc = .error .store := by
  induction c generalizing i acc with
  | zero =>
    left
    unfold getParts
    rw [List.drop_eq_nil_of_le (by simpa using hl), List.append_nil]
  | succ c ih =>
    unfold getParts
    split
    · rw [h i (by omega) (by omega)]
      dsimp only
      rcases ih (i := i + 1) (acc := acc ++ (b2.drop ((i + 1) * max)).take max)
          (fun j h1 h2 => h j (by omega) (by omega))
          (by rw [show i + 1 + c + 1 = i + (c + 1) + 1 by omega]; exact hl) with e | e
      · left
        rw [e, List.append_assoc]
        congr 2
        rw [show (i + 1 + 1) * max = (i + 1) * max + max by rw [Nat.succ_mul]]
        rw [← List.drop_drop]
        exact List.take_append_drop max _
      · right; exact e
    · right; rfl

theorem get_holds {max : Nat} (hm : 3 ≤ max) {f : Nat → Bool} {st : State} {set key : Str} {b : Bytes}
    (h : Holds max st.store set key b) :
    (get f st set key).2 = .ok b ∨ (get f st set key).2 = .error .store := by
  obtain ⟨ht, hp⟩ := h
  have hpos := total_pos (show 0 < max by omega) b
  have hfit := total_fits (show 0 < max by omega) b
  have hhdr := putUvarint_length 3 (total max b - 1)
  have h0 := hp 0 hpos
  unfold get
  split
  · simp only [partKey, if_pos, Nat.zero_mul, List.drop_zero] at h0
    rw [h0]
    dsimp only
    have e : (putUvarint 3 (total max b - 1) ++ b).take max =
        putUvarint 3 (total max b - 1) ++ b.take (max - (putUvarint 3 (total max b - 1)).length) := by
      rw [List.take_append, List.take_of_length_le (by omega)]
    rw [e, uvarint_header (by omega)]
    dsimp only
    split
    · rename_i hz
      left
      dsimp only
      rw [List.drop_left']
      · congr 1
        rw [List.length_append] at hfit
        rw [show total max b = 1 by omega] at hfit
        rw [List.take_of_length_le]
        rw [show total max b = 1 by omega]
        omega
      · rfl
    · dsimp only
      rw [← e]
      rcases getParts_holds (f := f) (s := st.store) (set := set) (key := key) (max := max) (c := total max b - 1)
          (i := 0) (b2 := putUvarint 3 (total max b - 1) ++ b)
          (acc := ((putUvarint 3 (total max b - 1) ++ b).take max).drop (putUvarint 3 (total max b - 1)).length)
          (fun j _ h2 => by
            have := hp (j + 1) (by omega)
            simpa [partKey] using this)
          (by rw [show 0 + (total max b - 1) + 1 = total max b by omega]; exact hfit) with e2 | e2
      · left
        rw [e2]
        congr 1
        have : ((putUvarint 3 (total max b - 1) ++ b).take max).drop (putUvarint 3 (total max b - 1)).length ++
            (putUvarint 3 (total max b - 1) ++ b).drop ((0 + 1) * max) =
            ((putUvarint 3 (total max b - 1) ++ b).take max ++
              (putUvarint 3 (total max b - 1) ++ b).drop max).drop (putUvarint 3 (total max b - 1)).length := by
          rw [Nat.zero_add, Nat.one_mul]
          refine (List.drop_append_of_le_length ?_).symm
          rw [e]; simp
        rw [this, List.take_append_drop, List.drop_left']
        rfl
      · right; exact e2
  · right; rfl

/-! ### Calls and keys -/

/-- The store of the state holds what is known. -/
def Rep (max : Nat) (st : State) (s k : Str) : Known → Prop
  | .unknown => True
  | .is none => st.store s k = none
  | .is (some b) => Holds max st.store s k b

/-- Parts of other keys are not touched. -/
def SameParts (st st' : State) (s k : Str) : Prop := ∀ i, st'.store s (partKey k i) = st.store s (partKey k i)

theorem rep_same {max : Nat} {st st' : State} {s k : Str} {v : Known} (h : SameParts st st' s k) (hr : Rep max st s k v) :
    Rep max st' s k v := by
  cases v with
  | unknown => trivial
  | is b =>
    cases b with
    | none =>
      have := h 0
      simp only [partKey, if_pos] at this
      exact this.trans hr
    | some b => exact ⟨hr.1, fun i hi => (h i).trans (hr.2 i hi)⟩

theorem get_store (f : Nat → Bool) (st : State) (s k : Str) : (get f st s k).1.store = st.store := by
  unfold get
  split
  · split
    · rfl
    · split
      · rfl
      · split <;> rfl
  · rfl

theorem set_store_other {max : Nat} {g f : Nat → Bool} {late : Bool} {st : State} {set' key : Str} {b : Bytes} {s k : Str}
    (h : ∀ j, ¬(s = set' ∧ k = partKey key j)) :
    (set max g f late st set' key b).1.store s k = st.store s k := by
  unfold set
  split
  · rfl
  · dsimp only
    have : ∀ x : Store × Bool, ∀ p : Str → Nat,
        (if x.2 = true then (({ store := x.1, parts := p } : State), (Except.ok () : Except Err Unit))
          else ({ st with store := x.1 }, Except.error Err.store)).1.store = x.1 := by
      intro x p
      split <;> rfl
    rw [this, setParts_other (fun j _ _ => h j)]
    apply deleteExtra_other
    intro j h1 h2 h3
    apply h j
    have hj : j ≠ 0 ∨ j = 0 := by omega
    rcases hj with hj | hj
    · simpa [partKey, hj] using h3
    · exact absurd ⟨h3.1, by subst hj; simpa [partKey] using h3.2⟩ (h 1)

theorem delete_store_other {f : Nat → Bool} {late : Bool} {st : State} {set' key : Str} {s k : Str}
    (h : ∀ j, ¬(s = set' ∧ k = partKey key j)) :
    (delete f late st set' key).1.store s k = st.store s k := by
  have fin : ∀ n, (if (deleteParts f late set' key n 0 st.store).2 = true then
      (({ store := (deleteParts f late set' key n 0 st.store).1, parts := setCount st.parts (mapKey set' key) 0 } : State),
        (Except.ok () : Except Err Unit))
      else ({ st with store := (deleteParts f late set' key n 0 st.store).1 }, Except.error Err.store)).1.store s k =
        st.store s k := by
    intro n
    split <;> exact deleteParts_other (fun j _ _ => h j)
  unfold delete
  dsimp only
  split
  · split
    · split
      · rfl
      · split
        · exact fin _
        · exact fin _
    · rfl
  · exact fin _

theorem set_holds {K : Str → Prop} (hK : Separate K) {max : Nat} {g f : Nat → Bool} {late : Bool} {st : State} {s k : Str} (hk : K k)
    {b : Bytes} (h : (set max g f late st s k b).2 = .ok ()) : Holds max (set max g f late st s k b).1.store s k b := by
  unfold set at h ⊢
  split at h
  · simp at h
  · rename_i ht
    rw [if_neg ht]
    dsimp only at h ⊢
    split at h
    · rename_i hok
      rw [if_pos hok]
      refine ⟨by omega, fun i hi => ?_⟩
      have := setParts_parts hK hk hok i hi
      rwa [Nat.zero_add] at this
    · simp at h

theorem set_tooBig {max : Nat} {g f : Nat → Bool} {late : Bool} {st : State} {s k : Str} {b : Bytes}
    (h : (set max g f late st s k b).2 = .error .tooBig) : (set max g f late st s k b).1 = st := by
  unfold set at h ⊢
  split at h
  · rename_i ht; rw [if_pos ht]
  · dsimp only at h
    split at h <;> simp at h

theorem delete_gone {K : Str → Prop} (hK : Separate K) {f : Nat → Bool} {late : Bool} {st : State} {s k : Str} (hk : K k)
    (hf : f 0 = true) (h : (delete f late st s k).2 = .ok ()) : (delete f late st s k).1.store s k = none := by
  have fin : ∀ n, 0 < n → (if (deleteParts f late s k n 0 st.store).2 = true then
      (({ store := (deleteParts f late s k n 0 st.store).1, parts := setCount st.parts (mapKey s k) 0 } : State),
        (Except.ok () : Except Err Unit))
      else ({ st with store := (deleteParts f late s k n 0 st.store).1 }, Except.error Err.store)).2 = .ok () →
      (if (deleteParts f late s k n 0 st.store).2 = true then
      (({ store := (deleteParts f late s k n 0 st.store).1, parts := setCount st.parts (mapKey s k) 0 } : State),
        (Except.ok () : Except Err Unit))
      else ({ st with store := (deleteParts f late s k n 0 st.store).1 }, Except.error Err.store)).1.store s k = none := by
    intro n hn he
    split at he
    · rename_i hok
      rw [if_pos hok]
      exact deleteParts_parts hK hk hok 0 hn
    · simp at he
  unfold delete at h ⊢
  dsimp only at h ⊢
  split at h
  · rename_i hp
    rw [if_pos hp]
    rw [if_pos hf]
    split at h
    · rename_i hn
      exact hn
    · rename_i b hb
      split at h
      · exact fin _ (by omega) h
      · exact fin _ (by omega) h
  · rename_i hp
    rw [if_neg hp]
    exact fin _ (by omega) h

theorem step_rep {K : Str → Prop} (hK : Separate K) {max : Nat} {st : State} {o : Op} (ho : ∀ k, opKey o = some k → K k)
    {s k : Str} (hk : K k) {v : Known} (hr : Rep max st s k v) :
    Rep max (step max st o).1 s k (after v s k (o, (step max st o).2)) := by
  have other : ∀ {s' k' : Str}, K k' → ¬(s' = s ∧ k' = k) → ∀ i j, ¬(s = s' ∧ partKey k i = partKey k' j) := by
    intro s' k' hk' hne i j ⟨h1, h2⟩
    exact hne ⟨h1.symm, (partKey_inj hK hk hk' h2).1.symm⟩
  cases o with
  | restart => exact rep_same (fun i => rfl) hr
  | get f s' k' => exact rep_same (fun i => by simp only [step, get_store]) hr
  | set g f late s' k' b =>
    have hk' : K k' := ho k' rfl
    unfold step after
    dsimp only
    split
    · rename_i he
      obtain ⟨rfl, rfl⟩ := he
      split
      · rename_i r hres
        exact set_holds hK hk hres
      · rename_i hres
        rw [set_tooBig hres]
        exact hr
      · trivial
    · rename_i hne
      exact rep_same (fun i => set_store_other (other hk' hne i)) hr
  | delete f late s' k' =>
    have hk' : K k' := ho k' rfl
    unfold step after
    dsimp only
    split
    · rename_i he
      obtain ⟨rfl, rfl⟩ := he
      split
      · rename_i r hres
        split
        · rename_i hf
          exact delete_gone hK hk hf hres
        · trivial
      · trivial
    · rename_i hne
      exact rep_same (fun i => delete_store_other (other hk' hne i)) hr

theorem get_rep {max : Nat} (hm : 3 ≤ max) {st : State} {s k : Str} {v : Known} (hr : Rep max st s k v)
    (f : Nat → Bool) : Answers v (get f st s k).2 := by
  cases v with
  | unknown => trivial
  | is b =>
    cases b with
    | some b => exact get_holds hm hr
    | none =>
      show (get f st s k).2 = .error .notFound ∨ (get f st s k).2 = .error .store
      have hr : st.store s k = none := hr
      unfold get
      split
      · rw [hr]; left; rfl
      · right; rfl

theorem run_append (max : Nat) (st : State) (os os' : List Op) :
    run max st (os ++ os') = run max st os ++ run max (final max st os) os' := by
  induction os generalizing st with
  | nil => rfl
  | cons o os ih => simp only [List.cons_append, run, final, List.foldl_cons, ih]

theorem run_rep {K : Str → Prop} (hK : Separate K) {max : Nat} {s k : Str} (hk : K k) (os : List Op) (st : State)
    (v : Known) (ho : ∀ o ∈ os, ∀ k, opKey o = some k → K k) (hr : Rep max st s k v) :
    Rep max (final max st os) s k ((run max st os).foldl (fun v e => after v s k e) v) := by
  induction os generalizing st v with
  | nil => exact hr
  | cons o os ih =>
    simp only [final, run, List.foldl_cons]
    exact ih _ _ (fun o' h => ho o' (List.mem_cons_of_mem _ h)) (step_rep hK (ho o (List.mem_cons_self ..)) hk hr)

/-! ### Sizes -/

def Small (max : Nat) (s : Store) : Prop := ∀ set key b, s set key = some b → b.length ≤ max

theorem small_put {max : Nat} {s : Store} (h : Small max s) (set key : Str) (b : Option Bytes)
    (hb : ∀ x, b = some x → x.length ≤ max) : Small max (s.put set key b) := by
  intro set' key' x hx
  unfold Store.put at hx
  split at hx
  · exact hb x hx
  · exact h _ _ x hx

theorem small_setParts {max : Nat} (f : Nat → Bool) (late : Bool) (set key : Str) (c i : Nat) (b2 : Bytes) (s : Store)
    (h : Small max s) : Small max (setParts max f late set key c i b2 s).1 := by
  induction c generalizing i b2 s with
  | zero => exact h
  | succ c ih =>
    unfold setParts
    split
    · apply ih
      apply small_put h
      intro x hx
      simp only [Option.some.injEq] at hx
      subst hx
      simp only [List.length_take]
      omega
    · dsimp only; split
      · apply small_put h
        intro x hx
        simp only [Option.some.injEq] at hx
        subst hx
        simp only [List.length_take]
        omega
      · exact h

theorem small_deleteExtra {max : Nat} (g : Nat → Bool) (set key : Str) (c i : Nat) (s : Store)
    (h : Small max s) : Small max (deleteExtra g set key c i s) := by
  induction c generalizing i s with
  | zero => exact h
  | succ c ih =>
    unfold deleteExtra
    apply ih
    split
    · exact small_put h _ _ _ (by simp)
    · exact h

theorem small_deleteParts {max : Nat} (f : Nat → Bool) (late : Bool) (set key : Str) (c i : Nat) (s : Store)
    (h : Small max s) : Small max (deleteParts f late set key c i s).1 := by
  induction c generalizing i s with
  | zero => exact h
  | succ c ih =>
    unfold deleteParts
    split
    · exact ih _ _ (small_put h _ _ _ (by simp))
    · dsimp only; split
      · exact small_put h _ _ _ (by simp)
      · exact h

theorem small_step {max : Nat} (st : State) (o : Op) (h : Small max st.store) : Small max (step max st o).1.store := by
  cases o with
  | restart => exact h
  | get f s k => simp only [step, get_store]; exact h
  | set g f late s k b =>
    unfold step set
    dsimp only
    split
    · exact h
    · split
      · exact small_setParts _ _ _ _ _ _ _ _ (small_deleteExtra _ _ _ _ _ _ h)
      · exact small_setParts _ _ _ _ _ _ _ _ (small_deleteExtra _ _ _ _ _ _ h)
  | delete f late s k =>
    unfold step delete
    dsimp only
    split
    · split
      · split
        · exact h
        · split
          · split <;> exact small_deleteParts _ _ _ _ _ _ _ h
          · split <;> exact small_deleteParts _ _ _ _ _ _ _ h
      · exact h
    · split <;> exact small_deleteParts _ _ _ _ _ _ _ h

/-! ### Nothing is left over -/

/-- Calls on keys of `P`, none of whose operations on the store below fails, and no restart. -/
def Clean (P : Str → Str → Prop) : Op → Prop
  | .get f s k => (∀ i, f i = true) ∧ P s k
  | .set g f _ s k _ => (∀ i, g i = true) ∧ (∀ i, f i = true) ∧ P s k
  | .delete f _ s k => (∀ i, f i = true) ∧ P s k
  | .restart => False

/-- The number of parts of what is known. -/
def count (max : Nat) : Known → Nat
  | .unknown => 0
  | .is none => 0
  | .is (some b) => total max b

/-- The entry in the cache for this number of parts. -/
def cached (n : Nat) : Nat := if n = 1 then 0 else n

/-- All parts of a key and its entry in the cache are as determined by what is known. -/
def Exact (max : Nat) (st : State) (s k : Str) (v : Known) : Prop :=
  (v = .unknown → False) ∧ Rep max st s k v ∧ (∀ i, count max v ≤ i → st.store s (partKey k i) = none) ∧
    st.parts (mapKey s k) = cached (count max v)

theorem deleteExtra_gone {g : Nat → Bool} {set key : Str} {c i : Nat} {s : Store} (hg : ∀ i, g i = true) (j : Nat)
    (h1 : i ≤ j) (h2 : j < i + c) : deleteExtra g set key c i s set (extKey key (j - 1)) = none := by
  induction c generalizing i s with
  | zero => omega
  | succ c ih =>
    unfold deleteExtra
    rw [if_pos (hg i)]
    by_cases hj : j = i
    · by_cases hz : ∃ j', i + 1 ≤ j' ∧ j' < i + 1 + c ∧ j' - 1 = j - 1
      · obtain ⟨j', a, b, e⟩ := hz
        have : j' = 1 ∧ i = 0 := by omega
        clear ih
        rw [← e]
        induction c generalizing i s with
        | zero => omega
        | succ c ih2 =>
          unfold deleteExtra
          rw [if_pos (hg (i + 1))]
          subst hj
          rw [e]
          have e3 : extKey key (j - 1) = extKey key (j + 1 - 1) := by rw [show j - 1 = j + 1 - 1 by omega]
          rw [deleteExtra_other]
          · rw [e3, put_same]
          · intro m m1 m2 m3
            have := (extKey_inj m3.2).2
            omega
      · rw [deleteExtra_other]
        · rw [hj, put_same]
        · intro m m1 m2 m3
          exact hz ⟨m, m1, m2, ((extKey_inj m3.2).2).symm⟩
    · exact ih (by omega) (by omega)

theorem setParts_ok {max : Nat} {f : Nat → Bool} {late : Bool} (hf : ∀ i, f i = true) (set key : Str) (c i : Nat) (b2 : Bytes)
    (s : Store) : (setParts max f late set key c i b2 s).2 = true := by
  induction c generalizing i b2 s with
  | zero => rfl
  | succ c ih => unfold setParts; rw [if_pos (hf i)]; exact ih _ _ _

theorem deleteParts_ok {f : Nat → Bool} {late : Bool} (hf : ∀ i, f i = true) (set key : Str) (c i : Nat)
    (s : Store) : (deleteParts f late set key c i s).2 = true := by
  induction c generalizing i s with
  | zero => rfl
  | succ c ih => unfold deleteParts; rw [if_pos (hf _)]; exact ih _ _

theorem set_parts_other {max : Nat} {g f : Nat → Bool} {late : Bool} {st : State} {s' k' : Str} {b : Bytes} {m : Str}
    (h : m ≠ mapKey s' k') : (set max g f late st s' k' b).1.parts m = st.parts m := by
  unfold set
  split
  · rfl
  · dsimp only
    split
    · simp [setCount, h]
    · rfl

theorem get_parts_other {f : Nat → Bool} {st : State} {s' k' : Str} {m : Str}
    (h : m ≠ mapKey s' k') : (get f st s' k').1.parts m = st.parts m := by
  unfold get
  split
  · split
    · rfl
    · split
      · rfl
      · split <;> simp [setCount, h]
  · rfl

theorem delete_parts_other {f : Nat → Bool} {late : Bool} {st : State} {s' k' : Str} {m : Str}
    (h : m ≠ mapKey s' k') : (delete f late st s' k').1.parts m = st.parts m := by
  have fin : ∀ n, (if (deleteParts f late s' k' n 0 st.store).2 = true then
      (({ store := (deleteParts f late s' k' n 0 st.store).1, parts := setCount st.parts (mapKey s' k') 0 } : State),
        (Except.ok () : Except Err Unit))
      else ({ st with store := (deleteParts f late s' k' n 0 st.store).1 }, Except.error Err.store)).1.parts m =
        st.parts m := by
    intro n
    split <;> simp [setCount, h]
  unfold delete
  dsimp only
  split
  · split
    · split
      · rfl
      · split
        · exact fin _
        · exact fin _
    · rfl
  · exact fin _

theorem exact_same {max : Nat} {st st' : State} {s k : Str} {v : Known} (h : SameParts st st' s k)
    (hp : st'.parts (mapKey s k) = st.parts (mapKey s k)) (hr : Exact max st s k v) : Exact max st' s k v :=
  ⟨hr.1, rep_same h hr.2.1, fun i hi => (h i).trans (hr.2.2.1 i hi), hp.trans hr.2.2.2⟩

/-- The header of a blob that is held. -/
theorem header_holds {max : Nat} (hm : 3 ≤ max) {s : Store} {set key : Str} {b : Bytes}
    (h : Holds max s set key b) : ∃ x, s set key = some x ∧ ∃ z, uvarint x = some (total max b - 1, z) := by
  obtain ⟨ht, hp⟩ := h
  have hpos := total_pos (show 0 < max by omega) b
  have hhdr := putUvarint_length 3 (total max b - 1)
  have h0 := hp 0 hpos
  simp only [partKey, if_pos, Nat.zero_mul, List.drop_zero] at h0
  refine ⟨_, h0, (putUvarint 3 (total max b - 1)).length, ?_⟩
  rw [List.take_append, List.take_of_length_le (by omega), uvarint_header (by omega)]

theorem exact_step {P : Str → Str → Prop} (hK : Separate (fun k => ∃ s, P s k))
    (hinj : ∀ s k s' k', P s k → P s' k' → mapKey s k = mapKey s' k' → s = s' ∧ k = k')
    {max : Nat} (hm : 3 ≤ max) {st : State} {o : Op} (ho : Clean P o) {s k : Str} (hk : P s k) {v : Known}
    (hr : Exact max st s k v) :
    Exact max (step max st o).1 s k (after v s k (o, (step max st o).2)) := by
  have other : ∀ {s' k' : Str}, P s' k' → ¬(s' = s ∧ k' = k) → ∀ i j, ¬(s = s' ∧ partKey k i = partKey k' j) := by
    intro s' k' hk' hne i j ⟨h1, h2⟩
    exact hne ⟨h1.symm, (partKey_inj hK ⟨s, hk⟩ ⟨s', hk'⟩ h2).1.symm⟩
  have mk : ∀ {s' k' : Str}, P s' k' → ¬(s' = s ∧ k' = k) → mapKey s k ≠ mapKey s' k' := by
    intro s' k' hk' hne h
    obtain ⟨h1, h2⟩ := hinj _ _ _ _ hk hk' h
    exact hne ⟨h1.symm, h2.symm⟩
  cases o with
  | restart => exact absurd ho (by simp [Clean])
  | get f s' k' =>
    obtain ⟨hf, hk'⟩ := ho
    by_cases he : s' = s ∧ k' = k
    · obtain ⟨rfl, rfl⟩ := he
      refine ⟨hr.1, rep_same (fun i => by simp only [step, get_store]) hr.2.1,
        fun i hi => by simp only [step, get_store]; exact hr.2.2.1 i hi, ?_⟩
      show (get f st s' k').1.parts _ = _
      simp only [after]
      unfold get
      rw [if_pos (hf 0)]
      cases v with
      | unknown => exact absurd rfl hr.1
      | is b =>
        cases b with
        | none =>
          have : st.store s' k' = none := hr.2.1
          rw [this]
          exact hr.2.2.2
        | some b =>
          have hh : Holds max st.store s' k' b := hr.2.1
          obtain ⟨x, h1, z, h2⟩ := header_holds hm hh
          have hpos := total_pos (show 0 < max by omega) b
          rw [h1]
          dsimp only
          rw [h2]
          dsimp only
          split
          · rename_i h0
            show setCount st.parts (mapKey s' k') 0 (mapKey s' k') = cached (total max b)
            rw [show total max b = 1 by omega]
            simp [setCount, cached]
          · rename_i h0
            show setCount st.parts (mapKey s' k') (total max b - 1 + 1) (mapKey s' k') = cached (total max b)
            simp only [setCount, if_pos]
            unfold cached
            split <;> omega
    · exact exact_same (fun i => by simp only [step, get_store]) (get_parts_other (mk hk' he)) hr
  | set g f late s' k' b =>
    obtain ⟨hg, hf, hk'⟩ := ho
    by_cases he : s' = s ∧ k' = k
    · obtain ⟨rfl, rfl⟩ := he
      have hpos := total_pos (show 0 < max by omega) b
      by_cases ht : 65535 ≤ total max b
      · have e : set max g f late st s' k' b = (st, .error .tooBig) := by
          unfold set
          rw [if_pos ht]
        simp only [step, after, e]
        simp only [and_self, if_true]
        exact hr
      · have hok := setParts_ok (max := max) (late := late) hf s' k' (total max b) 0 (putUvarint 3 (total max b - 1) ++ b)
          (deleteExtra g s' k' (st.parts (mapKey s' k') - total max b) (total max b) st.store)
        have e : set max g f late st s' k' b =
            ({ store := (setParts max f late s' k' (total max b) 0 (putUvarint 3 (total max b - 1) ++ b)
                (deleteExtra g s' k' (st.parts (mapKey s' k') - total max b) (total max b) st.store)).1
               parts := setCount st.parts (mapKey s' k') (if total max b = 1 then 0 else total max b) }, .ok ()) := by
          unfold set
          rw [if_neg ht]
          dsimp only
          rw [if_pos hok]
        have hh := set_holds hK (max := max) (g := g) (f := f) (late := late) (st := st) (s := s') (k := k') ⟨s', hk'⟩ (b := b)
          (by rw [e])
        simp only [step, after]
        simp only [and_self, if_true]
        rw [e] at hh ⊢
        dsimp only at hh ⊢
        refine ⟨by simp, hh, ?_, by simp only [setCount, if_true]; rfl⟩
        intro i hi
        simp only [count] at hi
        dsimp only
        rw [setParts_other (by
          intro j h1 h2 h3
          have := (partKey_inj hK ⟨s', hk'⟩ ⟨s', hk'⟩ h3.2).2
          omega)]
        have hpk : partKey k' i = extKey k' (i - 1) := by
          unfold partKey
          rw [if_neg (by omega)]
        by_cases hin : i < total max b + (st.parts (mapKey s' k') - total max b)
        · rw [hpk]
          exact deleteExtra_gone hg i hi hin
        · rw [deleteExtra_other (by
            intro j h1 h2 h3
            rw [hpk] at h3
            have := (extKey_inj h3.2).2
            omega)]
          apply hr.2.2.1
          have := hr.2.2.2
          unfold cached at this
          split at this <;> omega
    · refine exact_same (st := st) ?_ ?_ ?_
      · exact fun i => set_store_other (other hk' he i)
      · exact set_parts_other (mk hk' he)
      · simp only [step, after]
        rw [if_neg he]
        exact hr
  | delete f late s' k' =>
    obtain ⟨hf, hk'⟩ := ho
    by_cases he : s' = s ∧ k' = k
    · obtain ⟨rfl, rfl⟩ := he
      have fin : ∀ n, count max v ≤ n →
          Exact max { store := (deleteParts f late s' k' n 0 st.store).1, parts := setCount st.parts (mapKey s' k') 0 }
            s' k' (.is none) := by
        intro n hn
        have hgone : ∀ i, (deleteParts f late s' k' n 0 st.store).1 s' (partKey k' i) = none := by
          intro i
          by_cases hi : i < n
          · have := deleteParts_parts hK ⟨s', hk'⟩ (deleteParts_ok (late := late) hf s' k' n 0 st.store) i hi
            rwa [Nat.zero_add] at this
          · rw [deleteParts_other (by
              intro j h1 h2 h3
              have := (partKey_inj hK ⟨s', hk'⟩ ⟨s', hk'⟩ h3.2).2
              omega)]
            exact hr.2.2.1 i (by omega)
        refine ⟨by simp, ?_, fun i _ => hgone i, by simp [setCount, count, cached]⟩
        exact hgone 0
      have hd : ∃ st', delete f late st s' k' = (st', .ok ()) ∧ Exact max st' s' k' (.is none) := by
        unfold delete
        dsimp only
        split
        · rename_i hp
          rw [if_pos (hf 0)]
          cases v with
          | unknown => exact absurd rfl hr.1
          | is b =>
            cases b with
            | none =>
              have : st.store s' k' = none := hr.2.1
              rw [this]
              exact ⟨st, rfl, hr⟩
            | some b =>
              have hh : Holds max st.store s' k' b := hr.2.1
              obtain ⟨x, h1, z, h2⟩ := header_holds hm hh
              rw [h1]
              dsimp only
              rw [h2]
              dsimp only
              rw [if_pos (deleteParts_ok hf _ _ _ _ _)]
              exact ⟨_, rfl, fin _ (by simp only [count]; omega)⟩
        · rename_i hp
          rw [if_pos (deleteParts_ok hf _ _ _ _ _)]
          refine ⟨_, rfl, fin _ ?_⟩
          have := hr.2.2.2
          unfold cached at this
          split at this <;> omega
      obtain ⟨st', e, hx⟩ := hd
      simp only [step, after, e]
      simp only [and_self, if_true, hf 0]
      exact hx
    · refine exact_same (st := st) ?_ ?_ ?_
      · exact fun i => delete_store_other (other hk' he i)
      · exact delete_parts_other (mk hk' he)
      · simp only [step, after]
        rw [if_neg he]
        exact hr

/-- Other keys stay empty. -/
theorem other_step {P : Str → Str → Prop} {max : Nat} {st : State} {o : Op} (ho : Clean P o) {s k : Str}
    (hk : ∀ k' i, P s k' → k ≠ partKey k' i) (hr : st.store s k = none) : (step max st o).1.store s k = none := by
  cases o with
  | restart => exact hr
  | get f s' k' => simp only [step, get_store]; exact hr
  | set g f late s' k' b =>
    exact (set_store_other (fun j h => hk k' j (by rw [h.1]; exact ho.2.2) h.2)).trans hr
  | delete f late s' k' =>
    exact (delete_store_other (fun j h => hk k' j (by rw [h.1]; exact ho.2) h.2)).trans hr

end RankDB.MaxSize

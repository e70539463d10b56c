import Verif.Spec.Access
/-
Property C47: restrictions of access tokens.
-/
namespace RankDB
namespace Access
open Spec

/-- The rest of a string after a part. -/
def Rest (post : Text) : Prop := post = [] ∨ ∃ q, post = ',' :: q

theorem splitComma_spec (s : Text) : ∃ p0 ps, splitComma s = p0 :: ps ∧
    (∀ p, (',' ∉ p ∧ ∃ post, s = p ++ post ∧ Rest post) ↔ p = p0) ∧
    (∀ p, p ∈ ps ↔ ',' ∉ p ∧ ∃ q post, s = q ++ ',' :: (p ++ post) ∧ Rest post) := by
  induction s with
  | nil =>
    refine ⟨[], [], rfl, fun p => ?_, fun p => ?_⟩
    · constructor
      · rintro ⟨_, post, h, _⟩
        have := congrArg List.length h
        simp at this
        exact List.length_eq_zero_iff.1 (by omega)
      · rintro rfl
        exact ⟨by simp, [], rfl, Or.inl rfl⟩
    · simp
  | cons c s ih =>
    obtain ⟨p1, ps1, hs, h1, h2⟩ := ih
    unfold splitComma
    by_cases hc : c = ','
    · subst hc
      rw [if_pos rfl, hs]
      refine ⟨[], p1 :: ps1, rfl, fun p => ?_, fun p => ?_⟩
      · constructor
        · rintro ⟨hp, post, h, _⟩
          cases p with
          | nil => rfl
          | cons a p =>
            simp only [List.cons_append, List.cons.injEq] at h
            exact absurd (by rw [h.1]; simp) hp
        · rintro rfl
          exact ⟨by simp, ',' :: s, rfl, Or.inr ⟨s, rfl⟩⟩
      · rw [List.mem_cons, ← h1, h2]
        constructor
        · rintro (⟨hp, post, h, hr⟩ | ⟨hp, q, post, h, hr⟩)
          · exact ⟨hp, [], post, by rw [h]; rfl, hr⟩
          · exact ⟨hp, ',' :: q, post, by rw [h]; rfl, hr⟩
        · rintro ⟨hp, q, post, h, hr⟩
          cases q with
          | nil =>
            simp only [List.nil_append, List.cons.injEq, true_and] at h
            exact Or.inl ⟨hp, post, h, hr⟩
          | cons a q =>
            simp only [List.cons_append, List.cons.injEq] at h
            exact Or.inr ⟨hp, q, post, h.2, hr⟩
    · rw [if_neg hc, hs]
      refine ⟨c :: p1, ps1, rfl, fun p => ?_, fun p => ?_⟩
      · constructor
        · rintro ⟨hp, post, h, hr⟩
          cases p with
          | nil =>
            rcases hr with rfl | ⟨q, rfl⟩
            · simp at h
            · simp only [List.nil_append, List.cons.injEq] at h
              exact absurd h.1 hc
          | cons a p =>
            simp only [List.cons_append, List.cons.injEq] at h
            have := (h1 p).1 ⟨fun h' => hp (by simp [h']), post, h.2, hr⟩
            rw [← h.1, this]
        · rintro rfl
          obtain ⟨hp, post, h, hr⟩ := (h1 p1).2 rfl
          refine ⟨?_, post, by rw [h]; rfl, hr⟩
          simp only [List.mem_cons, not_or]
          exact ⟨Ne.symm hc, hp⟩
      · rw [h2]
        constructor
        · rintro ⟨hp, q, post, h, hr⟩
          exact ⟨hp, c :: q, post, by rw [h]; rfl, hr⟩
        · rintro ⟨hp, q, post, h, hr⟩
          cases q with
          | nil =>
            simp only [List.nil_append, List.cons.injEq] at h
            exact absurd h.1 hc
          | cons a q =>
            simp only [List.cons_append, List.cons.injEq] at h
            exact ⟨hp, q, post, h.2, hr⟩

theorem mem_splitComma (val p : Text) : p ∈ splitComma val ↔ IsPart val p := by
  obtain ⟨p0, ps, hs, h1, h2⟩ := splitComma_spec val
  rw [hs, List.mem_cons, ← h1, h2]
  constructor
  · rintro (⟨hp, post, h, hr⟩ | ⟨hp, q, post, h, hr⟩)
    · exact ⟨hp, [], post, h, Or.inl rfl, hr⟩
    · exact ⟨hp, q ++ [','], post, by rw [h]; simp, Or.inr ⟨q, rfl⟩, hr⟩
  · rintro ⟨hp, pre, post, h, rfl | ⟨q, rfl⟩, hr⟩
    · exact Or.inl ⟨hp, post, h, hr⟩
    · exact Or.inr ⟨hp, q, post, by rw [h]; simp, hr⟩

theorem dropWhile_append_all {α : Type} (p : α → Bool) (l s : List α) (h : ∀ c ∈ l, p c = true) :
    (l ++ s).dropWhile p = s.dropWhile p := by
  induction l with
  | nil => rfl
  | cons a l ih =>
    rw [List.cons_append, List.dropWhile_cons, if_pos (h a (by simp)), ih fun c hc => h c (by simp [hc])]

theorem dropWhile_self {α : Type} (p : α → Bool) (s : List α) (h : ∀ c, s.head? = some c → p c = false) :
    s.dropWhile p = s := by
  cases s with
  | nil => rfl
  | cons a s => rw [List.dropWhile_cons, if_neg (by simp [h a rfl])]

theorem dropWhile_split {α : Type} (p : α → Bool) (s : List α) :
    ∃ l, s = l ++ s.dropWhile p ∧ (∀ c ∈ l, p c = true) ∧ ∀ c, (s.dropWhile p).head? = some c → p c = false := by
  induction s with
  | nil => exact ⟨[], rfl, by simp, by simp⟩
  | cons a s ih =>
    obtain ⟨l, h1, h2, h3⟩ := ih
    by_cases h : p a = true
    · rw [List.dropWhile_cons, if_pos h]
      exact ⟨a :: l, by rw [List.cons_append, ← h1], by simpa [h] using h2, h3⟩
    · rw [List.dropWhile_cons, if_neg h]
      exact ⟨[], rfl, by simp, by simpa using h⟩

theorem isSpace_iff (c : Char) : isSpace c = true ↔ White c := by
  unfold isSpace White whiteSpace
  generalize c.toNat = n
  simp only [Bool.or_eq_true, Bool.and_eq_true, decide_eq_true_eq, beq_iff_eq, List.mem_cons, List.not_mem_nil,
    or_false]
  omega

theorem trimSpace_iff (p t : Text) : trimSpace p = t ↔ IsTrimmed p t := by
  unfold IsTrimmed
  simp only [← isSpace_iff, Bool.not_eq_true]
  constructor
  · rintro rfl
    obtain ⟨l, h1, h2, h3⟩ := dropWhile_split isSpace p
    obtain ⟨r, h4, h5, h6⟩ := dropWhile_split isSpace (p.dropWhile isSpace).reverse
    unfold trimSpace
    have h7 : p.dropWhile isSpace = ((p.dropWhile isSpace).reverse.dropWhile isSpace).reverse ++ r.reverse := by
      rw [← List.reverse_append, ← h4, List.reverse_reverse]
    generalize (p.dropWhile isSpace).reverse.dropWhile isSpace = u at *
    generalize p.dropWhile isSpace = v at *
    refine ⟨l, r.reverse, by rw [List.append_assoc, ← h7]; exact h1, h2, by simpa using h5, ?_, ?_⟩
    · intro c hc
      apply h3
      rw [h7, List.head?_append, hc]
      rfl
    · intro c hc
      apply h6
      rw [← hc, List.getLast?_reverse]
  · rintro ⟨l, r, rfl, hl, hr, h1, h2⟩
    unfold trimSpace
    rw [List.append_assoc, dropWhile_append_all _ _ _ hl]
    cases t with
    | nil =>
      have : r.dropWhile isSpace = [] := by
        have := dropWhile_append_all isSpace r [] hr
        simpa using this
      simp [this]
    | cons a t =>
      rw [dropWhile_self isSpace (a :: t ++ r) (by intro c hc; exact h1 c (by simpa using hc))]
      rw [List.reverse_append, dropWhile_append_all _ _ _ (by simpa using hr)]
      rw [dropWhile_self isSpace _ (by intro c hc; exact h2 c (by rw [← hc, List.head?_reverse])), List.reverse_reverse]

theorem decimal_mono (s : Text) (a : Nat) :
    a ≤ s.foldl (fun n c => n * 10 + (c.toNat - 48)) a := by
  induction s generalizing a with
  | nil => exact Nat.le_refl _
  | cons c s ih =>
    refine Nat.le_trans ?_ (ih _)
    show a ≤ a * 10 + (c.toNat - 48)
    omega

theorem parseDigits_iff (limit : Nat) (s : Text) (acc n : Nat) (hacc : acc ≤ limit) :
    parseDigits limit acc s = some n ↔ (∀ c ∈ s, 48 ≤ c.toNat ∧ c.toNat ≤ 57) ∧
      s.foldl (fun n c => n * 10 + (c.toNat - 48)) acc = n ∧ n ≤ limit := by
  induction s generalizing acc with
  | nil =>
    simp only [parseDigits, Option.some.injEq, List.not_mem_nil, false_imp_iff, implies_true, true_and, List.foldl_nil]
    constructor
    · rintro rfl; exact ⟨rfl, hacc⟩
    · exact fun h => h.1
  | cons c s ih =>
    unfold parseDigits
    have h0 : '0'.toNat = 48 := rfl
    have h9 : '9'.toNat = 57 := rfl
    rw [h0, h9, List.foldl_cons]
    by_cases hc : 48 ≤ c.toNat ∧ c.toNat ≤ 57
    · rw [if_pos hc]
      simp only
      by_cases hl : acc * 10 + (c.toNat - 48) ≤ limit
      · rw [if_pos hl, ih _ hl]
        simp [hc]
      · rw [if_neg hl]
        simp only [reduceCtorEq, false_iff]
        rintro ⟨_, h1, h2⟩
        have := decimal_mono s (acc * 10 + (c.toNat - 48))
        omega
    · rw [if_neg hc]
      simp only [reduceCtorEq, false_iff]
      rintro ⟨h1, _⟩
      exact hc (h1 c (by simp))

theorem parseUint_iff (s : Text) (n : Nat) : parseUint s = some n ↔ IsNumeral s n := by
  unfold parseUint IsNumeral
  by_cases h : s = []
  · simp [h]
  · rw [if_neg h, parseDigits_iff _ _ _ _ (by omega)]
    unfold decimal
    simp only [ne_eq, h, not_false_eq_true, true_and]
    constructor
    · rintro ⟨h1, h2, h3⟩; exact ⟨h1, h2, by omega⟩
    · rintro ⟨h1, h2, h3⟩; exact ⟨h1, h2, by omega⟩

theorem checkAll_ok {α : Type} (g : α → Bool) (ids : List α) :
    checkAll g ids = .ok ↔ ∀ id ∈ ids, g id = true := by
  induction ids with
  | nil => simp [checkAll]
  | cons a ids ih =>
    unfold checkAll
    by_cases h : g a = true
    · rw [if_pos h, ih]; simp [h]
    · rw [if_neg h]; simp [h]

theorem checkAll_denied {α : Type} (g : α → Bool) (ids : List α) (id : α) (h : checkAll g ids = .denied id) :
    id ∈ ids ∧ g id = false := by
  induction ids with
  | nil => simp [checkAll] at h
  | cons a ids ih =>
    unfold checkAll at h
    by_cases hg : g a = true
    · rw [if_pos hg] at h
      exact ⟨List.mem_cons_of_mem _ (ih h).1, (ih h).2⟩
    · rw [if_neg hg] at h
      injection h with h
      subst h
      exact ⟨by simp, by simpa using hg⟩

theorem grants_list (val id : Text) :
    ((splitComma val).any fun p => trimSpace p == id) = true ↔ NamesList val id := by
  rw [List.any_eq_true]
  constructor
  · rintro ⟨p, hp, h⟩
    exact ⟨p, (mem_splitComma _ _).1 hp, (trimSpace_iff _ _).1 (by simpa using h)⟩
  · rintro ⟨p, hp, h⟩
    exact ⟨p, (mem_splitComma _ _).2 hp, by simpa using (trimSpace_iff _ _).2 h⟩

theorem grants_element (val : Text) (id : Nat) :
    ((splitComma val).any fun p => parseUint (trimSpace p) == some id) = true ↔ NamesElement val id := by
  rw [List.any_eq_true]
  constructor
  · rintro ⟨p, hp, h⟩
    exact ⟨p, trimSpace p, (mem_splitComma _ _).1 hp, (trimSpace_iff _ _).1 rfl, (parseUint_iff _ _).1 (by simpa using h)⟩
  · rintro ⟨p, t, hp, h, hn⟩
    refine ⟨p, (mem_splitComma _ _).2 hp, ?_⟩
    rw [(trimSpace_iff _ _).2 h]
    simpa using (parseUint_iff _ _).2 hn

end Access

namespace Props
open Access Spec

/-- A token restricted to lists gives access exactly if every requested list is named in the restriction. -/
theorem C47_restricted_lists (val : Text) (elements : Claim) (ids : List Text) :
    hasAccessToList (.claims (.str val) elements) ids = .ok ↔ ∀ id ∈ ids, NamesList val id := by
  unfold hasAccessToList
  rw [checkAll_ok]
  exact forall_congr' fun id => imp_congr_right fun _ => grants_list val id

/-- If access is denied, the error names a requested list that is not in the restriction. -/
theorem C47_denied_list (val : Text) (elements : Claim) (ids : List Text) (id : Text)
    (h : hasAccessToList (.claims (.str val) elements) ids = .denied id) : id ∈ ids ∧ ¬ NamesList val id := by
  unfold hasAccessToList at h
  have ⟨h1, h2⟩ := checkAll_denied _ _ _ h
  refine ⟨h1, fun h' => ?_⟩
  rw [← grants_list, h2] at h'
  exact Bool.false_ne_true h'

/-- A token restricted to elements gives access exactly if every requested element is named in the
restriction. -/
theorem C47_restricted_elements (val : Text) (lists : Claim) (ids : List Nat) :
    hasAccessToElement (.claims lists (.str val)) ids = .ok ↔ ∀ id ∈ ids, NamesElement val id := by
  unfold hasAccessToElement
  cases lists <;> (
    simp only
    rw [checkAll_ok]
    exact forall_congr' fun id => imp_congr_right fun _ => grants_element val id)

/-- If access is denied, the error names a requested element that is not in the restriction. -/
theorem C47_denied_element (val : Text) (lists : Claim) (ids : List Nat) (id : Nat)
    (h : hasAccessToElement (.claims lists (.str val)) ids = .denied id) : id ∈ ids ∧ ¬ NamesElement val id := by
  have h' : checkAll (fun id => (splitComma val).any fun p => parseUint (trimSpace p) == some id) ids = .denied id := by
    cases lists <;> exact h
  have ⟨h1, h2⟩ := checkAll_denied _ _ _ h'
  refine ⟨h1, fun h3 => ?_⟩
  rw [← grants_element, h2] at h3
  exact Bool.false_ne_true h3

/-- Without a token, without the claim, or with a claim that is not a string, access is granted; a token
with claims that cannot be read gives no access. -/
theorem C47_unrestricted (a b : Claim) (lists : List Text) (ids : List Nat) :
    hasAccessToList .none lists = .ok ∧ hasAccessToElement .none ids = .ok ∧
    hasAccessToList (.claims .absent b) lists = .ok ∧ hasAccessToElement (.claims a .absent) ids = .ok ∧
    hasAccessToList (.claims .other b) lists = .ok ∧ hasAccessToElement (.claims a .other) ids = .ok ∧
    hasAccessToList .unsupported lists ≠ .ok ∧ hasAccessToElement .unsupported ids ≠ .ok := by
  refine ⟨rfl, rfl, rfl, ?_, rfl, ?_, by simp [hasAccessToList], by simp [hasAccessToElement]⟩
  · cases a <;> rfl
  · cases a <;> rfl

/-- The two restrictions are independent. -/
theorem C47_independent (a a' b b' : Claim) (lists : List Text) (ids : List Nat) :
    hasAccessToList (.claims a b) lists = hasAccessToList (.claims a b') lists ∧
    hasAccessToElement (.claims a b) ids = hasAccessToElement (.claims a' b) ids := by
  constructor
  · cases a <;> rfl
  · cases a <;> cases a' <;> cases b <;> rfl

example : hasAccessToList (.claims (.str "l1, l2 ,l 3".toList) .absent) ["l2".toList, "l 3".toList] = .ok ∧
    hasAccessToList (.claims (.str "l1, l2 ,l 3".toList) .absent) ["l2".toList, "l".toList] = .denied "l".toList ∧
    hasAccessToElement (.claims .absent (.str " 12,007, x".toList)) [7, 12] = .ok ∧
    hasAccessToElement (.claims .absent (.str " 12,007, x,18446744073709551616".toList)) [0] = .denied 0 := by
  decide +kernel

/-- The number 2^64 is not cut off to 0, and an empty restriction names only the list with the empty ID. -/
example : parseUint "18446744073709551616".toList = none ∧ parseUint "18446744073709551615".toList = some (2 ^ 64 - 1) ∧
    hasAccessToList (.claims (.str []) .absent) ["a".toList] = .denied "a".toList := by decide +kernel

end Props
end RankDB

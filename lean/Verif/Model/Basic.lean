/-
Stand-ins for Go library functions, structurally recursive so that concrete cases can be
evaluated by the kernel.
-/
namespace RankDB

/-- Insert into a sorted list, after all elements that are `le` the new one. -/
def orderedInsert {α : Type} (le : α → α → Bool) (x : α) : List α → List α
  | [] => [x]
  | a :: l => if le x a then x :: a :: l else a :: orderedInsert le x l

/-- `sort.Slice`/`sort.Sort` of the Go library. The Go sort is not stable; insertion sort gives one
admissible outcome. Theorems use only that the result is a sorted permutation. -/
def goSort {α : Type} (le : α → α → Bool) : List α → List α
  | [] => []
  | x :: l => orderedInsert le x (goSort le l)

theorem orderedInsert_perm {α : Type} (le : α → α → Bool) (x : α) :
    ∀ l, (orderedInsert le x l).Perm (x :: l)
  | [] => .refl _
  | a :: l => by
    unfold orderedInsert
    split
    · exact .refl _
    · exact ((orderedInsert_perm le x l).cons a).trans (.swap x a l)

theorem goSort_perm {α : Type} (le : α → α → Bool) : ∀ l, (goSort le l).Perm l
  | [] => .refl _
  | x :: l => (orderedInsert_perm le x _).trans ((goSort_perm le l).cons x)

theorem orderedInsert_sorted {α : Type} {le : α → α → Bool}
    (htr : ∀ a b c, le a b → le b c → le a c) (htot : ∀ a b, le a b || le b a) (x : α) :
    ∀ l, l.Pairwise (fun a b => le a b) → (orderedInsert le x l).Pairwise (fun a b => le a b)
  | [], _ => by simp [orderedInsert]
  | a :: l, h => by
    have ⟨h1, h2⟩ := List.pairwise_cons.1 h
    unfold orderedInsert
    split
    · rename_i hx
      refine List.pairwise_cons.2 ⟨?_, h⟩
      intro b hb
      rcases List.mem_cons.1 hb with rfl | hb
      · exact hx
      · exact htr _ _ _ hx (h1 b hb)
    · rename_i hx
      refine List.pairwise_cons.2 ⟨?_, orderedInsert_sorted htr htot x l h2⟩
      intro b hb
      rcases List.mem_cons.1 ((orderedInsert_perm le x l).mem_iff.1 hb) with rfl | hb
      · have := htot a b
        simp only [Bool.or_eq_true] at this
        exact this.resolve_right hx
      · exact h1 b hb

theorem goSort_sorted {α : Type} {le : α → α → Bool}
    (htr : ∀ a b c, le a b → le b c → le a c) (htot : ∀ a b, le a b || le b a) :
    ∀ l, (goSort le l).Pairwise (fun a b => le a b)
  | [] => by simp [goSort]
  | x :: l => orderedInsert_sorted htr htot x _ (goSort_sorted htr htot l)

/-- The keys of a Go map filled from `l`, in some order. -/
def uniq {α : Type} [DecidableEq α] : List α → List α
  | [] => []
  | x :: l => if x ∈ l then uniq l else x :: uniq l

theorem mem_uniq {α : Type} [DecidableEq α] {x : α} : ∀ {l : List α}, x ∈ uniq l ↔ x ∈ l
  | [] => by simp [uniq]
  | a :: l => by
    unfold uniq
    have ih := mem_uniq (x := x) (l := l)
    split
    · rename_i h
      rw [ih, List.mem_cons]
      constructor
      · exact Or.inr
      · rintro (rfl | h') <;> assumption
    · rw [List.mem_cons, List.mem_cons, ih]

theorem nodup_uniq {α : Type} [DecidableEq α] : ∀ l : List α, (uniq l).Nodup
  | [] => by simp [uniq]
  | a :: l => by
    unfold uniq
    split
    · exact nodup_uniq l
    · rename_i h
      exact List.nodup_cons.2 ⟨fun h' => h (mem_uniq.1 h'), nodup_uniq l⟩

theorem uniq_eq_self {α : Type} [DecidableEq α] : ∀ {l : List α}, l.Nodup → uniq l = l
  | [], _ => rfl
  | a :: l, h => by
    have ⟨h1, h2⟩ := List.nodup_cons.1 h
    unfold uniq
    rw [if_neg h1, uniq_eq_self h2]

theorem uniq_length_le {α : Type} [DecidableEq α] : ∀ l : List α, (uniq l).length ≤ l.length
  | [] => by simp [uniq]
  | a :: l => by
    have := uniq_length_le l
    unfold uniq
    split <;> simp <;> omega

theorem nodup_of_uniq_length {α : Type} [DecidableEq α] :
    ∀ {l : List α}, (uniq l).length = l.length → l.Nodup
  | [], _ => by simp
  | a :: l, h => by
    unfold uniq at h
    have := uniq_length_le l
    split at h
    · simp at h; omega
    · rename_i hn
      simp only [List.length_cons, Nat.add_right_cancel_iff] at h
      exact List.nodup_cons.2 ⟨hn, nodup_of_uniq_length h⟩

end RankDB

import Verif.Spec.Lists
import Verif.Proofs.Elements
/-
Helper lemmas: ranges of segments and routing of elements to segments.
-/
namespace RankDB
open Spec

theorem pos_lt_iff {a b c d : Nat} (hb : b < 2 ^ 32) (hd : d < 2 ^ 32) :
    pos a b < pos c d ↔ a < c ∨ (a = c ∧ b < d) := by unfold pos; omega

theorem pos_le_iff {a b c d : Nat} (hb : b < 2 ^ 32) (hd : d < 2 ^ 32) :
    pos a b ≤ pos c d ↔ a < c ∨ (a = c ∧ b ≤ d) := by unfold pos; omega

theorem pos_le_top {a b : Nat} (ha : a < 2 ^ 64) (hb : b < 2 ^ 32) : pos a b ≤ top := by
  unfold top pos; omega

theorem pos_inj {a b c d : Nat} (hb : b < 2 ^ 32) (hd : d < 2 ^ 32) (h : pos a b = pos c d) :
    a = c ∧ b = d := by unfold pos at h; omega

/-- Position of an element. -/
abbrev epos (e : Element) : Nat := pos e.score e.tie

theorem epos_le_top {e : Element} (h : Storable e) : epos e ≤ top := pos_le_top h.score h.tie

theorem epos_of_not_above {a b : Element} (ha : a.tie < 2 ^ 32) (hb : b.tie < 2 ^ 32)
    (h : ¬ RanksAbove b a) : epos b ≤ epos a := by
  unfold RanksAbove at h; unfold epos pos; omega

theorem ranksAbove_of_epos {a b : Element} (ha : a.tie < 2 ^ 32) (hb : b.tie < 2 ^ 32)
    (h : epos b < epos a) : RanksAbove a b := by
  unfold RanksAbove; unfold epos pos at h; omega

theorem above_start {e : Element} {S T : Nat} (he : e.tie < 2 ^ 32) (hT : T < 2 ^ 32) :
    e.above { score := S, id := 0, tie := T } = decide (pos S T < epos e) := by
  rw [Bool.eq_iff_iff, above_iff, decide_eq_true_eq]
  unfold RanksAbove epos pos; simp only []; omega

theorem above_end {e : Element} {S T : Nat} (he : Storable e) (hT : T < 2 ^ 32) :
    e.above { score := S, id := 0, tie := T, updated := maxU32 } = decide (pos S T ≤ epos e) := by
  rw [Bool.eq_iff_iff, above_iff, decide_eq_true_eq]
  have := he.tie; have := he.updated
  unfold RanksAbove epos pos maxU32; simp only []; omega

theorem firstNotAbove_spec (b : Element) : ∀ l : List Element,
    Segment.firstNotAbove b l =
      if l.dropWhile (·.above b) = [] then none else some (l.takeWhile (·.above b)).length
  | [] => by simp [Segment.firstNotAbove]
  | e :: l => by
    unfold Segment.firstNotAbove
    by_cases h : e.above b = true
    · rw [firstNotAbove_spec b l]
      simp only [h, Bool.not_true, Bool.false_eq_true, if_false, List.dropWhile_cons, if_true,
        List.takeWhile_cons, List.length_cons]
      split <;> simp
    · simp [h]

theorem takeWhile_eq_filter {α : Type} {p : α → Bool} : ∀ {l : List α},
    l.Pairwise (fun a b => p b = true → p a = true) → l.takeWhile p = l.filter p
  | [], _ => rfl
  | a :: l, h => by
    have ⟨h1, h2⟩ := List.pairwise_cons.1 h
    rw [List.takeWhile_cons, List.filter_cons]
    split
    · rw [takeWhile_eq_filter h2]
    · rename_i hp
      symm
      rw [List.filter_eq_nil_iff]
      intro b hb hpb
      exact hp (h1 b hb hpb)

theorem dropWhile_eq_filter {α : Type} {p : α → Bool} : ∀ {l : List α},
    l.Pairwise (fun a b => p b = true → p a = true) → l.dropWhile p = l.filter (fun a => !(p a))
  | [], _ => rfl
  | a :: l, h => by
    have ⟨h1, h2⟩ := List.pairwise_cons.1 h
    rw [List.dropWhile_cons, List.filter_cons]
    by_cases hp : p a = true
    · simp [hp, dropWhile_eq_filter h2]
    · simp only [Bool.not_eq_true] at hp
      simp only [hp, Bool.not_false, if_true, Bool.false_eq_true, if_false]
      congr 1
      symm
      rw [List.filter_eq_self]
      intro b hb
      cases hb' : p b
      · rfl
      · have := h1 b hb hb'; simp [this] at hp

theorem take_takeWhile {α : Type} (p : α → Bool) : ∀ l : List α,
    l.take (l.takeWhile p).length = l.takeWhile p
  | [] => by simp
  | a :: l => by
    have := take_takeWhile p l
    rw [List.takeWhile_cons]
    split <;> simp [this]

theorem drop_takeWhile {α : Type} (p : α → Bool) : ∀ l : List α,
    l.drop (l.takeWhile p).length = l.dropWhile p
  | [] => by simp
  | a :: l => by
    have := drop_takeWhile p l
    rw [List.takeWhile_cons, List.dropWhile_cons]
    split <;> simp [this]

theorem takeWhile_congr' {α : Type} {p q : α → Bool} : ∀ {l : List α}, (∀ a ∈ l, p a = q a) →
    l.takeWhile p = l.takeWhile q
  | [], _ => rfl
  | a :: l, h => by
    rw [List.takeWhile_cons, List.takeWhile_cons, h a (by simp),
      takeWhile_congr' fun b hb => h b (by simp [hb])]

theorem dropWhile_congr' {α : Type} {p q : α → Bool} : ∀ {l : List α}, (∀ a ∈ l, p a = q a) →
    l.dropWhile p = l.dropWhile q
  | [], _ => rfl
  | a :: l, h => by
    rw [List.dropWhile_cons, List.dropWhile_cons, h a (by simp),
      dropWhile_congr' fun b hb => h b (by simp [hb])]

/-- Positions of the bounds. -/
theorem filterIdx_eq {s : Seg} {l : List Element} (ht : s.minTie < 2 ^ 32 ∧ s.maxTie < 2 ^ 32)
    (hl : ∀ e ∈ l, Storable e) :
    Segment.filterIdx s l =
      if l.dropWhile (fun e => decide (hi s < epos e)) = [] then (0, 0)
      else ((l.takeWhile fun e => decide (hi s < epos e)).length,
        (l.takeWhile fun e => decide (hi s < epos e)).length +
        ((l.dropWhile fun e => decide (hi s < epos e)).takeWhile fun e => decide (lo s ≤ epos e)).length) := by
  have h1 : ∀ e ∈ l, e.above { score := s.max, id := 0, tie := s.maxTie } = decide (hi s < epos e) :=
    fun e he => above_start (hl e he).tie ht.2
  unfold Segment.filterIdx
  rw [firstNotAbove_spec, takeWhile_congr' h1, dropWhile_congr' h1]
  by_cases h : l.dropWhile (fun e => decide (hi s < epos e)) = []
  · simp [h]
  · simp only [h, if_false]
    rw [drop_takeWhile, firstNotAbove_spec]
    have h2 : ∀ e ∈ l.dropWhile (fun e => decide (hi s < epos e)),
        e.above { score := s.min, id := 0, tie := s.minTie, updated := maxU32 }
          = decide (lo s ≤ epos e) :=
      fun e he => above_end (hl e ((List.dropWhile_sublist _).subset he)) ht.1
    rw [takeWhile_congr' h2, dropWhile_congr' h2]
    generalize hR : l.dropWhile (fun e => decide (hi s < epos e)) = R
    have hlen : l.length = (l.takeWhile fun e => decide (hi s < epos e)).length + R.length := by
      conv => lhs; rw [← List.takeWhile_append_dropWhile (p := fun e => decide (hi s < epos e)) (l := l), hR]
      simp
    by_cases h3 : R.dropWhile (fun e => decide (lo s ≤ epos e)) = []
    · simp only [h3, if_true, Prod.mk.injEq, true_and]
      have : R = R.takeWhile (fun e => decide (lo s ≤ epos e)) := by
        conv => lhs; rw [← List.takeWhile_append_dropWhile (p := fun e => decide (lo s ≤ epos e)) (l := R), h3]
        simp
      rw [← this, hlen]
    · simp only [h3, if_false, Prod.mk.injEq, true_and]
      omega

/-- A list ranked or at least with falling positions. -/
def Falling (l : List Element) : Prop := l.Pairwise fun a b => epos b ≤ epos a

theorem falling_of_ranked {l : List Element} (h : Ranked l) (ht : ∀ e ∈ l, e.tie < 2 ^ 32) : Falling l := by
  unfold Falling
  refine List.Pairwise.imp_of_mem ?_ h
  intro a b ha hb hab
  exact epos_of_not_above (ht a ha) (ht b hb) hab

/-- All elements at or below the upper end: the elements from the lower end on. -/
theorem filterIdx_below {s : Seg} {l : List Element} (ht : s.minTie < 2 ^ 32 ∧ s.maxTie < 2 ^ 32)
    (hl : ∀ e ∈ l, Storable e) (hhi : ∀ e ∈ l, epos e ≤ hi s) :
    Segment.filterIdx s l = (0, (l.takeWhile fun e => decide (lo s ≤ epos e)).length) := by
  have h0 : ∀ e ∈ l, decide (hi s < epos e) = false := by
    intro e he; have := hhi e he; simp; omega
  rw [filterIdx_eq ht hl, dropWhile_congr' h0, takeWhile_congr' h0]
  cases l with
  | nil => simp
  | cons a l => simp [List.takeWhile_cons]

/-- Selection of the elements that belong to a segment. -/
def sel (s : Seg) (l : List Element) : List Element := l.filter fun e => decide (InRange s e)

theorem filterIdx_sel {s : Seg} {l : List Element} (ht : s.minTie < 2 ^ 32 ∧ s.maxTie < 2 ^ 32)
    (hl : ∀ e ∈ l, Storable e) (hf : Falling l) :
    (l.take (Segment.filterIdx s l).2).drop (Segment.filterIdx s l).1 = sel s l ∧
    ((Segment.filterIdx s l).1 = (Segment.filterIdx s l).2 ↔ sel s l = []) := by
  have hp1 : l.Pairwise (fun a b => decide (hi s < epos b) = true → decide (hi s < epos a) = true) :=
    hf.imp (by intro a b h; simp; omega)
  have hp2 : (l.dropWhile (fun e => decide (hi s < epos e))).Pairwise
      (fun a b => decide (lo s ≤ epos b) = true → decide (lo s ≤ epos a) = true) :=
    (List.Pairwise.sublist (List.dropWhile_sublist _) hf).imp (by intro a b h; simp; omega)
  have hsel : (l.dropWhile (fun e => decide (hi s < epos e))).takeWhile (fun e => decide (lo s ≤ epos e))
      = sel s l := by
    rw [takeWhile_eq_filter hp2, dropWhile_eq_filter hp1, List.filter_filter]
    unfold sel
    apply List.filter_congr
    intro e _
    rw [Bool.eq_iff_iff, decide_eq_true_eq]
    unfold InRange
    simp [epos]
  rw [filterIdx_eq ht hl]
  split
  · rename_i h
    rw [h] at hsel
    simp at hsel
    simp [← hsel]
  · simp only []
    constructor
    · rw [← hsel, List.drop_take]
      rw [drop_takeWhile]
      rw [Nat.add_sub_cancel_left]
      exact take_takeWhile _ _
    · rw [← hsel, ← List.length_eq_zero_iff]
      omega

end RankDB

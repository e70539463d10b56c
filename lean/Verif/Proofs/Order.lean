import Verif.Spec.Ranking
/-
Helper lemmas about the ranking order.
-/
namespace RankDB
open Spec

theorem above_iff (a b : Element) : a.above b = true ↔ RanksAbove a b := by
  unfold Element.above RanksAbove
  by_cases h1 : a.score = b.score <;> by_cases h2 : a.tie = b.tie <;>
    by_cases h3 : a.updated = b.updated <;> simp [h1, h2, h3] <;> omega

theorem above_false_iff (a b : Element) : a.above b = false ↔ ¬ RanksAbove a b := by
  rw [← above_iff]; simp

theorem ranksAbove_irrefl (a : Element) : ¬ RanksAbove a a := by unfold RanksAbove; omega

theorem ranksAbove_trans {a b c : Element} (h1 : RanksAbove a b) (h2 : RanksAbove b c) :
    RanksAbove a c := by
  unfold RanksAbove at *; omega

theorem ranksAbove_asymm {a b : Element} (h1 : RanksAbove a b) : ¬ RanksAbove b a := by
  unfold RanksAbove at *; omega

theorem ranksAbove_total {a b : Element} (h : a.id ≠ b.id) : RanksAbove a b ∨ RanksAbove b a := by
  unfold RanksAbove; omega

theorem not_ranksAbove_trans {a b c : Element} (h1 : ¬ RanksAbove b a) (h2 : ¬ RanksAbove c b) :
    ¬ RanksAbove c a := by
  unfold RanksAbove at *; omega

theorem ranksAbove_of_not {a b : Element} (h : a.id ≠ b.id) (h1 : ¬ RanksAbove b a) :
    RanksAbove a b := (ranksAbove_total h).resolve_right h1

theorem le_iff (a b : Element) : Elements.le a b = true ↔ ¬ RanksAbove b a := by
  unfold Elements.le; simp [above_false_iff]

theorem ranked_iff_le (l : List Element) : Ranked l ↔ l.Pairwise (fun a b => Elements.le a b) := by
  unfold Ranked; simp only [le_iff]

theorem isSorted_iff : ∀ l : List Element, Elements.isSorted l = true ↔ Ranked l
  | [] => by simp [Elements.isSorted, Ranked]
  | [a] => by simp [Elements.isSorted, Ranked]
  | a :: b :: l => by
    have ih := isSorted_iff (b :: l)
    simp only [Elements.isSorted, Bool.and_eq_true, Bool.not_eq_true', above_false_iff, ih]
    constructor
    · rintro ⟨h1, h2⟩
      refine List.pairwise_cons.2 ⟨?_, h2⟩
      intro c hc
      rcases List.mem_cons.1 hc with rfl | hc
      · exact h1
      · exact not_ranksAbove_trans h1 ((List.pairwise_cons.1 h2).1 c hc)
    · intro h
      have h' := List.pairwise_cons.1 h
      exact ⟨h'.1 b (by simp), h'.2⟩

theorem sortSlice_perm (l : List Element) : (Elements.sortSlice l).Perm l :=
  goSort_perm _ l

theorem sortSlice_ranked (l : List Element) : Ranked (Elements.sortSlice l) := by
  rw [ranked_iff_le]
  apply goSort_sorted
  · intro a b c h1 h2
    rw [le_iff] at *
    exact not_ranksAbove_trans h1 h2
  · intro a b
    simp only [Bool.or_eq_true, le_iff]
    by_cases h : RanksAbove b a
    · exact Or.inr (ranksAbove_asymm h)
    · exact Or.inl h

theorem Spec.DistinctIDs.perm {l l' : List Element} (h : l.Perm l') (hd : DistinctIDs l) :
    DistinctIDs l' := (h.map _).nodup_iff.1 hd

theorem Spec.DistinctIDs.nodup {l : List Element} (hd : DistinctIDs l) : l.Nodup :=
  List.Pairwise.of_map _ (fun _ _ h h' => h (by rw [h'])) hd

theorem Spec.DistinctIDs.eq_of_id {l : List Element} (hd : DistinctIDs l) {a b : Element}
    (ha : a ∈ l) (hb : b ∈ l) (h : a.id = b.id) : a = b := by
  induction l with
  | nil => simp at ha
  | cons c l ih =>
    unfold DistinctIDs at hd
    simp only [List.map_cons, List.nodup_cons, List.mem_map, not_exists, not_and] at hd
    rcases List.mem_cons.1 ha with rfl | ha' <;> rcases List.mem_cons.1 hb with rfl | hb'
    · rfl
    · exact absurd h.symm (hd.1 b hb')
    · exact absurd h (hd.1 a ha')
    · exact ih hd.2 ha' hb'

theorem ranked_strict {l : List Element} (hd : DistinctIDs l) (h : Ranked l) :
    l.Pairwise RanksAbove := by
  have h2 : l.Pairwise (fun a b => a.id ≠ b.id) := List.Pairwise.of_map _ (fun _ _ h => h) hd
  exact (h2.and h).imp fun ⟨h1, h2⟩ => ranksAbove_of_not h1 h2

theorem ranked_of_strict {l : List Element} (h : l.Pairwise RanksAbove) : Ranked l :=
  h.imp ranksAbove_asymm

/-- Two strictly ranked lists with the same elements are equal. -/
theorem strict_perm_eq {l l' : List Element} (h : l.Pairwise RanksAbove)
    (h' : l'.Pairwise RanksAbove) (hp : l.Perm l') : l = l' :=
  hp.eq_of_pairwise (fun _ _ _ _ h1 h2 => absurd h2 (ranksAbove_asymm h1)) h h'

theorem ranked_perm_eq {l l' : List Element} (hd : DistinctIDs l) (h : Ranked l)
    (h' : Ranked l') (hp : l.Perm l') : l = l' :=
  strict_perm_eq (ranked_strict hd h) (ranked_strict (hd.perm hp) h') hp

theorem place_perm (e : Element) : ∀ l, (place e l).Perm (e :: l)
  | [] => .refl _
  | a :: l => by
    unfold place
    split
    · exact .refl _
    · exact ((place_perm e l).cons a).trans (.swap e a l)

theorem place_ranked (e : Element) : ∀ l, Ranked l → Ranked (place e l)
  | [], _ => by simp [place, Ranked]
  | a :: l, h => by
    unfold place
    have h' := List.pairwise_cons.1 h
    split
    · rename_i hea
      refine List.pairwise_cons.2 ⟨?_, h⟩
      intro b hb
      rcases List.mem_cons.1 hb with rfl | hb
      · exact ranksAbove_asymm hea
      · exact not_ranksAbove_trans (ranksAbove_asymm hea) (h'.1 b hb)
    · rename_i hea
      refine List.pairwise_cons.2 ⟨?_, place_ranked e l h'.2⟩
      intro b hb
      rcases List.mem_cons.1 ((place_perm e l).mem_iff.1 hb) with rfl | hb
      · exact hea
      · exact h'.1 b hb

theorem ranking_perm : ∀ l, (ranking l).Perm l
  | [] => .refl _
  | e :: l => (place_perm e _).trans ((ranking_perm l).cons e)

theorem ranking_ranked : ∀ l, Ranked (ranking l)
  | [] => by simp [ranking, Ranked]
  | e :: l => place_ranked e _ (ranking_ranked l)

theorem eq_ranking {l l' : List Element} (hd : DistinctIDs l') (h : Ranked l) (hp : l.Perm l') :
    l = ranking l' :=
  ranked_perm_eq (hd.perm hp.symm) h (ranking_ranked l') (hp.trans (ranking_perm l').symm)

theorem ranking_congr {l l' : List Element} (hd : DistinctIDs l) (hp : l.Perm l') :
    ranking l = ranking l' :=
  eq_ranking (hd.perm hp) (ranking_ranked l) ((ranking_perm l).trans hp)

theorem sortSlice_eq_ranking {l : List Element} (hd : DistinctIDs l) :
    Elements.sortSlice l = ranking l :=
  eq_ranking hd (sortSlice_ranked l) (sortSlice_perm l)

theorem prevMax_cases {s t p q : Nat} (h : prevMax s t = (p, q)) : (s = 0 ∧ t = 0 ∧ p = 0 ∧ q = 0) ∨
    (¬ s = 0 ∧ t = 0 ∧ p = s - 1 ∧ q = 2 ^ 32 - 1) ∨ (¬ t = 0 ∧ p = s ∧ q = t - 1) := by
  unfold prevMax at h
  split at h
  · simp only [Prod.mk.injEq] at h; omega
  · split at h <;> simp only [Prod.mk.injEq, maxU32] at h <;> omega

theorem aboveThis_cases {s t p q : Nat} (h : aboveThis s t = (p, q)) :
    (s = 2 ^ 64 - 1 ∧ t = 2 ^ 32 - 1 ∧ p = 2 ^ 64 - 1 ∧ q = 2 ^ 32 - 1) ∨
    (¬ s = 2 ^ 64 - 1 ∧ t = 2 ^ 32 - 1 ∧ p = s + 1 ∧ q = 0) ∨
    (¬ t = 2 ^ 32 - 1 ∧ p = s ∧ q = t + 1) := by
  unfold aboveThis at h
  by_cases h1 : s = maxU64 ∧ t = maxU32
  · rw [if_pos h1] at h
    simp only [Prod.mk.injEq, maxU64, maxU32] at *; omega
  · rw [if_neg h1] at h
    by_cases h2 : t = maxU32
    · rw [if_pos h2] at h
      simp only [Prod.mk.injEq, maxU64, maxU32] at *; omega
    · rw [if_neg h2] at h
      simp only [Prod.mk.injEq, maxU64, maxU32] at *; omega

end RankDB

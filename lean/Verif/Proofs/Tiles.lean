import Verif.Proofs.Routing
/-
Helper lemmas: consequences of the tiling of the key space.
-/
namespace RankDB
open Spec

theorem tiles_cons {h : Nat} {s : Seg} {ss : List Seg} : Tiles h (s :: ss) ↔
    hi s = h ∧ lo s ≤ hi s ∧ ((ss = [] ∧ lo s = 0) ∨ (ss ≠ [] ∧ 0 < lo s ∧ Tiles (lo s - 1) ss)) := by
  cases ss with
  | nil => simp only [Tiles]; constructor <;> intro h <;> simp_all
  | cons t ss =>
    simp only [Tiles, reduceCtorEq, false_and, ne_eq, not_false_eq_true, true_and, false_or]
    constructor <;> (rintro ⟨a, b, c, d⟩; exact ⟨a, c, b, d⟩)

theorem tiles_ne_nil {h : Nat} {segs : List Seg} (ht : Tiles h segs) : segs ≠ [] := by
  cases segs <;> simp_all [Tiles]

theorem tiles_le {h : Nat} {segs : List Seg} (ht : Tiles h segs) : ∀ s ∈ segs, lo s ≤ hi s ∧ hi s ≤ h := by
  induction segs generalizing h with
  | nil => simp
  | cons s ss ih =>
    obtain ⟨h1, h2, h3⟩ := tiles_cons.1 ht
    intro t hm
    rcases List.mem_cons.1 hm with rfl | hm
    · omega
    · rcases h3 with ⟨rfl, _⟩ | ⟨_, h4, h5⟩
      · simp at hm
      · have := ih h5 t hm; omega

theorem tiles_pairwise {h : Nat} {segs : List Seg} (ht : Tiles h segs) :
    segs.Pairwise fun s t => hi t < lo s := by
  induction segs generalizing h with
  | nil => simp
  | cons s ss ih =>
    obtain ⟨h1, h2, h3⟩ := tiles_cons.1 ht
    rcases h3 with ⟨rfl, _⟩ | ⟨_, h4, h5⟩
    · simp
    · refine List.pairwise_cons.2 ⟨?_, ih h5⟩
      intro t hm
      have := tiles_le h5 t hm; omega

theorem tiles_exists {h : Nat} {segs : List Seg} (ht : Tiles h segs) {p : Nat} (hp : p ≤ h) :
    ∃ s ∈ segs, lo s ≤ p ∧ p ≤ hi s := by
  induction segs generalizing h with
  | nil => simp [Tiles] at ht
  | cons s ss ih =>
    obtain ⟨h1, h2, h3⟩ := tiles_cons.1 ht
    by_cases hlo : lo s ≤ p
    · exact ⟨s, by simp, hlo, by omega⟩
    · rcases h3 with ⟨rfl, h4⟩ | ⟨_, h4, h5⟩
      · omega
      · obtain ⟨t, hm, h6⟩ := ih h5 (by omega : p ≤ lo s - 1)
        exact ⟨t, by simp [hm], h6⟩

theorem tiles_apart {segs : List Seg} (hpw : segs.Pairwise fun s t => hi t < lo s) {a b : Seg} (ha : a ∈ segs)
    (hb : b ∈ segs) : a = b ∨ hi b < lo a ∨ hi a < lo b := by
  induction segs with
  | nil => simp at ha
  | cons c cs ih =>
    obtain ⟨p1, p2⟩ := List.pairwise_cons.1 hpw
    rcases List.mem_cons.1 ha with ha' | ha' <;> rcases List.mem_cons.1 hb with hb' | hb'
    · exact Or.inl (ha'.trans hb'.symm)
    · rw [ha']; exact Or.inr (Or.inl (p1 b hb'))
    · rw [hb']; exact Or.inr (Or.inr (p1 a ha'))
    · exact ih p2 ha' hb'

/-- An element is in the range of one segment only. -/
theorem tiles_unique {h : Nat} {segs : List Seg} (ht : Tiles h segs) {a b : Seg} (ha : a ∈ segs)
    (hb : b ∈ segs) {e : Element} (h1 : InRange a e) (h2 : InRange b e) : a = b := by
  rcases tiles_apart (tiles_pairwise ht) ha hb with h' | h' | h'
  · exact h'
  · unfold InRange at h1 h2; omega
  · unfold InRange at h1 h2; omega

/-- Tiling only depends on the ranges. -/
theorem tiles_map {h : Nat} {segs : List Seg} (f : Seg → Seg) (hf : ∀ s ∈ segs, lo (f s) = lo s ∧ hi (f s) = hi s)
    (ht : Tiles h segs) : Tiles h (segs.map f) := by
  induction segs generalizing h with
  | nil => simp [Tiles] at ht
  | cons s ss ih =>
    obtain ⟨h1, h2, h3⟩ := tiles_cons.1 ht
    have := hf s (by simp)
    rw [List.map_cons, tiles_cons]
    refine ⟨by omega, by omega, ?_⟩
    rcases h3 with ⟨rfl, h4⟩ | ⟨h3, h4, h5⟩
    · left; simp; omega
    · right
      refine ⟨by simpa using h3, by omega, ?_⟩
      rw [this.1]
      exact ih (fun s hs => hf s (by simp [hs])) h5

theorem tiles_congr {h : Nat} : ∀ {segs segs' : List Seg}, segs'.map (fun s => (lo s, hi s)) = segs.map (fun s => (lo s, hi s)) →
    Tiles h segs → Tiles h segs'
  | [], segs', he, ht => by simp [Tiles] at ht
  | s :: ss, [], he, ht => by simp at he
  | s :: ss, s' :: ss', he, ht => by
    obtain ⟨h1, h2, h3⟩ := tiles_cons.1 ht
    simp only [List.map_cons, List.cons.injEq, Prod.mk.injEq] at he
    obtain ⟨⟨e1, e2⟩, e3⟩ := he
    rw [tiles_cons, e1, e2]
    refine ⟨h1, h2, ?_⟩
    rcases h3 with ⟨rfl, h4⟩ | ⟨h3, h4, h5⟩
    · left; exact ⟨by simpa using e3, h4⟩
    · right
      refine ⟨?_, h4, tiles_congr e3 h5⟩
      rintro rfl
      simp at e3
      exact h3 e3

theorem mem_sel {s : Seg} {l : List Element} {e : Element} : e ∈ sel s l ↔ e ∈ l ∧ InRange s e := by
  simp [sel]

theorem sel_perm {s : Seg} {l l' : List Element} (h : l.Perm l') : (sel s l).Perm (sel s l') := h.filter _

/-- All elements at or below the upper end of the first segment: splitting by the lower end. -/
theorem sel_head {s : Seg} {l : List Element} (hf : Falling l) (hhi : ∀ e ∈ l, epos e ≤ hi s) :
    l.takeWhile (fun e => decide (lo s ≤ epos e)) = sel s l ∧
    l.dropWhile (fun e => decide (lo s ≤ epos e)) = l.filter (fun e => decide (epos e < lo s)) := by
  have hp : l.Pairwise (fun a b => decide (lo s ≤ epos b) = true → decide (lo s ≤ epos a) = true) :=
    hf.imp (by intro a b h; simp; omega)
  constructor
  · rw [takeWhile_eq_filter hp]
    unfold sel
    apply List.filter_congr
    intro e he
    rw [Bool.eq_iff_iff, decide_eq_true_eq, decide_eq_true_eq]
    have := hhi e he
    unfold InRange; unfold epos at *; omega
  · rw [dropWhile_eq_filter hp]
    apply List.filter_congr
    intro e he
    rw [Bool.eq_iff_iff]
    simp

theorem sel_filter_lt {s t : Seg} {l : List Element} (h : hi t < lo s) :
    sel t (l.filter (fun e => decide (epos e < lo s))) = sel t l := by
  unfold sel
  rw [List.filter_filter]
  apply List.filter_congr
  intro e he
  rw [Bool.eq_iff_iff]
  simp only [Bool.and_eq_true, decide_eq_true_eq]
  unfold epos InRange; omega

/-- Every element is selected by exactly one segment, in order. -/
theorem sel_flatMap {h : Nat} {segs : List Seg} {l : List Element} (ht : Tiles h segs) (hf : Falling l)
    (hh : ∀ e ∈ l, epos e ≤ h) : segs.flatMap (sel · l) = l := by
  induction segs generalizing h l with
  | nil => simp [Tiles] at ht
  | cons s ss ih =>
    obtain ⟨h1, h2, h3⟩ := tiles_cons.1 ht
    have hh' : ∀ e ∈ l, epos e ≤ hi s := by intro e he; have := hh e he; omega
    have ⟨e1, e2⟩ := sel_head hf hh'
    rw [List.flatMap_cons]
    have hrest : ss.flatMap (sel · l) = l.filter (fun e => decide (epos e < lo s)) := by
      rcases h3 with ⟨rfl, h4⟩ | ⟨_, h4, h5⟩
      · simp [h4]
      · rw [← ih (l := l.filter (fun e => decide (epos e < lo s))) h5 (hf.filter _)]
        · rw [List.flatMap_def, List.flatMap_def]
          congr 1
          apply List.map_congr_left
          intro t hm
          exact (sel_filter_lt (by have := tiles_le h5 t hm; omega)).symm
        · intro e he
          simp at he; omega
    rw [hrest, ← e1, ← e2, List.takeWhile_append_dropWhile]

/-- The same for any order of the elements, up to permutation. -/
theorem sel_flatMap_perm {h : Nat} {segs : List Seg} {l : List Element} (ht : Tiles h segs)
    (hs : ∀ e ∈ l, Storable e)
    (hh : ∀ e ∈ l, epos e ≤ h) : (segs.flatMap (sel · l)).Perm l := by
  have hp := sortSlice_perm l
  have hf : Falling (Elements.sortSlice l) :=
    falling_of_ranked (sortSlice_ranked l) fun e he => (hs e (hp.mem_iff.1 he)).tie
  have h1 := sel_flatMap ht hf fun e he => hh e (hp.mem_iff.1 he)
  have h2 : (segs.flatMap (sel · l)).Perm (segs.flatMap (sel · (Elements.sortSlice l))) := by
    clear ht h1
    induction segs with
    | nil => simp
    | cons s ss ih => simp only [List.flatMap_cons]; exact (sel_perm hp.symm).append ih
  rw [h1] at h2
  exact h2.trans hp

theorem allElems_strict {segs : List Seg} {h : Nat} (ht : Tiles h segs)
    (hties : ∀ e ∈ allElems segs, e.tie < 2 ^ 32)
    (hr : ∀ s ∈ segs, ∀ e ∈ s.elems, InRange s e) (hrk : ∀ s ∈ segs, s.elems.Pairwise RanksAbove) :
    (allElems segs).Pairwise RanksAbove := by
  unfold allElems at *
  rw [List.pairwise_flatMap]
  refine ⟨hrk, ?_⟩
  refine List.Pairwise.imp_of_mem ?_ (tiles_pairwise ht)
  intro s t hs htm hlt x hx y hy
  have h1 := hr s hs x hx
  have h2 := hr t htm y hy
  apply ranksAbove_of_epos
  · exact hties x (List.mem_flatMap.2 ⟨s, hs, hx⟩)
  · exact hties y (List.mem_flatMap.2 ⟨t, htm, hy⟩)
  · unfold InRange at h1 h2; unfold epos; omega

theorem Spec.SegsOK.strictSeg {segs : List Seg} (h : SegsOK segs) :
    ∀ s ∈ segs, s.elems.Pairwise RanksAbove := by
  intro s hs
  apply ranked_strict _ (h.ranked s hs)
  have := h.distinct
  unfold DistinctIDs allElems at this
  rw [List.map_flatMap] at this
  exact (List.pairwise_flatMap.1 this).1 s hs

theorem Spec.SegsOK.strict {segs : List Seg} (h : SegsOK segs) : (allElems segs).Pairwise RanksAbove :=
  allElems_strict h.tiles (fun e he => (h.storable e he).tie) h.inRange h.strictSeg

theorem Spec.SegsOK.ranking {segs : List Seg} (h : SegsOK segs) : Spec.ranking (allElems segs) = allElems segs :=
  (eq_ranking h.distinct (ranked_of_strict h.strict) (.refl _)).symm

end RankDB

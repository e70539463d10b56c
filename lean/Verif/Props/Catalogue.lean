import Verif.Proofs.Catalogue
import Verif.Spec.Catalogue
/-
Properties C43-C45 and the list ID part of C48: the catalogue of lists.
Lists are given in an arbitrary order, which is the iteration order of the map.
-/
namespace RankDB
namespace Catalogue
open Spec

theorem entries_perm {lists l : List Entry} (hnd : DistinctLists lists) (hsub : ∀ e ∈ l, e ∈ lists)
    (hp : (l.map (·.id)).Perm (lists.map (·.id))) : l.Perm lists := by
  have hl : (l.map (·.id)).Nodup := hp.nodup_iff.2 hnd
  have h1 : l.Nodup := List.Pairwise.of_map (·.id) (fun a b h h' => h (by rw [h'])) hl
  have h2 : lists.Nodup := List.Pairwise.of_map (·.id) (fun a b h h' => h (by rw [h'])) hnd
  rw [List.perm_ext_iff_of_nodup h1 h2]
  intro e
  refine ⟨hsub e, fun he => ?_⟩
  obtain ⟨e', he', hid⟩ := List.mem_map.1 (hp.mem_iff.2 (List.mem_map_of_mem he))
  have h3 := byID_of_mem hnd (hsub e' he')
  have h4 := byID_of_mem hnd he
  rw [hid] at h3
  rw [h3] at h4
  injection h4 with h4
  rw [← h4]; exact he'

theorem sorted_map {l : List Entry} : SortedByID l ↔ (l.map (·.id)).Pairwise (· < ·) := by
  unfold SortedByID
  rw [List.pairwise_map]

/-- Assemble a page from the three groups of IDs. -/
theorem assemble {lists : List Entry} (hnd : DistinctLists lists) {a s b : List Str} {m : Nat}
    (hp : (a ++ s ++ b).Perm (lists.map (·.id))) (hs : (a ++ s ++ b).Pairwise (· < ·)) (hl : s.length ≤ m) :
    ∃ A B, (A ++ fetch lists m s ++ B).Perm lists ∧ SortedByID (A ++ fetch lists m s ++ B) ∧
      A.map (·.id) = a ∧ (fetch lists m s).map (·.id) = s ∧ B.map (·.id) = b := by
  have hmem : ∀ x ∈ a ++ s ++ b, x ∈ lists.map (·.id) := fun x hx => hp.mem_iff.1 hx
  obtain ⟨ha1, ha2⟩ := fetch_spec hnd (n := a.length) (s := a) (fun x hx => hmem x (by simp [hx])) (Nat.le_refl _)
  obtain ⟨hs1, hs2⟩ := fetch_spec hnd (n := m) (s := s) (fun x hx => hmem x (by simp [hx])) hl
  obtain ⟨hb1, hb2⟩ := fetch_spec hnd (n := b.length) (s := b) (fun x hx => hmem x (by simp [hx])) (Nat.le_refl _)
  have hmap : (fetch lists a.length a ++ fetch lists m s ++ fetch lists b.length b).map (·.id) = a ++ s ++ b := by
    rw [List.map_append, List.map_append, ha1, hs1, hb1]
  refine ⟨fetch lists a.length a, fetch lists b.length b, ?_, ?_, ha1, hs1, hb1⟩
  · refine entries_perm hnd ?_ (by rw [hmap]; exact hp)
    intro e he
    simp only [List.mem_append] at he
    rcases he with (he | he) | he
    · exact ha2 e he
    · exact hs2 e he
    · exact hb2 e he
  · rw [sorted_map, hmap]; exact hs

theorem filter_partition (p : Str → Bool) (l : List Str) : (l.filter (fun x => !p x) ++ l.filter p).Perm l := by
  refine List.perm_append_comm.trans ?_
  exact List.filter_append_perm p l

/-- What the scan of `SortedIDsAfter` leaves behind. -/
theorem after_groups {lists : List Entry} (hnd : DistinctLists lists) (start : Str) {n : Nat} (hn : 2 ≤ n) :
    ∃ (a b : List Str), let st := (lists.map (·.id)).foldl (stepAfter start n) {}
      (a ++ sortIDs st.s ++ b).Perm (lists.map (·.id)) ∧ (a ++ sortIDs st.s ++ b).Pairwise (· < ·) ∧
      st.page.before = a.length ∧ st.page.after = b.length ∧
      (∀ x ∈ a, ¬ start < x) ∧ (∀ x ∈ sortIDs st.s ++ b, start < x) ∧ (sortIDs st.s).length ≤ n ∧
      (b ≠ [] → (sortIDs st.s).length = n) := by
  have h := scanAfter_inv (start := start) hn hnd
  obtain ⟨R, hp, hR, hlt, hfull⟩ := h.split
  generalize (lists.map (·.id)).foldl (stepAfter start n) {} = st at *
  have hM : ((lists.map (·.id)).filter fun id => decide (start < id)).Nodup := List.Pairwise.filter _ hnd
  have hsR : (st.s ++ R).Nodup := hp.nodup_iff.2 hM
  have hsn : st.s.Nodup := (List.nodup_append.1 hsR).1
  have hRn : R.Nodup := (List.nodup_append.1 hsR).2.1
  have hAn : ((lists.map (·.id)).filter fun id => decide (¬ start < id)).Nodup := List.Pairwise.filter _ hnd
  have hmemA : ∀ x ∈ sortIDs ((lists.map (·.id)).filter fun id => decide (¬ start < id)), ¬ start < x := by
    intro x hx
    have := (List.mem_filter.1 ((sortIDs_perm _).mem_iff.1 hx)).2
    simpa using this
  have hmemS : ∀ x ∈ sortIDs st.s ++ sortIDs R, start < x := by
    intro x hx
    have hx' : x ∈ st.s ++ R := by
      rcases List.mem_append.1 hx with hx | hx
      · exact List.mem_append_left _ ((sortIDs_perm _).mem_iff.1 hx)
      · exact List.mem_append_right _ ((sortIDs_perm _).mem_iff.1 hx)
    have := (List.mem_filter.1 (hp.mem_iff.1 hx')).2
    simpa using this
  refine ⟨sortIDs ((lists.map (·.id)).filter fun id => decide (¬ start < id)), sortIDs R, ?_⟩
  refine ⟨?_, ?_, ?_, ?_, hmemA, hmemS, ?_, ?_⟩
  · have h1 : (sortIDs st.s ++ sortIDs R).Perm ((lists.map (·.id)).filter fun id => decide (start < id)) :=
      ((sortIDs_perm _).append (sortIDs_perm _)).trans hp
    rw [List.append_assoc]
    refine ((sortIDs_perm _).append h1).trans ?_
    have := filter_partition (fun id => decide (start < id)) (lists.map (·.id))
    refine List.Perm.trans ?_ this
    have e : (fun id => decide (¬ start < id)) = fun id => !decide (start < id) := by
      funext x; rw [decide_not]
    rw [e]
  · rw [List.append_assoc, List.pairwise_append]
    refine ⟨sortIDs_sorted hAn, ?_, ?_⟩
    · rw [List.pairwise_append]
      refine ⟨sortIDs_sorted hsn, sortIDs_sorted hRn, ?_⟩
      intro x hx r hr
      exact hlt r ((sortIDs_perm _).mem_iff.1 hr) x ((sortIDs_perm _).mem_iff.1 hx)
    · intro x hx y hy
      have h1 := hmemA x hx
      have h2 := hmemS y hy
      by_cases he : start = x
      · rw [← he]; exact h2
      · exact slt_trans (slt_tri h1 he) h2
  · rw [sortIDs_length]; exact h.before
  · rw [sortIDs_length]; exact hR.symm
  · rw [sortIDs_length]; exact h.len
  · intro hb
    rw [sortIDs_length]
    apply hfull
    rintro rfl
    exact hb rfl

/-- What the scan of `SortedIDsBefore` leaves behind. -/
theorem before_groups {lists : List Entry} (hnd : DistinctLists lists) (stop : Str) {n : Nat} (hn : 2 ≤ n) :
    ∃ (a b : List Str), let st := (lists.map (·.id)).foldl (stepBefore stop n) {}
      (a ++ sortIDs st.s ++ b).Perm (lists.map (·.id)) ∧ a.Pairwise (· < ·) ∧ (sortIDs st.s).Pairwise (· < ·) ∧
      b.Pairwise (· < ·) ∧
      st.page.before = a.length ∧ st.page.after = b.length ∧
      (∀ x ∈ a ++ sortIDs st.s, x < stop) ∧ (∀ x ∈ b, ¬ x < stop) ∧ (sortIDs st.s).length ≤ n ∧
      (a ≠ [] → (sortIDs st.s).length = n) ∧ (∀ x ∈ a, ∀ y ∈ (sortIDs st.s).tail, x < y) ∧
      ((∀ id, ((lists.map (·.id)).filter fun id => decide (id < stop))[n]? = some id →
        ∃ x ∈ ((lists.map (·.id)).filter fun id => decide (id < stop)).take n, x < id) →
        ∀ x ∈ a, ∀ y ∈ sortIDs st.s, x < y) := by
  have h := scanBefore_inv (stop := stop) hn hnd
  obtain ⟨R, hp, hR, hlt, hfull, hex⟩ := h.split
  generalize (lists.map (·.id)).foldl (stepBefore stop n) {} = st at *
  have hM : ((lists.map (·.id)).filter fun id => decide (id < stop)).Nodup := List.Pairwise.filter _ hnd
  have hsR : (st.s ++ R).Nodup := hp.nodup_iff.2 hM
  have hsn : st.s.Nodup := (List.nodup_append.1 hsR).1
  have hRn : R.Nodup := (List.nodup_append.1 hsR).2.1
  have hBn : ((lists.map (·.id)).filter fun id => decide (¬ id < stop)).Nodup := List.Pairwise.filter _ hnd
  have hS := sortIDs_sorted hsn
  refine ⟨sortIDs R, sortIDs ((lists.map (·.id)).filter fun id => decide (¬ id < stop)), ?_⟩
  refine ⟨?_, sortIDs_sorted hRn, hS, sortIDs_sorted hBn, ?_, ?_, ?_, ?_, ?_, ?_, ?_, ?_⟩
  · have h1 : (sortIDs R ++ sortIDs st.s).Perm ((lists.map (·.id)).filter fun id => decide (id < stop)) :=
      (List.perm_append_comm.trans ((sortIDs_perm _).append (sortIDs_perm _))).trans hp
    refine (h1.append (sortIDs_perm _)).trans ?_
    have := filter_partition (fun id => decide (id < stop)) (lists.map (·.id))
    refine List.Perm.trans ?_ this
    have e : (fun id => decide (¬ id < stop)) = fun id => !decide (id < stop) := by
      funext x; rw [decide_not]
    rw [e]
    exact List.perm_append_comm
  · rw [sortIDs_length]; exact hR.symm
  · rw [sortIDs_length]; exact h.after
  · intro x hx
    have hx' : x ∈ st.s ++ R := by
      rcases List.mem_append.1 hx with hx | hx
      · exact List.mem_append_right _ ((sortIDs_perm _).mem_iff.1 hx)
      · exact List.mem_append_left _ ((sortIDs_perm _).mem_iff.1 hx)
    have := (List.mem_filter.1 (hp.mem_iff.1 hx')).2
    simpa using this
  · intro x hx
    have := (List.mem_filter.1 ((sortIDs_perm _).mem_iff.1 hx)).2
    simpa using this
  · rw [sortIDs_length]; exact h.len
  · intro hb
    rw [sortIDs_length]
    apply hfull
    rintro rfl
    exact hb rfl
  · intro x hx y hy
    have hx' := (sortIDs_perm _).mem_iff.1 hx
    have hb0 : st.page.before ≠ 0 := by
      rw [← hR]; intro h0
      rw [List.length_eq_zero_iff.1 h0] at hx'; simp at hx'
    have ⟨hm1, hm2⟩ := h.min hb0
    have hm3 := (sortIDs_perm st.s).mem_iff.2 hm1
    have hperm := sortIDs_perm st.s
    cases hs : sortIDs st.s with
    | nil => rw [hs] at hy; simp at hy
    | cons m t =>
      rw [hs] at hy hS hperm
      have hy' : y ∈ st.s := hperm.mem_iff.1 (List.mem_cons_of_mem _ hy)
      rcases hlt x hx' y hy' with h1 | h1
      · subst h1
        exact absurd ((List.pairwise_cons.1 hS).1 _ hy) (hm2 m (hperm.mem_iff.1 (by simp)))
      · exact h1
  · intro hc x hx y hy
    exact hex hc x ((sortIDs_perm _).mem_iff.1 hx) y ((sortIDs_perm _).mem_iff.1 hy)

/-- Assemble a page whose lists before the page need not be sorted. -/
theorem assemble' {lists : List Entry} (hnd : DistinctLists lists) {a s b : List Str} {m : Nat}
    (hp : (a ++ s ++ b).Perm (lists.map (·.id))) (hl : s.length ≤ m) :
    ∃ A B, (A ++ fetch lists m s ++ B).Perm lists ∧
      A.map (·.id) = a ∧ (fetch lists m s).map (·.id) = s ∧ B.map (·.id) = b := by
  have hmem : ∀ x ∈ a ++ s ++ b, x ∈ lists.map (·.id) := fun x hx => hp.mem_iff.1 hx
  obtain ⟨ha1, ha2⟩ := fetch_spec hnd (n := a.length) (s := a) (fun x hx => hmem x (by simp [hx])) (Nat.le_refl _)
  obtain ⟨hs1, hs2⟩ := fetch_spec hnd (n := m) (s := s) (fun x hx => hmem x (by simp [hx])) hl
  obtain ⟨hb1, hb2⟩ := fetch_spec hnd (n := b.length) (s := b) (fun x hx => hmem x (by simp [hx])) (Nat.le_refl _)
  have hmap : (fetch lists a.length a ++ fetch lists m s ++ fetch lists b.length b).map (·.id) = a ++ s ++ b := by
    rw [List.map_append, List.map_append, ha1, hs1, hb1]
  refine ⟨fetch lists a.length a, fetch lists b.length b, ?_, ha1, hs1, hb1⟩
  refine entries_perm hnd ?_ (by rw [hmap]; exact hp)
  intro e he
  simp only [List.mem_append] at he
  rcases he with (he | he) | he
  · exact ha2 e he
  · exact hs2 e he
  · exact hb2 e he

end Catalogue

namespace Props
open Spec Catalogue

/-! ### C43 Listing lists after an ID -/

/-- Paging forward is exact for every order of iteration. -/
theorem C43_after (lists : List Entry) (hnd : DistinctLists lists) (start : Str) (n : Nat) (hn : 1 ≤ n) :
    let r := sortedIDsAfter lists start n
    IsPageAfter lists start n r.1 r.2.before r.2.after := by
  intro r
  have hr : r = sortedIDsAfter lists start n := rfl
  unfold sortedIDsAfter at hr
  rw [if_neg (by omega)] at hr
  by_cases h1 : n = 1
  · subst h1
    rw [if_pos (show ((1 : Nat) : Int) = 1 by rfl)] at hr
    obtain ⟨a, b, hg⟩ := after_groups hnd start (n := 2) (by omega)
    dsimp only at hg
    dsimp only at hr
    generalize (lists.map (·.id)).foldl (stepAfter start 2) {} = st at *
    obtain ⟨hp, hs, hb, ha, hA, hS, hl, hf⟩ := hg
    by_cases h2 : (sortIDs st.s).length > 1
    · rw [if_pos ⟨rfl, h2⟩] at hr
      have hsplit : sortIDs st.s = (sortIDs st.s).take 1 ++ (sortIDs st.s).drop 1 := (List.take_append_drop _ _).symm
      generalize sortIDs st.s = s at *
      rw [hsplit] at hp hs
      have e : ∀ u v : List Str, a ++ (u ++ v) ++ b = a ++ u ++ (v ++ b) := by intros; simp
      rw [e] at hp hs
      obtain ⟨A, B, h3, h4, h5, h6, h7⟩ := assemble hnd (m := 2) hp hs (by simp; omega)
      rw [hr]
      refine ⟨A, B, h3, h4, ?_, ?_, ?_, ?_, ?_, ?_⟩
      · rw [← List.length_map (f := (·.id)), h5]; exact hb
      · rw [← List.length_map (f := (·.id)), h7]
        simp only [List.length_append, List.length_drop]
        rw [← ha]; omega
      · intro x hx
        exact hA _ (h5 ▸ List.mem_map_of_mem hx)
      · intro x hx
        have : x.id ∈ s.take 1 ++ (s.drop 1 ++ b) := by
          rw [← h6, ← h7, ← List.map_append]
          exact List.mem_map_of_mem hx
        rw [← List.append_assoc, List.take_append_drop] at this
        exact hS _ this
      · rw [← List.length_map (f := (·.id)), h6]; simp; omega
      · intro _
        rw [← List.length_map (f := (·.id)), h6]; simp; omega
    · rw [if_neg (fun h => h2 h.2)] at hr
      obtain ⟨A, B, h3, h4, h5, h6, h7⟩ := assemble hnd (m := 2) hp hs hl
      have hb0 : b = [] := Decidable.byContradiction fun h' => by have := hf h'; omega
      rw [hr]
      refine ⟨A, B, h3, h4, ?_, ?_, ?_, ?_, ?_, ?_⟩
      · rw [← List.length_map (f := (·.id)), h5]; exact hb
      · rw [← List.length_map (f := (·.id)), h7]; exact ha
      · intro x hx
        exact hA _ (h5 ▸ List.mem_map_of_mem hx)
      · intro x hx
        apply hS
        rw [← h6, ← h7, ← List.map_append]
        exact List.mem_map_of_mem hx
      · rw [← List.length_map (f := (·.id)), h6]; omega
      · intro hB
        rw [hb0] at h7
        exact absurd (List.map_eq_nil_iff.1 h7) hB
  · rw [if_neg (by omega), Int.toNat_natCast] at hr
    obtain ⟨a, b, hg⟩ := after_groups hnd start (n := n) (by omega)
    dsimp only at hg hr
    obtain ⟨hp, hs, hb, ha, hA, hS, hl, hf⟩ := hg
    rw [if_neg (fun h => by omega)] at hr
    obtain ⟨A, B, h3, h4, h5, h6, h7⟩ := assemble hnd (m := n) hp hs hl
    rw [hr]
    refine ⟨A, B, h3, h4, ?_, ?_, ?_, ?_, ?_, ?_⟩
    · rw [← List.length_map (f := (·.id)), h5]; exact hb
    · rw [← List.length_map (f := (·.id)), h7]; exact ha
    · intro x hx
      exact hA _ (h5 ▸ List.mem_map_of_mem hx)
    · intro x hx
      apply hS
      rw [← h6, ← h7, ← List.map_append]
      exact List.mem_map_of_mem hx
    · rw [← List.length_map (f := (·.id)), h6]; exact hl
    · intro hB
      rw [← List.length_map (f := (·.id)), h6]
      apply hf
      rintro rfl
      exact hB (List.map_eq_nil_iff.1 h7)

/-- Without a positive limit nothing is returned. -/
theorem C43_no_limit (lists : List Entry) (start : Str) (n : Int) (hn : n ≤ 0) :
    sortedIDsAfter lists start n = ([], ⟨0, 0⟩) := by
  unfold sortedIDsAfter
  rw [if_pos hn]

/-- Two lists after "b", of five in an unsorted order. -/
example : DistinctLists [⟨[101], [], none⟩, ⟨[98], [], none⟩, ⟨[100], [], none⟩, ⟨[97], [], none⟩, ⟨[99, 99], [], none⟩] ∧
    sortedIDsAfter [⟨[101], [], none⟩, ⟨[98], [], none⟩, ⟨[100], [], none⟩, ⟨[97], [], none⟩, ⟨[99, 99], [], none⟩] [98] 2 =
      ([⟨[99, 99], [], none⟩, ⟨[100], [], none⟩], ⟨2, 1⟩) := by decide +kernel

/-! ### C44 Listing lists before an ID -/

/-- Paging backward depends on the order of iteration and can be wrong: with the lists "b", "c", "a"
iterated in this order, the page of the two lists preceding "z" is "a", "c", leaving out "b". -/
theorem C44_wrong_page : ¬ ∀ (lists : List Entry), DistinctLists lists → ∀ (stop : Str) (n : Nat), 1 ≤ n →
    let r := sortedIDsBefore lists stop n
    IsPageBefore lists stop n r.1 r.2.before r.2.after := by
  intro h
  have h1 := h [⟨[98], [], none⟩, ⟨[99], [], none⟩, ⟨[97], [], none⟩] (by decide +kernel) [122] 2 (by omega)
  have h2 : sortedIDsBefore [⟨[98], [], none⟩, ⟨[99], [], none⟩, ⟨[97], [], none⟩] [122] (2 : Nat) =
    ([⟨[97], [], none⟩, ⟨[99], [], none⟩], ⟨1, 0⟩) := by decide +kernel
  dsimp only at h1
  rw [h2] at h1
  obtain ⟨A, B, hp, hs, hA, hB, _⟩ := h1
  have hB0 : B = [] := List.length_eq_zero_iff.1 hB.symm
  subst hB0
  match A, hA with
  | [x], _ =>
    have hx : x ∈ ([⟨[98], [], none⟩, ⟨[99], [], none⟩, ⟨[97], [], none⟩] : List Entry) := hp.mem_iff.1 (by simp)
    have hlt : x.id < [97] := (List.pairwise_cons.1 hs).1 _ (List.mem_cons_self ..)
    have : ∀ x ∈ ([⟨[98], [], none⟩, ⟨[99], [], none⟩, ⟨[97], [], none⟩] : List Entry), ¬ x.id < [97] := by
      decide +kernel
    exact this x hx hlt

/-- What holds for pages of two or more lists, for every order of iteration: the page has the right number
of lists, sorted, all preceding the given ID, the counts are exact, and all lists of the page but the
smallest are right. Missing: the smallest list of the page may be the wrong one, see `C44_wrong_page`. -/
theorem C44_before_partial (lists : List Entry) (hnd : DistinctLists lists) (stop : Str) (n : Nat) (hn : 2 ≤ n) :
    let r := sortedIDsBefore lists stop n
    ∃ A B, (A ++ r.1 ++ B).Perm lists ∧ SortedByID r.1 ∧ r.2.before = A.length ∧ r.2.after = B.length ∧
      (∀ a ∈ A ++ r.1, a.id < stop) ∧ (∀ e ∈ B, ¬ e.id < stop) ∧
      r.1.length ≤ n ∧ (A ≠ [] → r.1.length = n) ∧
      ∀ a ∈ A, ∀ e ∈ r.1.tail, a.id < e.id := by
  intro r
  have hr : r = sortedIDsBefore lists stop n := rfl
  unfold sortedIDsBefore at hr
  rw [if_neg (by omega), if_neg (by omega), Int.toNat_natCast] at hr
  obtain ⟨a, b, hg⟩ := before_groups hnd stop hn
  dsimp only at hg hr
  rw [if_neg (fun h => by omega)] at hr
  obtain ⟨hp, hsa, hss, hsb, hb, ha, hA, hB, hl, hf, htail, _⟩ := hg
  obtain ⟨A, B, h3, h5, h6, h7⟩ := assemble' hnd (m := n) hp hl
  rw [hr]
  refine ⟨A, B, h3, ?_, ?_, ?_, ?_, ?_, ?_, ?_, ?_⟩
  · rw [sorted_map, h6]; exact hss
  · rw [← List.length_map (f := (·.id)), h5]; exact hb
  · rw [← List.length_map (f := (·.id)), h7]; exact ha
  · intro x hx
    apply hA
    rw [← h5, ← h6, ← List.map_append]
    exact List.mem_map_of_mem hx
  · intro x hx
    exact hB _ (h7 ▸ List.mem_map_of_mem hx)
  · rw [← List.length_map (f := (·.id)), h6]; exact hl
  · intro hAne
    rw [← List.length_map (f := (·.id)), h6]
    apply hf
    rintro rfl
    exact hAne (List.map_eq_nil_iff.1 h5)
  · intro x hx e he
    apply htail
    · exact h5 ▸ List.mem_map_of_mem hx
    · rw [← h6, ← List.map_tail]
      exact List.mem_map_of_mem he

/-- The page is exact if the list that is the first not to fit is not smaller than all lists met before
it; in particular if all matching lists fit the page. -/
theorem C44_before_favourable_partial (lists : List Entry) (hnd : DistinctLists lists) (stop : Str) (n : Nat)
    (hn : 2 ≤ n)
    (hord : ∀ e, (lists.filter fun e => decide (e.id < stop))[n]? = some e →
      ∃ x ∈ (lists.filter fun e => decide (e.id < stop)).take n, x.id < e.id) :
    let r := sortedIDsBefore lists stop n
    IsPageBefore lists stop n r.1 r.2.before r.2.after := by
  intro r
  have hr : r = sortedIDsBefore lists stop n := rfl
  unfold sortedIDsBefore at hr
  rw [if_neg (by omega), if_neg (by omega), Int.toNat_natCast] at hr
  obtain ⟨a, b, hg⟩ := before_groups hnd stop hn
  dsimp only at hg hr
  rw [if_neg (fun h => by omega)] at hr
  obtain ⟨hp, hsa, hss, hsb, hb, ha, hA, hB, hl, hf, _, hex⟩ := hg
  have hfm : (lists.map (·.id)).filter (fun id => decide (id < stop)) =
      (lists.filter fun e => decide (e.id < stop)).map (·.id) := by
    rw [List.filter_map]; rfl
  have hexact := hex (by
    rw [hfm]
    intro id hid
    rw [List.getElem?_map] at hid
    obtain ⟨e, he, rfl⟩ := Option.map_eq_some_iff.1 hid
    obtain ⟨x, hx, hlt⟩ := hord e he
    refine ⟨x.id, ?_, hlt⟩
    rw [← List.map_take]
    exact List.mem_map_of_mem hx)
  have hsorted : (a ++ sortIDs ((lists.map (·.id)).foldl (stepBefore stop n) {}).s ++ b).Pairwise (· < ·) := by
    rw [List.pairwise_append, List.pairwise_append]
    refine ⟨⟨hsa, hss, hexact⟩, hsb, ?_⟩
    intro x hx y hy
    have h1 := hA x hx
    have h2 := hB y hy
    by_cases he : y = stop
    · rw [he]; exact h1
    · exact slt_trans h1 (slt_tri h2 he)
  obtain ⟨A, B, h3, h4, h5, h6, h7⟩ := assemble hnd (m := n) hp hsorted hl
  rw [hr]
  refine ⟨A, B, h3, h4, ?_, ?_, ?_, ?_, ?_, ?_⟩
  · rw [← List.length_map (f := (·.id)), h5]; exact hb
  · rw [← List.length_map (f := (·.id)), h7]; exact ha
  · intro x hx
    apply hA
    rw [← h5, ← h6, ← List.map_append]
    exact List.mem_map_of_mem hx
  · intro x hx
    exact hB _ (h7 ▸ List.mem_map_of_mem hx)
  · rw [← List.length_map (f := (·.id)), h6]; exact hl
  · intro hAne
    rw [← List.length_map (f := (·.id)), h6]
    apply hf
    rintro rfl
    exact hAne (List.map_eq_nil_iff.1 h5)

/-- A page of one list is always wrong if there are two or more lists to choose from: the list returned is
not the one preceding the given ID, and the number of lists after the page is one too high. -/
theorem C44_page_of_one_wrong (lists : List Entry) (hnd : DistinctLists lists) (stop : Str)
    (h2 : 2 ≤ (lists.filter fun e => decide (e.id < stop)).length) :
    ∃ e, (sortedIDsBefore lists stop 1).1 = [e] ∧ (∃ better ∈ lists, better.id < stop ∧ e.id < better.id) ∧
      (sortedIDsBefore lists stop 1).2.after = (lists.filter fun e => decide (¬ e.id < stop)).length + 1 := by
  obtain ⟨a, b, hg⟩ := before_groups hnd stop (n := 2) (by omega)
  have hr : sortedIDsBefore lists stop 1 = sortedIDsBefore lists stop 1 := rfl
  conv at hr => rhs; unfold sortedIDsBefore
  rw [if_neg (by omega), if_pos rfl] at hr
  dsimp only at hg hr
  obtain ⟨hp, hsa, hss, hsb, hb, ha, hA, hB, hl, hf, _, hex⟩ := hg
  have hafter := (scanBefore_inv (stop := stop) (n := 2) (by omega) hnd).after
  generalize (lists.map (·.id)).foldl (stepBefore stop 2) {} = st at *
  have hfl : ((lists.map (·.id)).filter fun id => decide (id < stop)).length = a.length + (sortIDs st.s).length := by
    rw [← (hp.filter _).length_eq, List.filter_append, List.length_append]
    rw [List.filter_eq_self.2 (fun x hx => by simpa using hA x hx)]
    rw [List.filter_eq_nil_iff.2 (fun x hx => by simpa using hB x hx)]
    simp
  rw [List.filter_map, List.length_map] at hfl
  have hfl' : (lists.filter fun e => decide (e.id < stop)).length = a.length + (sortIDs st.s).length := hfl
  have hlen : (sortIDs st.s).length = 2 := by
    by_cases ha0 : a = []
    · rw [ha0] at hfl'; simp at hfl'; omega
    · exact hf ha0
  rw [if_pos ⟨rfl, by omega⟩] at hr
  match hs : sortIDs st.s, hlen with
  | [x, y], _ =>
    rw [hs] at hr hp hss hA
    have hmem : ∀ z ∈ [x, y], ∃ e ∈ lists, e.id = z := by
      intro z hz
      have := hp.mem_iff.1 (List.mem_append_left b (List.mem_append_right a hz))
      obtain ⟨e, he, h⟩ := List.mem_map.1 this
      exact ⟨e, he, h⟩
    obtain ⟨e, he, hex⟩ := hmem x (by simp)
    obtain ⟨e', he', hey⟩ := hmem y (by simp)
    have hxy : x < y := (List.pairwise_cons.1 hss).1 y (by simp)
    refine ⟨e, ?_, ⟨e', he', ?_, ?_⟩, ?_⟩
    · rw [hr]
      show fetch lists 2 [x] = [e]
      unfold fetch
      rw [← hex]
      simp [byID_of_mem hnd he]
    · rw [hey]; exact hA y (by simp)
    · rw [hex, hey]; exact hxy
    · rw [hr]
      show st.page.after + 1 = _
      rw [hafter, List.filter_map, List.length_map]
      rfl

/-- Non-vacuity: five lists in an order for which the page is exact, and the page of one. -/
example : DistinctLists [⟨[98], [], none⟩, ⟨[97], [], none⟩, ⟨[100], [], none⟩, ⟨[99], [], none⟩, ⟨[101], [], none⟩] ∧
    sortedIDsBefore [⟨[98], [], none⟩, ⟨[97], [], none⟩, ⟨[100], [], none⟩, ⟨[99], [], none⟩, ⟨[101], [], none⟩] [101] 2 =
      ([⟨[99], [], none⟩, ⟨[100], [], none⟩], ⟨2, 1⟩) ∧
    sortedIDsBefore [⟨[98], [], none⟩, ⟨[97], [], none⟩, ⟨[100], [], none⟩, ⟨[99], [], none⟩, ⟨[101], [], none⟩] [101] 1 =
      ([⟨[99], [], none⟩], ⟨2, 2⟩) := by decide +kernel

/-! ### C45 Selecting lists by metadata and set -/

/-- A list with a metadata map matches a query value `""` also if it does not have the field. -/
theorem C45_missing_field_matches : ¬ ∀ (lists : List Entry) (q : List (Str × Str)) (sets : List Str), DistinctLists lists →
    ∀ id, id ∈ matchAll lists q sets ↔ ∃ e ∈ lists, e.id = id ∧
      (e.set ∈ sets ∨ q ≠ [] ∧ ∃ m, e.metadata = some m ∧ ∀ kv ∈ q, kv ∈ m) := by
  intro h
  have := (h [⟨[97], [], some [([1], [2])]⟩] [([107], [])] [] (by decide +kernel) [97]).1 (by decide +kernel)
  obtain ⟨e, he, _, h2⟩ := this
  simp only [List.mem_singleton] at he
  subst he
  rcases h2 with h2 | ⟨_, m, hm, h3⟩
  · simp at h2
  · simp only [Option.some.injEq] at hm
    subst hm
    exact absurd (h3 ([107], []) (by simp)) (by decide +kernel)

theorem lookup_eq {m : List (Str × Str)} (hm : (m.map (·.1)).Nodup) {k v : Str} :
    lookup m k = v ↔ (k, v) ∈ m ∨ (v = [] ∧ k ∉ m.map (·.1)) := by
  unfold lookup
  induction m with
  | nil => simp [eq_comm]
  | cons p m ih =>
    rw [List.map_cons, List.nodup_cons] at hm
    rw [List.find?_cons]
    by_cases hk : p.1 = k
    · subst hk
      have : ∀ v, (p.1, v) ∉ m := fun v h => hm.1 (List.mem_map_of_mem (f := (·.1)) h)
      simp only [beq_self_eq_true, Option.map_some, Option.getD_some, List.mem_cons, this, or_false, List.map_cons,
        true_or, not_true_eq_false, and_false]
      constructor
      · rintro rfl; rfl
      · intro h; rw [← h]
    · have hb : (p.1 == k) = false := by simpa using hk
      rw [hb]
      simp only
      rw [ih hm.2]
      have h1 : (k, v) ≠ p := by rintro rfl; exact hk rfl
      simp only [List.mem_cons, h1, false_or, List.map_cons, Ne.symm hk]

/-- Exactly what is selected, each list once: a list is selected if it is in one of the sets or if it has a
metadata map, there is a query and every queried field has the queried value, where a field that is
missing in the map counts as empty. -/
theorem C45_selected (lists : List Entry) (hnd : DistinctLists lists) (q : List (Str × Str)) (sets : List Str)
    (hmap : ∀ e ∈ lists, ∀ m, e.metadata = some m → (m.map (·.1)).Nodup) :
    (matchAll lists q sets).Nodup ∧ ∀ id, id ∈ matchAll lists q sets ↔ ∃ e ∈ lists, e.id = id ∧
      (e.set ∈ sets ∨ q ≠ [] ∧ ∃ m, e.metadata = some m ∧
        ∀ kv ∈ q, kv ∈ m ∨ (kv.2 = [] ∧ kv.1 ∉ m.map (·.1))) := by
  have hsel : ∀ e ∈ lists, (selects q sets e = true ↔ (e.set ∈ sets ∨ q ≠ [] ∧ ∃ m, e.metadata = some m ∧
        ∀ kv ∈ q, kv ∈ m ∨ (kv.2 = [] ∧ kv.1 ∉ m.map (·.1)))) := by
    intro e he
    unfold selects
    by_cases hset : e.set ∈ sets
    · have : sets.length > 0 := by
        cases sets with
        | nil => simp at hset
        | cons => simp
      simp [hset, this]
    · have hc : (decide (sets.length > 0) && sets.contains e.set) = false := by
        simp [hset]
      rw [hc]
      simp only [Bool.false_eq_true, if_false, hset, false_or]
      cases hmd : e.metadata with
      | none => simp
      | some m =>
        simp only
        by_cases hq : q = []
        · simp [hq]
        · have hl : ¬ q.length = 0 := by rwa [List.length_eq_zero_iff]
          rw [if_neg hl, List.all_eq_true]
          constructor
          · intro h
            refine ⟨hq, m, rfl, fun kv hkv => ?_⟩
            have := h kv hkv
            rw [beq_iff_eq, lookup_eq (hmap e he m hmd)] at this
            exact this
          · rintro ⟨_, m', hm', h⟩ kv hkv
            injection hm' with hm'
            subst hm'
            rw [beq_iff_eq, lookup_eq (hmap e he m hmd)]
            exact h kv hkv
  unfold matchAll
  by_cases h0 : (decide (q.length = 0) && decide (sets.length = 0)) = true
  · rw [if_pos h0]
    simp only [Bool.and_eq_true, decide_eq_true_eq, List.length_eq_zero_iff] at h0
    obtain ⟨rfl, rfl⟩ := h0
    simp
  · rw [if_neg h0]
    refine ⟨?_, fun id => ?_⟩
    · exact List.Pairwise.sublist (List.Sublist.map _ List.filter_sublist) hnd
    · rw [List.mem_map]
      constructor
      · rintro ⟨e, he, rfl⟩
        obtain ⟨h1, h2⟩ := List.mem_filter.1 he
        exact ⟨e, h1, rfl, (hsel e h1).1 h2⟩
      · rintro ⟨e, he, rfl, h⟩
        exact ⟨e, List.mem_filter.2 ⟨he, (hsel e he).2 h⟩, rfl⟩

/-- The documented selection, for queries that do not ask for an empty value. Missing: queries for an empty
value also match lists without the field, see `C45_missing_field_matches`. -/
theorem C45_matchAll_partial (lists : List Entry) (hnd : DistinctLists lists) (q : List (Str × Str)) (sets : List Str)
    (hmap : ∀ e ∈ lists, ∀ m, e.metadata = some m → (m.map (·.1)).Nodup) (hq : ∀ kv ∈ q, kv.2 ≠ []) :
    (matchAll lists q sets).Nodup ∧ ∀ id, id ∈ matchAll lists q sets ↔ ∃ e ∈ lists, e.id = id ∧
      (e.set ∈ sets ∨ q ≠ [] ∧ ∃ m, e.metadata = some m ∧ ∀ kv ∈ q, kv ∈ m) := by
  obtain ⟨h1, h2⟩ := C45_selected lists hnd q sets hmap
  refine ⟨h1, fun id => ?_⟩
  rw [h2 id]
  constructor
  · rintro ⟨e, he, hid, h⟩
    refine ⟨e, he, hid, h.imp (fun h' => h') fun ⟨hne, m, hm, h⟩ => ⟨hne, m, hm, fun kv hkv => ?_⟩⟩
    exact (h kv hkv).resolve_right fun h' => hq kv hkv h'.1
  · rintro ⟨e, he, hid, h⟩
    exact ⟨e, he, hid, h.imp (fun h' => h') fun ⟨hne, m, hm, h⟩ => ⟨hne, m, hm, fun kv hkv => Or.inl (h kv hkv)⟩⟩

/-- With neither sets nor fields nothing is selected. -/
theorem C45_nothing (lists : List Entry) : matchAll lists [] [] = [] := rfl

example : matchAll [⟨[1], [9], none⟩, ⟨[2], [8], some [([5], [6]), ([7], [7])]⟩, ⟨[3], [8], some [([5], [7])]⟩]
    [([5], [6])] [[9]] = [[1], [2]] := by decide +kernel

/-! ### C69 Existing lists -/

/-- The IDs that exist are exactly those of lists in the catalogue, in the order given. -/
theorem C69_existing (lists : List Entry) (ids : List Str) :
    (existing lists ids).Sublist ids ∧ (∀ id, id ∈ existing lists ids ↔ id ∈ ids ∧ ∃ e ∈ lists, e.id = id) := by
  refine ⟨List.filter_sublist, fun id => ?_⟩
  unfold existing byID
  rw [List.mem_filter, List.find?_isSome]
  simp only [beq_iff_eq]

/-! ### C48 Set operations on list IDs -/

theorem dedupLoop_spec (prev : Str) (l : List Str) (h : (prev :: l).Pairwise fun a b => ¬ b < a) :
    (dedupLoop prev l).1.Pairwise (· < ·) ∧ (∀ x, x ∈ (dedupLoop prev l).1 ↔ x ∈ prev :: l) ∧
    ((dedupLoop prev l).2 = false ↔ (prev :: l).Nodup) := by
  induction l generalizing prev with
  | nil => simp [dedupLoop]
  | cons e l ih =>
    have ⟨h1, h2⟩ := List.pairwise_cons.1 h
    unfold dedupLoop
    by_cases he : prev = e
    · subst he
      have hp : (prev :: l).Pairwise fun a b => ¬ b < a := h2
      obtain ⟨i1, i2, i3⟩ := ih prev hp
      simp only [bne_self_eq_false, Bool.false_eq_true, if_false]
      refine ⟨i1, fun x => ?_, ?_⟩
      · rw [i2]; simp
      · simp
    · have hb : (prev != e) = true := by simpa using he
      simp only [hb, if_true]
      obtain ⟨i1, i2, i3⟩ := ih e h2
      have hlt : ∀ x ∈ e :: l, prev < x := by
        intro x hx
        have hpe : prev < e := slt_tri (h1 e (by simp)) (Ne.symm he)
        rcases List.mem_cons.1 hx with rfl | hx
        · exact hpe
        · have h3 := (List.pairwise_cons.1 h2).1 x hx
          by_cases hxe : x = e
          · rw [hxe]; exact hpe
          · exact slt_trans hpe (slt_tri h3 hxe)
      refine ⟨?_, fun x => ?_, ?_⟩
      · exact List.pairwise_cons.2 ⟨fun x hx => hlt x ((i2 x).1 hx), i1⟩
      · rw [List.mem_cons, i2, List.mem_cons, List.mem_cons, List.mem_cons]
      · rw [i3]
        constructor
        · intro hn
          exact List.nodup_cons.2 ⟨fun hm => slt_irrefl _ (hlt prev hm), hn⟩
        · intro hn; exact (List.nodup_cons.1 hn).2

/-- Each list ID once, in ascending order, and the result says whether something was removed. -/
theorem C48_deduplicate_lists (ids : List Str) :
    (deduplicate ids).1.Pairwise (· < ·) ∧ (∀ x, x ∈ (deduplicate ids).1 ↔ x ∈ ids) ∧
    ((deduplicate ids).2 = false ↔ ids.Nodup) := by
  have hp := sortIDs_perm ids
  have hs : (sortIDs ids).Pairwise fun a b => ¬ b < a := by
    have : (sortIDs ids).Pairwise fun a b => decide (¬ b < a) = true := by
      apply goSort_sorted
      · intro a b c h1 h2
        simp only [decide_eq_true_eq] at *
        intro h3
        by_cases he : a = b
        · subst he; exact h2 h3
        · exact h2 (slt_trans h3 (slt_tri h1 (Ne.symm he)))
      · intro a b
        simp only [Bool.or_eq_true, decide_eq_true_eq]
        by_cases h : b < a
        · exact Or.inr fun h' => slt_irrefl _ (slt_trans h h')
        · exact Or.inl h
    exact this.imp fun h => by simpa using h
  unfold deduplicate
  cases hh : sortIDs ids with
  | nil =>
    rw [hh] at hp
    have : ids = [] := hp.nil_eq.symm
    subst this
    simp
  | cons e l =>
    rw [hh] at hp hs
    obtain ⟨h1, h2, h3⟩ := dedupLoop_spec e l hs
    exact ⟨h1, fun x => (h2 x).trans hp.mem_iff, h3.trans hp.nodup_iff⟩

example : deduplicate [[2], [1, 0], [2], [1]] = ([[1], [1, 0], [2]], true) := by decide +kernel

end Props
end RankDB

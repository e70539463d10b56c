import Verif.Proofs.Order
/-
Helper lemmas about the functions on element slices.
-/
namespace RankDB
open Spec

theorem Spec.Ranked.tail {a : Element} {l : List Element} (h : Ranked (a :: l)) : Ranked l :=
  (List.pairwise_cons.1 h).2

theorem Spec.Ranked.head {a : Element} {l : List Element} (h : Ranked (a :: l)) :
    ∀ b ∈ l, ¬ RanksAbove b a := (List.pairwise_cons.1 h).1

theorem ranked_cons {a : Element} {l : List Element} :
    Ranked (a :: l) ↔ (∀ b ∈ l, ¬ RanksAbove b a) ∧ Ranked l := List.pairwise_cons

namespace Elements

/-! ### Insert -/

theorem insert_perm (l : List Element) (e : Element) : (insert l e).1.Perm (e :: l) := by
  induction l with
  | nil => simp [insert]
  | cons a l ih =>
    unfold insert
    split
    · exact (ih.cons a).trans (.swap e a l)
    · exact .refl _

theorem insert_ranked (l : List Element) (e : Element) (h : Ranked l) : Ranked (insert l e).1 := by
  induction l with
  | nil => simp [insert, Ranked]
  | cons a l ih =>
    unfold insert
    split
    · rename_i ha
      rw [above_iff] at ha
      refine ranked_cons.2 ⟨?_, ih h.tail⟩
      intro b hb
      rcases List.mem_cons.1 ((insert_perm l e).mem_iff.1 hb) with rfl | hb
      · exact ranksAbove_asymm ha
      · exact h.head b hb
    · rename_i ha
      rw [above_iff] at ha
      refine ranked_cons.2 ⟨?_, h⟩
      intro b hb
      rcases List.mem_cons.1 hb with rfl | hb
      · exact ha
      · exact not_ranksAbove_trans ha (h.head b hb)

theorem insert_idx (l : List Element) (e : Element) : (insert l e).1[(insert l e).2]? = some e := by
  induction l with
  | nil => simp [insert]
  | cons a l ih =>
    unfold insert
    split
    · simpa using ih
    · simp

/-! ### Position and rank -/

theorem rank_of_getElem {l : List Element} (hs : l.Pairwise RanksAbove) {i : Nat} {e : Element}
    (h : l[i]? = some e) : rankFromTop l e = i ∧ rankFromBottom l e = l.length - i - 1 := by
  induction l generalizing i with
  | nil => simp at h
  | cons a l ih =>
    have ⟨h1, h2⟩ := List.pairwise_cons.1 hs
    cases i with
    | zero =>
      simp only [List.getElem?_cons_zero, Option.some.injEq] at h
      subst h
      constructor
      · unfold rankFromTop
        rw [List.countP_eq_zero]
        intro b hb
        rcases List.mem_cons.1 hb with rfl | hb
        · simpa using ranksAbove_irrefl b
        · simpa using ranksAbove_asymm (h1 b hb)
      · unfold rankFromBottom
        rw [List.countP_cons]
        have : List.countP (fun b => decide (RanksAbove a b)) l = l.length := by
          rw [List.countP_eq_length]
          intro b hb
          simpa using h1 b hb
        simp [this, ranksAbove_irrefl]
    | succ i =>
      simp only [List.getElem?_cons_succ] at h
      have hi : i < l.length := (List.getElem?_eq_some_iff.1 h).1
      have hm : e ∈ l := List.mem_of_getElem? h
      have ⟨r1, r2⟩ := ih h2 h
      constructor
      · unfold rankFromTop at *
        rw [List.countP_cons, r1]
        simp [h1 e hm]
      · unfold rankFromBottom at *
        rw [List.countP_cons, r2]
        simp [ranksAbove_asymm (h1 e hm)]

theorem findIdx_some {l : List Element} {id i : Nat} (h : findIdx l id = some i) :
    ∃ e, l[i]? = some e ∧ e.id = id := by
  induction l generalizing i with
  | nil => simp [findIdx] at h
  | cons a l ih =>
    unfold findIdx at h
    split at h
    · simp only [Option.some.injEq] at h
      subst h
      rename_i hid
      exact ⟨a, rfl, by simpa using hid⟩
    · rw [Option.map_eq_some_iff] at h
      obtain ⟨j, hj, rfl⟩ := h
      simpa using ih hj

theorem findIdx_none {l : List Element} {id : Nat} (h : findIdx l id = none) :
    ∀ e ∈ l, e.id ≠ id := by
  induction l with
  | nil => simp
  | cons a l ih =>
    unfold findIdx at h
    split at h
    · simp at h
    · rename_i hne
      rw [Option.map_eq_none_iff] at h
      intro e he
      rcases List.mem_cons.1 he with rfl | he
      · simpa using hne
      · exact ih h e he

theorem findIdx_isSome_iff {l : List Element} {id : Nat} :
    (findIdx l id).isSome ↔ ∃ e ∈ l, e.id = id := by
  constructor
  · intro h
    obtain ⟨i, hi⟩ := Option.isSome_iff_exists.1 h
    obtain ⟨e, he, hid⟩ := findIdx_some hi
    exact ⟨e, List.mem_of_getElem? he, hid⟩
  · rintro ⟨e, he, hid⟩
    cases h : findIdx l id with
    | some _ => rfl
    | none => exact absurd hid (findIdx_none h e he)

/-! ### Merge -/

theorem mergeAlloc_nil (l : List Element) : mergeAlloc l [] = l := by
  induction l with
  | nil => rfl
  | cons a l ih => simp [mergeAlloc, mergeAlloc.go, ih]

theorem mergeAlloc_cons (a b : Element) (l ins : List Element) :
    mergeAlloc (a :: l) (b :: ins) =
      if a.above b then a :: mergeAlloc l (b :: ins) else b :: mergeAlloc (a :: l) ins := rfl

theorem mergeAlloc_perm (l ins : List Element) : (mergeAlloc l ins).Perm (l ++ ins) := by
  induction l generalizing ins with
  | nil => exact .refl _
  | cons a l ih =>
    induction ins with
    | nil => simp [mergeAlloc_nil]
    | cons b ins ih2 =>
      rw [mergeAlloc_cons]
      split
      · exact (ih _).cons a
      · exact (ih2.cons b).trans (List.perm_middle.symm)

theorem mergeAlloc_ranked (l ins : List Element) (hl : Ranked l) (hi : Ranked ins) :
    Ranked (mergeAlloc l ins) := by
  induction l generalizing ins with
  | nil => exact hi
  | cons a l ih =>
    induction ins with
    | nil => simpa [mergeAlloc_nil] using hl
    | cons b ins ih2 =>
      rw [mergeAlloc_cons]
      split
      · rename_i h
        refine ranked_cons.2 ⟨?_, ih _ hl.tail hi⟩
        intro c hc
        rw [(mergeAlloc_perm _ _).mem_iff] at hc
        rw [above_iff] at h
        rcases List.mem_append.1 hc with hc | hc
        · exact hl.head c hc
        · rcases List.mem_cons.1 hc with rfl | hc
          · exact ranksAbove_asymm h
          · exact not_ranksAbove_trans (ranksAbove_asymm h) (hi.head c hc)
      · rename_i h
        refine ranked_cons.2 ⟨?_, ih2 hi.tail⟩
        intro c hc
        rw [(mergeAlloc_perm _ _).mem_iff] at hc
        rw [above_iff] at h
        rcases List.mem_append.1 hc with hc | hc
        · rcases List.mem_cons.1 hc with rfl | hc
          · exact h
          · exact not_ranksAbove_trans h (hl.head c hc)
        · exact hi.head c hc

theorem mergeInPlace_nil (ins : List Element) : mergeInPlace ins [] = ins := by
  cases ins <;> rfl

theorem mergeInPlace_cons (a b : Element) (l ins : List Element) :
    mergeInPlace (b :: ins) (a :: l) =
      if a.above b then a :: mergeInPlace (b :: ins) l else mergeInPlace ins (b :: a :: l) := rfl

theorem mergeInPlace_perm (ins l : List Element) : (mergeInPlace ins l).Perm (l ++ ins) := by
  induction ins generalizing l with
  | nil => simp [mergeInPlace]
  | cons b ins ih =>
    induction l with
    | nil => simp [mergeInPlace_nil]
    | cons a l ih2 =>
      rw [mergeInPlace_cons]
      split
      · exact ih2.cons a
      · exact (ih _).trans (List.perm_middle (l₁ := a :: l)).symm

theorem mergeInPlace_ranked (ins l : List Element) (hl : Ranked l) (hi : Ranked ins) :
    Ranked (mergeInPlace ins l) := by
  induction ins generalizing l with
  | nil => exact hl
  | cons b ins ih =>
    induction l with
    | nil => simpa [mergeInPlace_nil] using hi
    | cons a l ih2 =>
      rw [mergeInPlace_cons]
      split
      · rename_i h
        refine ranked_cons.2 ⟨?_, ih2 hl.tail⟩
        intro c hc
        rw [(mergeInPlace_perm _ _).mem_iff] at hc
        rw [above_iff] at h
        rcases List.mem_append.1 hc with hc | hc
        · exact hl.head c hc
        · rcases List.mem_cons.1 hc with rfl | hc
          · exact ranksAbove_asymm h
          · exact not_ranksAbove_trans (ranksAbove_asymm h) (hi.head c hc)
      · rename_i h
        refine ih _ (ranked_cons.2 ⟨?_, hl⟩) hi.tail
        rw [above_iff] at h
        intro c hc
        rcases List.mem_cons.1 hc with rfl | hc
        · exact h
        · exact not_ranksAbove_trans h (hl.head c hc)

/-- Both paths give the same slice if the inserted slice is strictly ranked. -/
theorem mergeInPlace_eq_mergeAlloc (l ins : List Element) (hi : ins.Pairwise RanksAbove) :
    mergeInPlace ins l = mergeAlloc l ins := by
  induction ins generalizing l with
  | nil => rw [mergeAlloc_nil]; rfl
  | cons b ins ih =>
    have ⟨h1, h2⟩ := List.pairwise_cons.1 hi
    induction l with
    | nil => simp [mergeInPlace_nil, mergeAlloc]
    | cons a l ih2 =>
      rw [mergeInPlace_cons, mergeAlloc_cons]
      split
      · rw [ih2]
      · rw [ih _ h2]
        cases ins with
        | nil => simp [mergeAlloc_nil]
        | cons c ins => rw [mergeAlloc_cons, if_pos ((above_iff _ _).2 (h1 c (by simp)))]

theorem merge_perm (cap : Nat) (sliced : Bool) (l ins : List Element) :
    (merge cap sliced l ins).Perm (l ++ ins) := by
  unfold merge
  split
  · rename_i h
    simp at h
    simp [h]
  · split
    · exact mergeAlloc_perm l ins
    · exact mergeInPlace_perm ins l

theorem merge_ranked (cap : Nat) (sliced : Bool) (l ins : List Element) (hl : Ranked l)
    (hi : Ranked ins) : Ranked (merge cap sliced l ins) := by
  unfold merge
  split
  · exact hl
  · split
    · exact mergeAlloc_ranked l ins hl hi
    · exact mergeInPlace_ranked ins l hl hi

theorem merge_eq_mergeAlloc (cap : Nat) (sliced : Bool) (l ins : List Element)
    (hi : ins.Pairwise RanksAbove) : merge cap sliced l ins = mergeAlloc l ins := by
  unfold merge
  split
  · rename_i h
    simp at h
    subst h
    rw [mergeAlloc_nil]
  · split
    · rfl
    · exact mergeInPlace_eq_mergeAlloc l ins hi

/-! ### Deduplicate -/

theorem dedupLoop_mem (prev : Element) (l : List Element) :
    ∀ e ∈ (dedupLoop prev l).1, e ∈ prev :: l := by
  induction l generalizing prev with
  | nil => simp [dedupLoop]
  | cons a l ih =>
    intro e he
    unfold dedupLoop at he
    split at he
    · rcases List.mem_cons.1 he with rfl | he
      · simp
      · exact List.mem_cons_of_mem _ (ih a e he)
    · simp only at he
      split at he
      · exact List.mem_cons_of_mem _ (ih _ e he)
      · have := ih _ e he
        simp only [List.mem_cons] at this ⊢
        rcases this with h | h
        · exact Or.inl h
        · exact Or.inr (Or.inr h)

/-- `k` is the element kept in place of `e`. -/
def Keeps (k e : Element) : Prop :=
  k.id = e.id ∧ (e.updated < k.updated ∨ (e.updated = k.updated ∧ k.score ≤ e.score))

theorem Keeps.trans {a b c : Element} (h1 : Keeps a b) (h2 : Keeps b c) : Keeps a c := by
  unfold Keeps at *; omega

theorem Keeps.refl (a : Element) : Keeps a a := by unfold Keeps; omega

theorem dedupLoop_keeps (prev : Element) (l : List Element) :
    ∀ e ∈ prev :: l, ∃ k ∈ (dedupLoop prev l).1, Keeps k e := by
  induction l generalizing prev with
  | nil => intro e he; exact ⟨e, by simpa [dedupLoop] using he, Keeps.refl e⟩
  | cons a l ih =>
    intro e he
    unfold dedupLoop
    split
    · rcases List.mem_cons.1 he with rfl | he
      · exact ⟨e, by simp, Keeps.refl e⟩
      · obtain ⟨k, hk, h⟩ := ih a e he
        exact ⟨k, by simp [hk], h⟩
    · rename_i hid
      simp only [bne_iff_ne, ne_eq, Decidable.not_not] at hid
      simp only
      split
      · rename_i hd
        rcases List.mem_cons.1 he with rfl | he
        · obtain ⟨k, hk, h⟩ := ih a a (by simp)
          refine ⟨k, hk, h.trans ?_⟩
          unfold Keeps
          unfold dropsPrev at hd
          split at hd <;> simp at * <;> omega
        · exact ih a e he
      · rename_i hd
        rcases List.mem_cons.1 he with rfl | he
        · exact ih e e (by simp)
        · rcases List.mem_cons.1 he with rfl | he
          · obtain ⟨k, hk, h⟩ := ih prev prev (by simp)
            refine ⟨k, hk, h.trans ?_⟩
            unfold Keeps
            unfold dropsPrev at hd
            split at hd <;> simp at * <;> omega
          · exact ih prev e (by simp [he])

theorem dedupLoop_sorted (prev : Element) (l : List Element)
    (h : (prev :: l).Pairwise fun a b => a.id ≤ b.id) :
    (dedupLoop prev l).1.Pairwise (fun a b => a.id < b.id) := by
  induction l generalizing prev with
  | nil => simp [dedupLoop]
  | cons a l ih =>
    have ⟨h1, h2⟩ := List.pairwise_cons.1 h
    have ⟨h3, h4⟩ := List.pairwise_cons.1 h2
    unfold dedupLoop
    split
    · rename_i hid
      simp only [bne_iff_ne, ne_eq] at hid
      refine List.pairwise_cons.2 ⟨?_, ih a h2⟩
      intro b hb
      have := h1 a (by simp)
      rcases List.mem_cons.1 (dedupLoop_mem a l b hb) with rfl | hb
      · omega
      · have := h3 b hb
        omega
    · simp only
      split
      · exact ih a h2
      · exact ih prev (List.pairwise_cons.2 ⟨fun b hb => h1 b (by simp [hb]), h4⟩)

theorem dedupLoop_changed (prev : Element) (l : List Element)
    (h : (prev :: l).Pairwise fun a b => a.id ≤ b.id) :
    (dedupLoop prev l).2 = false ↔ DistinctIDs (prev :: l) := by
  induction l generalizing prev with
  | nil => simp [dedupLoop, DistinctIDs]
  | cons a l ih =>
    have ⟨h1, h2⟩ := List.pairwise_cons.1 h
    have ⟨h3, h4⟩ := List.pairwise_cons.1 h2
    unfold dedupLoop
    split
    · rename_i hid
      simp only [bne_iff_ne, ne_eq] at hid
      simp only [ih a h2, DistinctIDs, List.map_cons, List.nodup_cons, List.mem_cons, List.mem_map,
        not_or, not_exists, not_and]
      constructor
      · rintro ⟨h5, h6⟩
        refine ⟨⟨hid, ?_⟩, h5, h6⟩
        intro b hb hbid
        have := h1 a (by simp)
        have := h3 b hb
        omega
      · rintro ⟨_, h5, h6⟩
        exact ⟨h5, h6⟩
    · rename_i hid
      simp only [bne_iff_ne, ne_eq, Decidable.not_not] at hid
      simp [DistinctIDs, hid]

theorem deduplicateFrom_spec {l byID : List Element} (hp : byID.Perm l)
    (hs : byID.Pairwise fun a b => a.id ≤ b.id) :
    Ranked (deduplicateFrom byID).1 ∧ DistinctIDs (deduplicateFrom byID).1 ∧
    (∀ e ∈ (deduplicateFrom byID).1, e ∈ l) ∧
    (∀ e ∈ l, ∃ k ∈ (deduplicateFrom byID).1, Keeps k e) ∧
    ((deduplicateFrom byID).2 = false ↔ DistinctIDs l) := by
  cases byID with
  | nil =>
    have : l = [] := by simpa using hp.symm.eq_nil
    subst this
    simp [deduplicateFrom, sortSlice, goSort, Ranked, DistinctIDs]
  | cons p byID =>
    have hsp := sortSlice_perm (dedupLoop p byID).1
    refine ⟨sortSlice_ranked _, ?_, ?_, ?_, ?_⟩
    · refine Spec.DistinctIDs.perm hsp.symm ?_
      have := dedupLoop_sorted p byID hs
      unfold DistinctIDs
      exact List.pairwise_map.2 (this.imp fun h => Nat.ne_of_lt h)
    · intro e he
      exact hp.mem_iff.1 (dedupLoop_mem p byID e (hsp.mem_iff.1 he))
    · intro e he
      obtain ⟨k, hk, h⟩ := dedupLoop_keeps p byID e (hp.mem_iff.2 he)
      exact ⟨k, hsp.mem_iff.2 hk, h⟩
    · rw [show (deduplicateFrom (p :: byID)).2 = (dedupLoop p byID).2 from rfl,
        dedupLoop_changed p byID hs]
      exact ⟨fun h => Spec.DistinctIDs.perm hp h, fun h => Spec.DistinctIDs.perm hp.symm h⟩

theorem idSort_pairwise (l : List Element) :
    (goSort (fun a b => decide (a.id ≤ b.id)) l).Pairwise fun a b => a.id ≤ b.id := by
  have := goSort_sorted (le := fun a b : Element => decide (a.id ≤ b.id))
    (by intro a b c h1 h2; simp at *; omega) (by intro a b; simp; omega) l
  simpa using this

theorem deduplicate_spec (l : List Element) :
    Ranked (deduplicate l).1 ∧ DistinctIDs (deduplicate l).1 ∧
    (∀ e ∈ (deduplicate l).1, e ∈ l) ∧
    (∀ e ∈ l, ∃ k ∈ (deduplicate l).1, Keeps k e) ∧
    ((deduplicate l).2 = false ↔ DistinctIDs l) :=
  deduplicateFrom_spec (goSort_perm _ l) (idSort_pairwise l)

/-! ### Delete, Update, Add -/

theorem delete_none {l : List Element} {id : Nat} : delete l id = none ↔ ∀ e ∈ l, e.id ≠ id := by
  induction l with
  | nil => simp [delete]
  | cons a l ih =>
    unfold delete
    split
    · rename_i h
      simp at h
      simp [h]
    · rename_i h
      simp at h
      simp [ih, h]

theorem delete_some {l l' : List Element} {id : Nat} (hd : DistinctIDs l)
    (h : delete l id = some l') : l' = l.filter (fun e => e.id != id) := by
  induction l generalizing l' with
  | nil => simp [delete] at h
  | cons a l ih =>
    have hd2 : DistinctIDs l := (List.nodup_cons.1 hd).2
    have hd1 := (List.nodup_cons.1 hd).1
    simp only [List.mem_map, not_exists, not_and] at hd1
    unfold delete at h
    split at h
    · rename_i hid
      simp only [beq_iff_eq] at hid
      simp only [Option.some.injEq] at h
      subst h
      rw [List.filter_cons_of_neg (by simp [hid])]
      symm
      rw [List.filter_eq_self]
      intro b hb
      have := hd1 b hb
      simp; omega
    · rename_i hid
      simp only [beq_iff_eq] at hid
      rw [Option.map_eq_some_iff] at h
      obtain ⟨m, hm, rfl⟩ := h
      rw [List.filter_cons_of_pos (by simp [hid]), ih hd2 hm]

theorem delete_isSome {l : List Element} {id : Nat} : (delete l id).isSome ↔ ∃ e ∈ l, e.id = id := by
  rw [← Option.ne_none_iff_isSome, ne_eq, delete_none]
  simp

theorem touch_id (now : Nat) (e : Element) : (touch now e).id = e.id := by
  unfold touch; split <;> rfl

theorem touch_of_ne {now : Nat} {e : Element} (h : e.updated ≠ 0) : touch now e = e := by
  unfold touch; simp [h]

theorem touch_touch (now : Nat) (e : Element) : touch now (touch now e) = touch now e := by
  unfold touch; split
  · split <;> rfl
  · simp_all

theorem idxRank_insert (l : List Element) (e : Element) :
    idxRank (insert l e).1 (insert l e).2 =
      some ⟨(insert l e).2, (insert l e).1.length - (insert l e).2 - 1⟩ := by
  have h := insert_idx l e
  have : (insert l e).2 < (insert l e).1.length := 
    (List.getElem?_eq_some_iff.1 h).1
  unfold idxRank
  rw [if_neg (by omega)]

/-- `Update` in terms of filtering. -/
theorem update_eq (now : Nat) (l : List Element) (e : Element) (hd : DistinctIDs l) :
    update now l e = if ∃ a ∈ l, a.id = e.id then
      let r := insert (l.filter fun a => a.id != e.id) (touch now e)
      some (r.1, some ⟨r.2, r.1.length - r.2 - 1⟩) else none := by
  unfold update
  simp only [touch_id]
  split
  · rename_i h
    rw [delete_none] at h
    rw [if_neg (by rintro ⟨a, ha, hid⟩; exact h a ha hid)]
  · rename_i l' h
    have h1 : ∃ a ∈ l, a.id = e.id := delete_isSome.1 (by simp [h])
    rw [if_pos h1, delete_some hd h, idxRank_insert]

theorem add_eq (now : Nat) (l : List Element) (e : Element) (hd : DistinctIDs l) :
    add now l e =
      let r := insert (l.filter fun a => a.id != e.id) (touch now e)
      (r.1, some ⟨r.2, r.1.length - r.2 - 1⟩) := by
  unfold add
  simp only [touch_id]
  split
  · rename_i i h
    have h1 : ∃ a ∈ l, a.id = e.id := findIdx_isSome_iff.1 (by simp [h])
    rw [update_eq _ _ _ hd]
    simp only [touch_id, touch_touch]
    rw [if_pos h1]
  · rename_i h
    have h1 := findIdx_none h
    have : l.filter (fun a => a.id != e.id) = l := by
      rw [List.filter_eq_self]; simpa using h1
    rw [this, idxRank_insert]

/-! ### SplitSize -/

theorem extendCut_append (acc rest : List Element) :
    (extendCut acc rest).1 ++ (extendCut acc rest).2 = acc.reverse ++ rest := by
  fun_induction extendCut acc rest with
  | case1 acc => rfl
  | case2 b rest => rfl
  | case3 a acc b rest h ih => rw [ih]; simp
  | case4 a acc b rest h => rfl

theorem extendCut_prefix (acc rest : List Element) :
    ∃ t, (extendCut acc rest).1 = acc.reverse ++ t ∧
      ∀ b ∈ t, ∃ a, acc.head? = some a ∧ sameKey a b := by
  fun_induction extendCut acc rest with
  | case1 acc => exact ⟨[], by simp, by simp⟩
  | case2 b rest => exact ⟨[], by simp, by simp⟩
  | case3 a acc b rest h ih =>
    obtain ⟨t, ht, hk⟩ := ih
    refine ⟨b :: t, by rw [ht]; simp, ?_⟩
    intro c hc
    refine ⟨a, rfl, ?_⟩
    rcases List.mem_cons.1 hc with rfl | hc
    · exact h
    · obtain ⟨x, hx, hxc⟩ := hk c hc
      simp only [List.head?_cons, Option.some.injEq] at hx
      subst hx
      unfold sameKey at *
      simp only [Bool.and_eq_true, beq_iff_eq] at *
      omega
  | case4 a acc b rest h => exact ⟨[], by simp, by simp⟩

/-- After a cut no element of the rest continues the run at the end of the piece. -/
theorem extendCut_boundary (acc rest : List Element) :
    ∀ a ∈ (extendCut acc rest).1.getLast?, ∀ b ∈ (extendCut acc rest).2.head?, ¬ sameKey a b := by
  fun_induction extendCut acc rest with
  | case1 acc => intro x hx y hy; simp at hy
  | case2 b rest => intro x hx y hy; simp at hx
  | case3 a acc b rest h ih => exact ih
  | case4 a acc b rest h =>
    intro x hx y hy
    simp only [List.reverse_cons, List.getLast?_append, List.getLast?_singleton, Option.some_or,
      Option.mem_def, Option.some.injEq, List.head?_cons] at hx hy
    subst hx hy
    exact h

theorem extendCut_nil (rest : List Element) : extendCut [] rest = ([], rest) := by
  cases rest <;> rfl

theorem splitLoop_flatten (n elems : Nat) (l : List Element) (h : l.length ≤ n * elems) :
    (splitLoop n elems l).flatten = l := by
  induction n generalizing l with
  | zero =>
    have : l = [] := by
      cases l with
      | nil => rfl
      | cons a l => simp at h
    subst this
    simp [splitLoop]
  | succ n ih =>
    unfold splitLoop
    have ha := extendCut_append (l.take elems).reverse (l.drop elems)
    obtain ⟨t, ht, -⟩ := extendCut_prefix (l.take elems).reverse (l.drop elems)
    simp only [List.reverse_reverse, List.take_append_drop] at ha ht
    simp only
    split
    · rename_i he
      simp only [List.isEmpty_iff] at he
      rw [he] at ht
      have h0 : l.take elems = [] := by
        cases h' : l.take elems with
        | nil => rfl
        | cons a b => rw [h'] at ht; simp at ht
      cases l with
      | nil => rfl
      | cons a l =>
        cases elems with
        | zero => simp at h
        | succ k => simp at h0
    · rw [List.flatten_cons, ih]
      · exact ha
      · have hl : ((extendCut (l.take elems).reverse (l.drop elems)).1).length +
            ((extendCut (l.take elems).reverse (l.drop elems)).2).length = l.length := by
          rw [← List.length_append, ha]
        rw [ht] at hl
        simp only [List.length_append, List.length_take] at hl
        rw [Nat.succ_mul] at h
        omega

theorem splitLoop_ne_nil (n elems : Nat) (l : List Element) :
    ∀ p ∈ splitLoop n elems l, p ≠ [] := by
  induction n generalizing l with
  | zero => simp [splitLoop]
  | succ n ih =>
    unfold splitLoop
    simp only
    split
    · simp
    · rename_i h
      intro p hp
      rcases List.mem_cons.1 hp with rfl | hp
      · simpa using h
      · exact ih _ p hp

/-- Where the pieces meet, the neighbours differ in score or tie-breaker. -/
def CutsBetweenKeys (ps : List (List Element)) : Prop :=
  ∀ p q, ∀ pre post, ps = pre ++ p :: q :: post →
    ∀ a ∈ p.getLast?, ∀ b ∈ q.head?, ¬ (a.score = b.score ∧ a.tie = b.tie)

theorem splitLoop_head (n elems : Nat) (l : List Element) (q : List Element)
    (h : (splitLoop n elems l).head? = some q) : q.head? = l.head? := by
  cases n with
  | zero => simp [splitLoop] at h
  | succ n =>
    unfold splitLoop at h
    simp only at h
    split at h
    · simp at h
    · rename_i he
      simp only [List.head?_cons, Option.some.injEq] at h
      have ha := extendCut_append (l.take elems).reverse (l.drop elems)
      simp only [List.reverse_reverse, List.take_append_drop] at ha
      rw [h] at ha he
      cases q with
      | nil => simp at he
      | cons a q => rw [← ha]; rfl

theorem splitLoop_cuts (n elems : Nat) (l : List Element) :
    CutsBetweenKeys (splitLoop n elems l) := by
  induction n generalizing l with
  | zero => intro p q pre post h; simp [splitLoop] at h
  | succ n ih =>
    unfold splitLoop
    simp only
    split
    · intro p q pre post h; simp at h
    · intro p q pre post h
      cases pre with
      | nil =>
        simp only [List.nil_append, List.cons.injEq] at h
        obtain ⟨rfl, h⟩ := h
        intro a ha b hb
        have hq := splitLoop_head n elems _ q (by rw [h]; rfl)
        rw [hq] at hb
        have := extendCut_boundary (l.take elems).reverse (l.drop elems) a ha b hb
        unfold sameKey at this
        simpa using this
      | cons x pre =>
        simp only [List.cons_append, List.cons.injEq] at h
        exact ih _ p q pre post h.2

theorem splitSize_some {l : List Element} {k : Nat} (hk : 0 < k) : ∃ ps, splitSize l k = some ps := by
  unfold splitSize
  split
  · exact ⟨_, rfl⟩
  · rw [if_neg (by omega)]
    exact ⟨_, rfl⟩

theorem ceil_mul_ge (a b : Nat) (hb : 0 < b) : a ≤ (a + b - 1) / b * b := by
  have h := Nat.div_add_mod (a + b - 1) b
  have := Nat.mod_lt (a + b - 1) hb
  rw [Nat.mul_comm] at h
  omega

theorem ceil_le_of_le_mul {a b c : Nat} (hb : 0 < b) (h : a ≤ b * c) : (a + b - 1) / b ≤ c := by
  have : (a + b - 1) / b < c + 1 := by
    rw [Nat.div_lt_iff_lt_mul hb, Nat.add_mul, Nat.one_mul, Nat.mul_comm c b]
    omega
  omega

theorem splitSize_flatten {l : List Element} {k : Nat} {ps} (h : splitSize l k = some ps) :
    ps.flatten = l := by
  unfold splitSize at h
  split at h
  · simp only [Option.some.injEq] at h
    subst h; simp
  · split at h
    · simp at h
    · simp only [Option.some.injEq] at h
      subst h
      apply splitLoop_flatten
      have hn : 0 < (l.length + k - 1) / k := Nat.div_pos (by omega) (by omega)
      have := ceil_mul_ge l.length _ hn
      rw [Nat.mul_comm]
      exact this

theorem splitSize_ne_nil {l : List Element} {k : Nat} {ps} (hl : l ≠ [])
    (h : splitSize l k = some ps) : ∀ p ∈ ps, p ≠ [] := by
  unfold splitSize at h
  split at h
  · simp only [Option.some.injEq] at h
    subst h; simpa using hl
  · split at h
    · simp at h
    · simp only [Option.some.injEq] at h
      subst h
      exact splitLoop_ne_nil _ _ _

theorem splitSize_cuts {l : List Element} {k : Nat} {ps} (h : splitSize l k = some ps) :
    CutsBetweenKeys ps := by
  unfold splitSize at h
  split at h
  · simp only [Option.some.injEq] at h
    subst h
    intro p q pre post h
    cases pre with
    | nil => simp at h
    | cons x pre => cases pre <;> simp at h
  · split at h
    · simp at h
    · simp only [Option.some.injEq] at h
      subst h
      exact splitLoop_cuts _ _ _

/-- A piece is at most `elems` long plus the tail of a run of equal keys. -/
theorem splitLoop_piece (n elems : Nat) (l : List Element) :
    ∀ p ∈ splitLoop n elems l, ∃ s t, p = s ++ t ∧ s.length ≤ elems ∧
      ∀ b ∈ t, ∃ a, s.getLast? = some a ∧ sameKey a b := by
  induction n generalizing l with
  | zero => simp [splitLoop]
  | succ n ih =>
    unfold splitLoop
    simp only
    split
    · simp
    · intro p hp
      rcases List.mem_cons.1 hp with rfl | hp
      · obtain ⟨t, ht, hk⟩ := extendCut_prefix (l.take elems).reverse (l.drop elems)
        simp only [List.reverse_reverse] at ht
        refine ⟨l.take elems, t, ht, by simp; omega, ?_⟩
        simpa using hk
      · exact ih _ p hp

theorem splitSize_piece {l : List Element} {k : Nat} {ps} (h : splitSize l k = some ps) :
    ∀ p ∈ ps, ∃ s t, p = s ++ t ∧ s.length ≤ k ∧
      ∀ b ∈ t, ∃ a, s.getLast? = some a ∧ sameKey a b := by
  unfold splitSize at h
  split at h
  · rename_i hle
    simp only [Option.some.injEq] at h
    subst h
    intro p hp
    simp only [List.mem_singleton] at hp
    subst hp
    exact ⟨p, [], by simp, hle, by simp⟩
  · split at h
    · simp at h
    · simp only [Option.some.injEq] at h
      subst h
      intro p hp
      obtain ⟨s, t, h1, h2, h3⟩ := splitLoop_piece _ _ _ p hp
      refine ⟨s, t, h1, Nat.le_trans h2 ?_, h3⟩
      have hn : 0 < (l.length + k - 1) / k := Nat.div_pos (by omega) (by omega)
      exact ceil_le_of_le_mul hn (ceil_mul_ge _ _ (by omega))

end Elements
end RankDB

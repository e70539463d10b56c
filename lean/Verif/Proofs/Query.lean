import Verif.Proofs.ListOps
/-
Queries: slices by offset and score, ranks, neighbours.
-/
namespace RankDB
open Spec
namespace Segments

theorem allElems_cons (s : Seg) (ss : List Seg) : allElems (s :: ss) = s.elems ++ allElems ss := by
  simp [allElems]

theorem count_cons (s : Seg) (ss : List Seg) : count (s :: ss) = s.n + count ss := by
  simp [count]

theorem count_eq {segs : List Seg} (h : Counted segs) : count segs = (allElems segs).length := by
  induction segs with
  | nil => rfl
  | cons s ss ih =>
    rw [count_cons, allElems_cons, List.length_append, ih fun t ht => h t (by simp [ht]), h s (by simp)]

theorem counted_take {segs : List Seg} (h : Counted segs) (i : Nat) : Counted (segs.take i) :=
  fun s hs => h s (List.mem_of_mem_take hs)

theorem counted_drop {segs : List Seg} (h : Counted segs) (i : Nat) : Counted (segs.drop i) :=
  fun s hs => h s (List.mem_of_mem_drop hs)

theorem getElementsOffset_eq : ∀ (segs : List Seg) (first n : Nat),
    getElementsOffset segs first n = ((allElems segs).drop first).take n
  | [], first, n => by simp [getElementsOffset, allElems]
  | s :: ss, first, n => by
    unfold getElementsOffset
    rw [allElems_cons, List.drop_append, List.take_append]
    split
    · rename_i hn; subst hn; simp
    · split
      · rename_i hf
        rw [getElementsOffset_eq ss, List.drop_eq_nil_of_le hf]
        simp
      · split
        · rename_i hl
          have : n - (s.elems.drop first).length = 0 := by omega
          rw [this]; simp
        · rename_i hf hl
          rw [getElementsOffset_eq ss, List.take_of_length_le (l := s.elems.drop first) (by omega)]
          have : first - s.elems.length = 0 := by omega
          rw [this]

theorem segIdxTop_spec : ∀ {segs : List Seg} (k off : Nat), Counted segs →
    (segIdxTop segs k off = none ∧ (allElems segs).length ≤ off) ∨
    (off < (allElems segs).length ∧ ∃ i o, segIdxTop segs k off = some (k + i, o) ∧
      (allElems segs).drop off = (allElems (segs.drop i)).drop o)
  | [], k, off, _ => by simp [segIdxTop, allElems]
  | s :: ss, k, off, hc => by
    unfold segIdxTop
    have hs := hc s (by simp)
    rw [allElems_cons, List.length_append]
    split
    · rename_i hgt
      right
      refine ⟨by omega, 0, off, rfl, ?_⟩
      simp [allElems_cons]
    · rename_i hle
      rcases segIdxTop_spec (segs := ss) (k + 1) (off - s.n) (fun t ht => hc t (by simp [ht])) with ⟨h1, h2⟩ | ⟨h1, i, o, h2, h3⟩
      · exact .inl ⟨h1, by omega⟩
      · right
        refine ⟨by omega, i + 1, o, ?_, ?_⟩
        · rw [h2]; congr 2; omega
        · rw [List.drop_append, List.drop_eq_nil_of_le (by omega), List.nil_append, List.drop_succ_cons, ← h3, hs]

theorem segIdxBottomLoop_spec : ∀ {segs : List Seg} (off : Nat), Counted segs →
    (segIdxBottomLoop segs (segs.length - 1) off = none ∧ (allElems segs).length ≤ off) ∨
    (off < (allElems segs).length ∧ ∃ i o, segIdxBottomLoop segs (segs.length - 1) off = some (i, o) ∧
      ∃ pre s post, segs = pre ++ s :: post ∧ i = post.length ∧ o < s.n ∧
        (allElems pre).length + (s.n - 1 - o) = off)
  | [], off, _ => by simp [segIdxBottomLoop, allElems]
  | s :: ss, off, hc => by
    unfold segIdxBottomLoop
    have hs := hc s (by simp)
    rw [allElems_cons, List.length_append]
    split
    · rename_i hgt
      right
      refine ⟨by omega, _, _, rfl, [], s, ss, rfl, by simp, by omega, ?_⟩
      simp [allElems]; omega
    · rename_i hle
      have hk : (s :: ss).length - 1 - 1 = ss.length - 1 := by simp
      rw [hk]
      rcases segIdxBottomLoop_spec (segs := ss) (off - s.n) (fun t ht => hc t (by simp [ht])) with
        ⟨h1, h2⟩ | ⟨h1, i, o, h2, pre, t, post, h3, h4, h5, h6⟩
      · exact .inl ⟨h1, by omega⟩
      · right
        refine ⟨by omega, i, o, h2, s :: pre, t, post, by rw [h3]; rfl, h4, h5, ?_⟩
        rw [allElems_cons, List.length_append]; omega

theorem segIdxBottom_spec {segs : List Seg} (off : Nat) (hc : Counted segs) :
    (segIdxBottom segs off = none ∧ (allElems segs).length ≤ off) ∨
    (off < (allElems segs).length ∧ ∃ i o, segIdxBottom segs off = some (i, o) ∧
      (allElems (segs.drop i)).drop o = (allElems segs).drop ((allElems segs).length - 1 - off)) := by
  unfold segIdxBottom
  have hperm : (allElems segs.reverse).length = (allElems segs).length := by
    unfold allElems
    exact ((List.reverse_perm segs).flatMap_right _).length_eq
  have := segIdxBottomLoop_spec (segs := segs.reverse) off fun s hs => hc s (by simpa using hs)
  rw [List.length_reverse, hperm] at this
  rcases this with h | ⟨h1, i, o, h2, pre, s, post, h3, h4, h5, h6⟩
  · exact .inl h
  · right
    refine ⟨h1, i, o, h2, ?_⟩
    have hsegs : segs = post.reverse ++ s :: pre.reverse := by
      have := congrArg List.reverse h3
      simpa using this
    have hi : i = post.reverse.length := by simpa using h4
    have hs : s.n = s.elems.length := hc s (by rw [hsegs]; simp)
    have hpre : (allElems pre.reverse).length = (allElems pre).length := by
      unfold allElems
      exact ((List.reverse_perm pre).flatMap_right _).length_eq
    have hdrop : segs.drop i = s :: pre.reverse := by rw [hsegs, hi, List.drop_left]
    have hall : allElems segs = allElems post.reverse ++ allElems (s :: pre.reverse) := by
      conv => lhs; rw [hsegs]
      rw [allElems_append]
    have hlen : (allElems (s :: pre.reverse)).length = s.n + (allElems pre).length := by
      rw [allElems_cons, List.length_append, hpre, hs]
    rw [hdrop, hall, List.length_append, hlen]
    have e : (allElems post.reverse).length + (s.n + (allElems pre).length) - 1 - off =
        (allElems post.reverse).length + o := by omega
    rw [e, List.drop_length_add_append]

/-! ### Scores -/

theorem firstAtMost_spec {score : Nat} : ∀ {l : List Element}, l.Pairwise (fun a b => b.score ≤ a.score) →
    (firstAtMost score l = none ∧ ∀ e ∈ l, score < e.score) ∨
    (∃ k, firstAtMost score l = some k ∧ k < l.length ∧ (∀ e ∈ l.take k, score < e.score) ∧
      ∀ e ∈ l.drop k, e.score ≤ score)
  | [], _ => by simp [firstAtMost]
  | e :: l, h => by
    rw [List.pairwise_cons] at h
    unfold firstAtMost
    split
    · rename_i hle
      right
      refine ⟨0, rfl, by simp, by simp, ?_⟩
      intro x hx
      rcases List.mem_cons.1 hx with rfl | hx
      · exact hle
      · exact Nat.le_trans (h.1 x hx) hle
    · rename_i hgt
      rcases firstAtMost_spec h.2 with ⟨h1, h2⟩ | ⟨k, h1, h2, h3, h4⟩
      · left
        rw [h1]
        refine ⟨rfl, fun x hx => ?_⟩
        rcases List.mem_cons.1 hx with rfl | hx
        · omega
        · exact h2 x hx
      · right
        rw [h1]
        refine ⟨k + 1, rfl, by simpa using h2, ?_, by simpa using h4⟩
        intro x hx
        rw [List.take_succ_cons] at hx
        rcases List.mem_cons.1 hx with rfl | hx
        · omega
        · exact h3 x hx

theorem segIdxScore_spec {score : Nat} : ∀ {segs : List Seg} (k above : Nat), Counted segs →
    (segIdxScore score segs k above = none ∧ ∀ s ∈ segs, ¬ (s.min ≤ score ∧ score ≤ s.max)) ∨
    ∃ pre s post, segs = pre ++ s :: post ∧ s.min ≤ score ∧ score ≤ s.max ∧
      (∀ t ∈ pre, ¬ (t.min ≤ score ∧ score ≤ t.max)) ∧
      segIdxScore score segs k above = some (k + pre.length, above + (allElems pre).length)
  | [], k, above, _ => by simp [segIdxScore]
  | s :: ss, k, above, hc => by
    unfold segIdxScore
    split
    · rename_i h
      exact .inr ⟨[], s, ss, rfl, h.1, h.2, by simp, by simp [allElems]⟩
    · rename_i h
      rcases segIdxScore_spec (segs := ss) (k + 1) (above + s.n) (fun t ht => hc t (by simp [ht])) with ⟨h1, h2⟩ | ⟨pre, t, post, h1, h2, h3, h4, h5⟩
      · left
        refine ⟨h1, fun t ht => ?_⟩
        rcases List.mem_cons.1 ht with rfl | ht
        · exact h
        · exact h2 t ht
      · right
        refine ⟨s :: pre, t, post, by rw [h1]; rfl, h2, h3, ?_, ?_⟩
        · intro x hx
          rcases List.mem_cons.1 hx with rfl | hx
          · exact h
          · exact h4 x hx
        · rw [h5, allElems_cons, List.length_append, hc s (by simp), List.length_cons]
          congr 2 <;> omega

/-! ### Ranks -/

theorem countP_pos_of_strict {l : List Element} (h : l.Pairwise RanksAbove) {i : Nat} {e : Element}
    (he : l[i]? = some e) : rankFromTop l e = i ∧ rankFromBottom l e = l.length - 1 - i := by
  unfold rankFromTop rankFromBottom
  have hi : i < l.length := (List.getElem?_eq_some_iff.1 he).1
  have hsplit : l = l.take i ++ e :: l.drop (i + 1) := by
    have h1 : l.drop i = e :: l.drop (i + 1) := by
      rw [List.drop_eq_getElem_cons hi, (List.getElem?_eq_some_iff.1 he).2]
    rw [← h1, List.take_append_drop]
  rw [hsplit] at h
  rw [List.pairwise_append, List.pairwise_cons] at h
  obtain ⟨-, ⟨h2, -⟩, h3⟩ := h
  have t1 : (l.take i).countP (fun a => decide (RanksAbove a e)) = i := by
    rw [List.countP_eq_length.2, List.length_take]
    · omega
    · intro a ha; simpa using h3 a ha e (by simp)
  have t2 : (l.drop (i + 1)).countP (fun a => decide (RanksAbove a e)) = 0 := by
    rw [List.countP_eq_zero]
    intro a ha; simpa using ranksAbove_asymm (h2 a ha)
  have t3 : (l.take i).countP (fun a => decide (RanksAbove e a)) = 0 := by
    rw [List.countP_eq_zero]
    intro a ha; simpa using ranksAbove_asymm (h3 a ha e (by simp))
  have t4 : (l.drop (i + 1)).countP (fun a => decide (RanksAbove e a)) = l.length - (i + 1) := by
    rw [List.countP_eq_length.2, List.length_drop]
    intro a ha; simpa using h2 a ha
  have hirr : decide (RanksAbove e e) = false := by simpa using ranksAbove_irrefl e
  constructor
  · conv => lhs; rw [hsplit]
    rw [List.countP_append, List.countP_cons, t1, t2, hirr]; simp
  · conv => lhs; rw [hsplit]
    rw [List.countP_append, List.countP_cons, t3, t4, hirr]; simp; omega

/-! ### Neighbours -/

theorem collect_eq : ∀ (r : Nat) (cur : List Element) (segs : List (List Element)),
    collect r cur segs = (cur ++ segs.flatten).take r := by
  have hadv : ∀ (segs : List (List Element)) (cur : List Element),
      match advance segs cur with
      | none => cur ++ segs.flatten = []
      | some (x, cur', segs') => cur ++ segs.flatten = x :: (cur' ++ segs'.flatten) := by
    intro segs
    induction segs with
    | nil => intro cur; cases cur <;> simp [advance]
    | cons s ss ih =>
      intro cur
      cases cur with
      | cons x cur => simp [advance]
      | nil =>
        unfold advance
        have := ih s
        simpa using this
  intro r
  induction r with
  | zero => intro cur segs; simp [collect]
  | succ r ih =>
    intro cur segs
    unfold collect
    have := hadv segs cur
    cases hx : advance segs cur with
    | none => rw [hx] at this; simp only [] at this ⊢; rw [this]; rfl
    | some p =>
      obtain ⟨x, cur', segs'⟩ := p
      rw [hx] at this; simp only [] at this ⊢
      rw [this, List.take_succ_cons, ih]

theorem findIdx_eq {l : List Element} (hd : DistinctIDs l) {j : Nat} {e : Element} (h : l[j]? = some e) :
    Elements.findIdx l e.id = some j := by
  induction l generalizing j with
  | nil => simp at h
  | cons a l ih =>
    unfold DistinctIDs at hd ih
    rw [List.map_cons, List.nodup_cons] at hd
    unfold Elements.findIdx
    cases j with
    | zero => simp at h; subst h; simp
    | succ j =>
      simp at h
      have : a.id ≠ e.id := fun he => hd.1 (he ▸ List.mem_map_of_mem (List.mem_of_getElem? h))
      rw [if_neg (by simpa using this), ih hd.2 h]
      rfl

theorem take_drop_split {segs : List Seg} {i : Nat} {s : Seg} (h : segs[i]? = some s) :
    segs = segs.take i ++ s :: segs.drop (i + 1) := by
  have hi : i < segs.length := (List.getElem?_eq_some_iff.1 h).1
  have h1 : segs.drop i = s :: segs.drop (i + 1) := by
    rw [List.drop_eq_getElem_cons hi, (List.getElem?_eq_some_iff.1 h).2]
  rw [← h1, List.take_append_drop]

theorem flatten_map_elems (l : List Seg) : (l.map (·.elems)).flatten = allElems l := by
  simp [allElems, List.flatMap]

theorem flatten_reverse_elems (l : List Seg) :
    (l.reverse.map (fun s => s.elems.reverse)).flatten = (allElems l).reverse := by
  induction l with
  | nil => rfl
  | cons s ss ih =>
    rw [List.reverse_cons, List.map_append, List.flatten_append, ih, allElems_cons, List.reverse_append]
    simp

/-- The position in the whole list of the `j`th element of the segment at position `i`. -/
def posOf (segs : List Seg) (i j : Nat) : Nat := (allElems (segs.take i)).length + j

theorem posOf_spec {segs : List Seg} {i j : Nat} {s : Seg} {e : Element} (hs : segs[i]? = some s)
    (he : s.elems[j]? = some e) : (allElems segs)[posOf segs i j]? = some e := by
  unfold posOf
  have hall : allElems segs = allElems (segs.take i) ++ (s.elems ++ allElems (segs.drop (i + 1))) := by
    conv => lhs; rw [take_drop_split hs]
    rw [allElems_append, allElems_cons]
  rw [hall, List.getElem?_append_right (by omega)]
  have : j < s.elems.length := (List.getElem?_eq_some_iff.1 he).1
  have hl : (allElems (segs.take i)).length + j -
    (allElems (segs.take i)).length = j := by omega
  rw [hl, List.getElem?_append_left this, he]

theorem findRanked_spec {segs : List Seg} (hd : DistinctIDs (allElems segs)) {i j : Nat} {s : Seg} {e : Element}
    (hs : segs[i]? = some s) (he : s.elems[j]? = some e) (offset radius : Nat) :
    findRanked segs i e.id offset radius = some
      { elem := e, fromTop := offset + j, fromBottom := 0
        below := ((allElems segs).drop (posOf segs i j + 1)).take radius
        above := ((allElems segs).take (posOf segs i j)).reverse.take radius } := by
  have hds : DistinctIDs s.elems := by
    unfold DistinctIDs at hd ⊢
    conv at hd => rw [take_drop_split hs]
    rw [allElems_append, allElems_cons, List.map_append, List.map_append, List.nodup_append, List.nodup_append] at hd
    exact hd.2.1.1
  have hj : j < s.elems.length := (List.getElem?_eq_some_iff.1 he).1
  unfold findRanked
  rw [hs]
  simp only []
  rw [findIdx_eq hds he]
  simp only [Option.some.injEq]
  have hall : allElems segs = allElems (segs.take i) ++ (s.elems ++ allElems (segs.drop (i + 1))) := by
    conv => lhs; rw [take_drop_split hs]
    rw [allElems_append, allElems_cons]
  rw [collect_eq, collect_eq, flatten_map_elems, flatten_reverse_elems, List.getD_eq_getElem?_getD, he]
  congr 2
  · unfold posOf
    have hj' : (allElems (segs.take i)).length + j - (allElems (segs.take i)).length = j := by omega
    rw [hall, List.take_append, hj', List.take_append_of_le_length (l₁ := s.elems) (by omega),
      List.take_of_length_le (l := allElems (segs.take i)) (by omega), List.reverse_append]
  · unfold posOf
    rw [hall, Nat.add_assoc, List.drop_length_add_append, List.drop_append_of_le_length (by omega)]

theorem findRanked_none {segs : List Seg} {i : Nat} {id offset radius : Nat} {r : Ranked}
    (h : findRanked segs i id offset radius = some r) : ∃ (s : Seg) (j : Nat) (e : Element), segs[i]? = some s ∧ s.elems[j]? = some e ∧ e.id = id := by
  unfold findRanked at h
  cases hs : segs[i]? with
  | none => simp [hs] at h
  | some s =>
    simp only [hs] at h
    cases hf : Elements.findIdx s.elems id with
    | none => simp [hf] at h
    | some j =>
      obtain ⟨e, he, hid⟩ := Elements.findIdx_some hf
      exact ⟨s, j, e, rfl, he, hid⟩

theorem topOffsets_getD : ∀ {segs : List Seg} {i : Nat} (k : Nat), i < segs.length →
    (topOffsets segs k).getD i 0 = k + count (segs.take i)
  | [], i, k, h => by simp at h
  | s :: ss, 0, k, _ => by simp [topOffsets, count]
  | s :: ss, i + 1, k, h => by
    unfold topOffsets
    rw [List.getD_cons_succ, topOffsets_getD _ (by simpa using h), List.take_succ_cons, count_cons]; omega

theorem topOffsets_length : ∀ (segs : List Seg) (k : Nat), (topOffsets segs k).length = segs.length
  | [], _ => rfl
  | s :: ss, k => by simp [topOffsets, topOffsets_length ss]

end Segments
end RankDB

namespace RankDB
open Spec

theorem strict_take {l : List Element} (h : l.Pairwise RanksAbove) {i : Nat} {e : Element}
    (he : l[i]? = some e) : l.take i = l.filter (fun a => decide (RanksAbove a e)) ∧
      l.drop (i + 1) = l.filter (fun a => decide (RanksAbove e a)) := by
  have hi : i < l.length := (List.getElem?_eq_some_iff.1 he).1
  have hsplit : l = l.take i ++ e :: l.drop (i + 1) := by
    have h1 : l.drop i = e :: l.drop (i + 1) := by
      rw [List.drop_eq_getElem_cons hi, (List.getElem?_eq_some_iff.1 he).2]
    rw [← h1, List.take_append_drop]
  rw [hsplit] at h
  rw [List.pairwise_append, List.pairwise_cons] at h
  obtain ⟨-, ⟨h2, -⟩, h3⟩ := h
  have t1 : (l.take i).filter (fun a => decide (RanksAbove a e)) = l.take i :=
    List.filter_eq_self.2 fun a ha => by simpa using h3 a ha e (by simp)
  have t2 : (l.drop (i + 1)).filter (fun a => decide (RanksAbove a e)) = [] :=
    List.filter_eq_nil_iff.2 fun a ha => by simpa using ranksAbove_asymm (h2 a ha)
  have t3 : (l.take i).filter (fun a => decide (RanksAbove e a)) = [] :=
    List.filter_eq_nil_iff.2 fun a ha => by simpa using ranksAbove_asymm (h3 a ha e (by simp))
  have t4 : (l.drop (i + 1)).filter (fun a => decide (RanksAbove e a)) = l.drop (i + 1) :=
    List.filter_eq_self.2 fun a ha => by simpa using h2 a ha
  have hirr : decide (RanksAbove e e) = false := by simpa using ranksAbove_irrefl e
  constructor
  · conv => rhs; rw [hsplit]
    rw [List.filter_append, List.filter_cons, t1, t2, hirr]; simp
  · conv => rhs; rw [hsplit]
    rw [List.filter_append, List.filter_cons, t3, t4, hirr]; simp

namespace Lists
open Segments

/-- The result for an element: itself, its true ranks and the elements around it. -/
structure ResultOK (content : List Element) (radius : Nat) (r : Segments.Ranked) : Prop where
  mem : r.elem ∈ content
  top : r.fromTop = rankFromTop content r.elem
  bottom : r.fromBottom = rankFromBottom content r.elem
  below : r.below = (content.filter fun x => decide (RanksAbove r.elem x)).take radius
  above : r.above = (content.filter fun x => decide (RanksAbove x r.elem)).reverse.take radius

theorem findRanked_ok {segs : List Seg} (h : SegsOK segs) (hc : Counted segs) {i j : Nat} {s : Seg} {e : Element}
    (hs : segs[i]? = some s) (he : s.elems[j]? = some e) (radius : Nat) :
    ∃ r, (findRanked segs i e.id ((topOffsets segs 0).getD i 0) radius).map (calculateFromBottom (count segs)) = some r ∧
      r.elem = e ∧ ResultOK (allElems segs) radius r := by
  have hi : i < segs.length := (List.getElem?_eq_some_iff.1 hs).1
  have hp := posOf_spec hs he
  obtain ⟨t1, t2⟩ := countP_pos_of_strict h.strict hp
  obtain ⟨u1, u2⟩ := strict_take h.strict hp
  rw [findRanked_spec h.distinct hs he]
  refine ⟨_, rfl, rfl, List.mem_of_getElem? hp, ?_, ?_, ?_, ?_⟩
  · simp only [calculateFromBottom]
    rw [t1, topOffsets_getD _ hi, count_eq (counted_take hc i), posOf]; omega
  · simp only [calculateFromBottom]
    rw [t2, topOffsets_getD _ hi, count_eq (counted_take hc i), count_eq hc, posOf]; omega
  · exact congrArg (List.take radius) u2
  · exact congrArg (fun l => List.take radius (List.reverse l)) u1

theorem percentileSeg_spec {want : Nat} : ∀ {segs : List Seg} {k p : Nat}, segs ≠ [] → k ≤ want →
    ∃ i s, percentileSeg want (topOffsets segs k) p = p + i ∧ segs[i]? = some s ∧
      k + count (segs.take i) ≤ want ∧ (want < k + count (segs.take i) + s.n ∨
        (i + 1 = segs.length ∧ k + count segs ≤ want))
  | [], _, _, h, _ => absurd rfl h
  | s :: ss, k, p, _, hk => by
    unfold topOffsets percentileSeg
    rw [if_neg (by omega)]
    by_cases hss : ss = []
    · subst hss
      refine ⟨0, s, by simp [topOffsets, percentileSeg], rfl, by simp [count]; omega, ?_⟩
      by_cases hw : want < k + s.n
      · left; simp [count]; omega
      · right; simp [count]; omega
    · by_cases hw : want < k + s.n
      · refine ⟨0, s, ?_, rfl, by simp [count]; omega, .inl (by simp [count]; omega)⟩
        obtain ⟨t, ts, rfl⟩ := List.exists_cons_of_ne_nil hss
        unfold topOffsets percentileSeg
        rw [if_pos hw]; omega
      · obtain ⟨i, t, h1, h2, h3, h4⟩ := percentileSeg_spec (want := want) (segs := ss) (k := k + s.n) (p := p + 1) hss (by omega)
        refine ⟨i + 1, t, by rw [h1]; omega, by simpa using h2, ?_, ?_⟩
        · rw [List.take_succ_cons, count_cons]; omega
        · rw [List.take_succ_cons, count_cons, count_cons, List.length_cons]
          rcases h4 with h4 | h4
          · left; omega
          · right; omega

/-- The element at an offset, or the last one if the offset is the length. -/
theorem getAtOffset_spec {st : ListState} (h : ListOK st) {want radius : Nat}
    (hw : want < st.content.length) :
    ∃ r, getAtOffset st want radius = some (some r) ∧ ResultOK st.content radius r ∧
      st.content[want]? = some r.elem := by
  obtain ⟨i, s, h1, h2, h3, h4⟩ := percentileSeg_spec (want := want) (k := 0) (p := 0)
    (tiles_ne_nil h.scores.tiles) (by omega)
  rw [Nat.zero_add] at h1 h3
  have hi : i < st.scores.segs.length := (List.getElem?_eq_some_iff.1 h2).1
  have hc := h.scoresCount
  have hs : s.n = s.elems.length := hc s (List.mem_of_getElem? h2)
  have hcnt : count st.scores.segs = st.content.length := count_eq hc
  have hlt : want < count (st.scores.segs.take i) + s.n := by
    rcases h4 with h4 | h4
    · omega
    · omega
  unfold getAtOffset
  simp only []
  rw [h1, topOffsets_getD _ hi, Nat.zero_add]
  unfold getElementIndex
  rw [h2]
  simp only []
  have hmin : min (want - count (st.scores.segs.take i)) (s.elems.length - 1) = want - count (st.scores.segs.take i) := by
    omega
  rw [hmin]
  obtain ⟨e, he⟩ : ∃ e, s.elems[want - count (st.scores.segs.take i)]? = some e :=
    ⟨_, List.getElem?_eq_getElem (by omega)⟩
  rw [he]
  obtain ⟨r, r1, r2, r3⟩ := findRanked_ok h.scores hc h2 he radius
  rw [topOffsets_getD _ hi, Nat.zero_add] at r1
  refine ⟨r, ?_, r3, ?_⟩
  · simp only [Option.map_some]; rw [r1]
  · have := posOf_spec h2 he
    unfold posOf at this
    rw [← count_eq (counted_take hc i)] at this
    have e2 : count (st.scores.segs.take i) + (want - count (st.scores.segs.take i)) = want := by omega
    rw [e2] at this
    rw [r2]; exact this

/-- At the end of the list the last segment is used. -/
theorem getAtOffset_end {st : ListState} (h : ListOK st) {want radius : Nat} {s : Seg}
    (hw : st.content.length ≤ want) (hl : st.scores.segs.getLast? = some s) :
    (s.elems = [] ∧ getAtOffset st want radius = none) ∨
    ∃ r, getAtOffset st want radius = some (some r) ∧ ResultOK st.content radius r ∧
      st.content.getLast? = some r.elem := by
  obtain ⟨i, t, h1, h2, h3, h4⟩ := percentileSeg_spec (want := want) (k := 0) (p := 0)
    (tiles_ne_nil h.scores.tiles) (by omega)
  rw [Nat.zero_add] at h1 h3
  have hi : i < st.scores.segs.length := (List.getElem?_eq_some_iff.1 h2).1
  have hc := h.scoresCount
  have hs : t.n = t.elems.length := hc t (List.mem_of_getElem? h2)
  have hcnt : count st.scores.segs = st.content.length := count_eq hc
  have hsplit := take_drop_split h2
  have hcount : count (st.scores.segs.take i) + (t.n + count (st.scores.segs.drop (i + 1))) = count st.scores.segs := by
    conv => rhs; rw [hsplit]
    rw [← count_cons]; unfold count; rw [List.map_append, List.sum_append]
  have hi' : i + 1 = st.scores.segs.length := by
    rcases h4 with h4 | h4
    · omega
    · exact h4.1
  have hts : t = s := by
    rw [List.getLast?_eq_getElem?] at hl
    have : st.scores.segs.length - 1 = i := by omega
    rw [this, h2] at hl
    simpa using hl
  subst hts
  have hd0 : count (st.scores.segs.drop (i + 1)) = 0 := by
    rw [List.drop_eq_nil_of_le (by omega)]; rfl
  unfold getAtOffset
  simp only []
  rw [h1, topOffsets_getD _ hi, Nat.zero_add]
  unfold getElementIndex
  rw [h2]
  simp only []
  by_cases hem : t.elems = []
  · left
    refine ⟨hem, ?_⟩
    rw [hem]; rfl
  · right
    have hpos : 0 < t.elems.length := List.length_pos_iff.2 hem
    have hmin : min (want - count (st.scores.segs.take i)) (t.elems.length - 1) = t.elems.length - 1 := by omega
    rw [hmin]
    obtain ⟨e, he⟩ : ∃ e, t.elems[t.elems.length - 1]? = some e := ⟨_, List.getElem?_eq_getElem (by omega)⟩
    rw [he]
    obtain ⟨r, r1, r2, r3⟩ := findRanked_ok h.scores hc h2 he radius
    rw [topOffsets_getD _ hi, Nat.zero_add] at r1
    refine ⟨r, ?_, r3, ?_⟩
    · simp only [Option.map_some]; rw [r1]
    · have := posOf_spec h2 he
      unfold posOf at this
      rw [← count_eq (counted_take hc i)] at this
      rw [List.getLast?_eq_getElem?, r2, ← this]
      unfold ListState.content
      congr 1
      rw [← count_eq hc]; omega

theorem findElements_spec {sch : Sched} {segs : List Seg} (h : SegsOK segs) (hc : Counted segs)
    {E : List Element} (hE : DistinctIDs E) (hidx : ∀ x ∈ E, (x.id, x.tie) ∈ placement segs) (radius : Nat) :
    ((findElements sch segs E radius).map (·.elem.id)).Nodup ∧
    (∀ r ∈ findElements sch segs E radius, ResultOK (allElems segs) radius r ∧ r.elem.id ∈ E.map (·.id)) ∧
    (∀ e ∈ allElems segs, e.id ∈ E.map (·.id) → ∃ r ∈ findElements sch segs E radius, r.elem = e) := by
  have hseg : ∀ x ∈ E, ∃ (i : Nat) (s : Seg) (j : Nat) (e : Element), segIndex x.tie segs 0 0 = i ∧
      segs[i]? = some s ∧ s.elems[j]? = some e ∧ e.id = x.id := by
    intro x hx
    have := hidx x hx
    unfold placement at this
    obtain ⟨s, hs, hm⟩ := List.mem_flatMap.1 this
    obtain ⟨e, he, heq⟩ := List.mem_map.1 hm
    simp only [Prod.mk.injEq] at heq
    obtain ⟨i, hi⟩ := List.mem_iff_getElem?.1 hs
    obtain ⟨j, hj⟩ := List.mem_iff_getElem?.1 he
    refine ⟨i, s, j, e, ?_, hi, hj, heq.1⟩
    exact (segIndex_eq_iff h.segIDs (List.mem_map.2 ⟨s, hs, heq.2⟩) hi).2 heq.2.symm
  let R := (List.range segs.length).flatMap fun i => findIn segs radius i (idsAt segs E i)
  have hperm : (findElements sch segs E radius).Perm R := by
    unfold findElements
    refine ((sch.perm _).flatten).trans (List.Perm.of_eq ?_)
    have : ∀ l : List Nat, (l.filterMap fun i => if (idsAt segs E i).isEmpty then none
        else some (findIn segs radius i (idsAt segs E i))).flatten =
        l.flatMap fun i => findIn segs radius i (idsAt segs E i) := by
      intro l
      induction l with
      | nil => rfl
      | cons i l ih =>
        rw [List.filterMap_cons, List.flatMap_cons, ← ih]
        by_cases hem : (idsAt segs E i).isEmpty
        · rw [if_pos hem]
          rw [List.isEmpty_iff] at hem
          simp [hem, findIn]
        · rw [if_neg hem]; simp
    exact this _
  have hone : ∀ i, ∀ id ∈ idsAt segs E i, ∃ (s : Seg) (j : Nat) (e : Element), segs[i]? = some s ∧
      s.elems[j]? = some e ∧ e.id = id ∧ ∃ x ∈ E, x.id = id ∧ segIndex x.tie segs 0 0 = i := by
    intro i id hid
    unfold idsAt at hid
    obtain ⟨x, hx, rfl⟩ := List.mem_map.1 hid
    rw [List.mem_filter, beq_iff_eq] at hx
    obtain ⟨i', s, j, e, h1, h2, h3, h4⟩ := hseg x hx.1
    have : i' = i := by rw [← h1, hx.2]
    subst this
    exact ⟨s, j, e, h2, h3, h4, x, hx.1, rfl, hx.2⟩
  have hfind : ∀ i, (findIn segs radius i (idsAt segs E i)).map (·.elem.id) = idsAt segs E i ∧
      ∀ r ∈ findIn segs radius i (idsAt segs E i), ResultOK (allElems segs) radius r := by
    intro i
    have hall := hone i
    generalize idsAt segs E i = ids at hall
    unfold findIn
    induction ids with
    | nil => simp
    | cons id ids ih =>
      obtain ⟨s, j, e, h1, h2, h3, -⟩ := hall id (by simp)
      obtain ⟨r, r1, r2, r3⟩ := findRanked_ok h hc h1 h2 radius
      rw [h3] at r1
      obtain ⟨i1, i2⟩ := ih fun id' h' => hall id' (by simp [h'])
      rw [List.filterMap_cons, r1]
      simp only []
      constructor
      · rw [List.map_cons, i1, r2, h3]
      · intro r' hr'
        rcases List.mem_cons.1 hr' with rfl | hr'
        · exact r3
        · exact i2 r' hr'
  have hRid : R.map (·.elem.id) = (List.range segs.length).flatMap fun i => idsAt segs E i := by
    show ((List.range segs.length).flatMap _).map _ = _
    rw [List.map_flatMap]
    apply flatMap_congr'
    intro i _
    exact (hfind i).1
  refine ⟨?_, ?_, ?_⟩
  · refine ((hperm.map _).nodup_iff).2 ?_
    rw [hRid]
    unfold List.Nodup
    rw [List.pairwise_flatMap]
    constructor
    · intro i _
      show (idsAt segs E i).Nodup
      unfold idsAt
      exact List.Sublist.nodup (List.filter_sublist.map _) hE
    · have : (List.range segs.length).Pairwise (fun a b => a < b) := List.pairwise_lt_range
      refine this.imp fun {a b} hab => ?_
      intro x hx y hy hxy
      subst hxy
      obtain ⟨-, -, -, -, -, -, u, hu, hu1, hu2⟩ := hone a x hx
      obtain ⟨-, -, -, -, -, -, v, hv, hv1, hv2⟩ := hone b x hy
      have := hE.eq_of_id hu hv (by rw [hu1, hv1])
      subst this
      omega
  · intro r hr
    have hrR := hperm.mem_iff.1 hr
    obtain ⟨i, hi, hri⟩ := List.mem_flatMap.1 hrR
    refine ⟨(hfind i).2 r hri, ?_⟩
    have : r.elem.id ∈ idsAt segs E i := by
      rw [← (hfind i).1]; exact List.mem_map_of_mem (f := fun r : Segments.Ranked => r.elem.id) hri
    obtain ⟨-, -, -, -, -, -, x, hx, hxe, -⟩ := hone i _ this
    exact List.mem_map.2 ⟨x, hx, hxe⟩
  · intro e he hid
    obtain ⟨x, hx, hxe⟩ := List.mem_map.1 hid
    obtain ⟨i, s, j, e', h1, h2, h3, h4⟩ := hseg x hx
    have hi : i < segs.length := (List.getElem?_eq_some_iff.1 h2).1
    have hin : x.id ∈ idsAt segs E i := by
      unfold idsAt
      exact List.mem_map.2 ⟨x, List.mem_filter.2 ⟨hx, by simp [h1]⟩, rfl⟩
    rw [← (hfind i).1] at hin
    obtain ⟨r, hr, hre⟩ := List.mem_map.1 hin
    refine ⟨r, hperm.mem_iff.2 (List.mem_flatMap.2 ⟨i, List.mem_range.2 hi, hr⟩), ?_⟩
    exact h.distinct.eq_of_id ((hfind i).2 r hr).mem he (by rw [hre, hxe])

theorem getElements_spec {sch : Sched} {st : ListState} (h : ListOK st) {ids : List Nat}
    (hid : ∀ v ∈ ids, v < 2 ^ 64) (radius : Nat) :
    ((getElements sch st ids radius).map (·.elem.id)).Nodup ∧
    (∀ r ∈ getElements sch st ids radius, ResultOK st.content radius r ∧ r.elem.id ∈ ids) ∧
    (∀ e ∈ st.content, e.id ∈ ids → ∃ r ∈ getElements sch st ids radius, r.elem = e) := by
  have hgi := getIndexElements_spec (sch := sch) h.isIndex hid
  unfold getElements
  simp only []
  generalize getIndexElements sch st ids = E at hgi
  have hmem : ∀ x, x ∈ E ↔ x ∈ allElems st.index.segs ∧ x.id ∈ ids := by
    intro x; rw [hgi.mem_iff]; simp
  have hE : DistinctIDs E := by
    have h1 : DistinctIDs ((allElems st.index.segs).filter fun e => ids.contains e.id) := by
      unfold DistinctIDs
      exact List.Sublist.nodup (List.filter_sublist.map _) h.index.distinct
    exact h1.perm hgi.symm
  have hids : ∀ e ∈ st.content, e.id ∈ ids → e.id ∈ E.map (·.id) := by
    intro e he hi
    have : e.id ∈ (allElems st.index.segs).map (·.id) := by
      rw [← indexed_ids, (h.link.complete.map _).mem_iff, placement_ids]
      exact List.mem_map_of_mem he
    obtain ⟨x, hx, hxe⟩ := List.mem_map.1 this
    exact List.mem_map.2 ⟨x, (hmem x).2 ⟨hx, by rw [hxe]; exact hi⟩, hxe⟩
  split
  · rename_i hem
    rw [List.isEmpty_iff] at hem
    subst hem
    refine ⟨by simp, by simp, fun e he hi => ?_⟩
    have := hids e he hi
    simp at this
  · obtain ⟨f1, f2, f3⟩ := findElements_spec (sch := sch) h.scores h.scoresCount hE (fun x hx =>
      h.link.complete.mem_iff.1 (List.mem_map.2 ⟨x, ((hmem x).1 hx).1, rfl⟩)) radius
    refine ⟨f1, fun r hr => ⟨(f2 r hr).1, ?_⟩, fun e he hi => f3 e he (hids e he hi)⟩
    obtain ⟨x, hx, hxe⟩ := List.mem_map.1 (f2 r hr).2
    rw [← hxe]; exact ((hmem x).1 hx).2

end Lists
end RankDB

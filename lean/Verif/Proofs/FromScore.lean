import Verif.Model.FromScore
import Verif.Proofs.Scan
import Verif.Proofs.Near
/-
What is read from a score on while updates are in progress, and what a reading of a range leaves out.
-/
namespace RankDB.Concurrent
open Segments Spec Lists

/-! ### Exactly what a reading of a range has read -/

/-- What was read is a piece of the segments glued together. -/
structure ScanEx (w : World) (s : Scan) (p : Nat) (reads : List ListState) (first n : Nat) : Prop where
  hist : ∀ st ∈ reads, st ∈ w.hist
  pos : s.left ≠ some 0 → s.pos = p + reads.length
  bound : s.left ≠ some 0 → s.pos ≤ w.cur.scores.segs.length
  res : s.res = ((glued p reads).drop first).take n
  left : s.left = some (n - ((glued p reads).length - first))
  first : s.left ≠ some 0 → s.first = first - (glued p reads).length

theorem scanEx_start {w : World} {p first n : Nat} (hp : p ≤ w.cur.scores.segs.length) :
    ScanEx w ⟨p, first, some n, []⟩ p [] first n :=
  ⟨by simp, fun _ => rfl, fun _ => hp, by simp [glued], by simp [glued], fun _ => by simp [glued]⟩

theorem ScanEx.mono {w w' : World} {s : Scan} {p first n : Nat} {reads : List ListState} (h : ScanEx w s p reads first n)
    (hs : w'.cur.scores.segs.length = w.cur.scores.segs.length) (hh : ∀ st ∈ w.hist, st ∈ w'.hist) :
    ScanEx w' s p reads first n :=
  ⟨fun st hst => hh st (h.hist st hst), h.pos, by rw [hs]; exact h.bound, h.res, h.left, h.first⟩

theorem scanEx_read {w : World} {s : Scan} {p first n : Nat} {reads : List ListState} (hw : WorldOK w)
    (h : ScanEx w s p reads first n) {l : List Element} (hm : s.More w) (hl : seeScores w s.pos = some l) :
    ScanEx w (s.read l) p (reads ++ [logical w]) first n := by
  have hpos := h.pos hm.2
  have hfirst := h.first hm.2
  have hg : glued p (reads ++ [logical w]) = glued p reads ++ l := by
    rw [glued_append]
    simp only [glued, List.append_nil]
    rw [seeScores_logical hw hl, hpos]
  have hhist : ∀ st ∈ reads ++ [logical w], st ∈ w.hist := by
    intro st hst
    rcases List.mem_append.1 hst with hst | hst
    · exact h.hist st hst
    · rw [List.mem_singleton.1 hst]; exact logical_mem hw
  have hlt := hm.1
  have hn : n - ((glued p reads).length - first) ≠ 0 := fun h0 => hm.2 (by rw [h.left, h0])
  have hres : ((glued p reads ++ l).drop first).take n =
      s.res ++ (l.drop s.first).take (n - ((glued p reads).length - first)) := by
    rw [List.drop_append, List.take_append, h.res, hfirst, List.length_drop]
  have he : s.read l = if s.first ≥ l.length then { s with pos := s.pos + 1, first := s.first - l.length }
      else if (l.drop s.first).length > n - ((glued p reads).length - first) then
        { s with left := some 0, res := s.res ++ (l.drop s.first).take (n - ((glued p reads).length - first)) }
      else ⟨s.pos + 1, 0, some (n - ((glued p reads).length - first) - (l.drop s.first).length), s.res ++ l.drop s.first⟩ := by
    unfold Scan.read; rw [h.left]
  rw [he]
  split
  · rename_i h1
    refine ⟨hhist, fun _ => by simp only [List.length_append, List.length_singleton]; omega, fun _ => hlt, ?_, ?_, fun _ => ?_⟩
    · rw [hg, hres, List.drop_eq_nil_of_le h1]; simp
    · rw [hg, h.left, List.length_append]
      congr 1
      omega
    · rw [hg, List.length_append]; dsimp only; omega
  · rename_i h1
    split
    · rename_i h2
      rw [List.length_drop] at h2
      refine ⟨hhist, fun hc => (hc rfl).elim, fun hc => (hc rfl).elim, ?_, ?_, fun hc => (hc rfl).elim⟩
      · rw [hg, hres]
      · rw [hg, List.length_append]
        dsimp only
        congr 1
        omega
    · rename_i h2
      have h2' := h2
      rw [List.length_drop] at h2'
      refine ⟨hhist, fun _ => by simp only [List.length_append, List.length_singleton]; omega, fun _ => hlt, ?_, ?_, fun _ => ?_⟩
      · rw [hg, hres, List.take_of_length_le (by omega)]
      · rw [hg, List.length_append, List.length_drop]
        dsimp only
        congr 1
        omega
      · rw [hg, List.length_append]; dsimp only; omega

/-- An element that is in all lists in effect is in the same segment of each. -/
theorem same_place {w : World} (h1 : WorldOK w) {e : Element} (hall : ∀ t ∈ w.hist, e ∈ t.content) :
    ∃ i, i < w.cur.scores.segs.length ∧ ∀ t ∈ w.hist, e ∈ elemsAt t.scores.segs i := by
  obtain ⟨g, hg, heg⟩ := mem_allElems.1 (hall _ (logical_mem h1))
  have hlog := h1.hist _ (logical_mem h1)
  obtain ⟨i, hi⟩ := List.mem_iff_getElem?.1 hg
  refine ⟨i, ?_, fun t ht => ?_⟩
  · rw [← hlog.2.1.length]
    exact (List.getElem?_eq_some_iff.1 hi).1
  · have hokt := h1.hist t ht
    rcases sameRanges_getElem? (hlog.2.trans hokt.2.symm).1 i with ⟨h, _⟩ | ⟨a, b, h5, h6, h7⟩
    · rw [h] at hi; cases hi
    rw [hi] at h5
    cases h5
    obtain ⟨g2, hg2, heg2⟩ := mem_allElems.1 (hall t ht)
    have hb : InRange b e := (h7.inRange e).1 (hlog.1.scores.inRange g hg e heg)
    have := tiles_unique hokt.1.scores.tiles (List.mem_of_getElem? h6) hg2 hb (hokt.1.scores.inRange g2 hg2 e heg2)
    subst this
    unfold elemsAt
    rw [h6]
    exact heg2

theorem glued_ok {w : World} (hw : WorldOK w) {reads : List ListState} (hr : ∀ st ∈ reads, st ∈ w.hist) (p : Nat) :
    (glued p reads).Pairwise RanksAbove :=
  glued_strict (fun a ha => (hw.hist a (hr a ha)).1) fun a ha b hb =>
    (hw.hist a (hr a ha)).2.trans (hw.hist b (hr b hb)).2.symm

/-- An unchanged element is in what was read, as far as it was read. -/
theorem place_glued {w : World} {p j : Nat} {reads : List ListState} (hr : ∀ st ∈ reads, st ∈ w.hist) {e : Element}
    (hj : ∀ t ∈ w.hist, e ∈ elemsAt t.scores.segs j) (h1 : p ≤ j) (h2 : j < p + reads.length) : e ∈ glued p reads := by
  obtain ⟨t, ht⟩ : ∃ t, reads[j - p]? = some t := ⟨_, List.getElem?_eq_getElem (by omega)⟩
  exact glued_mem ht (by rw [show p + (j - p) = j by omega]; exact hj t (hr t (List.mem_of_getElem? ht)))

/-- Elements of segments above the place of an unchanged element rank above it. -/
theorem glued_above {w : World} (hw : WorldOK w) {p j : Nat} {reads : List ListState} (hr : ∀ st ∈ reads, st ∈ w.hist) {e x : Element}
    (hj : ∀ t ∈ w.hist, e ∈ elemsAt t.scores.segs j) (h2 : p + reads.length ≤ j) (hx : x ∈ glued p reads) : RanksAbove x e := by
  obtain ⟨i, t, g1, g2⟩ := mem_glued hx
  have hi := (List.getElem?_eq_some_iff.1 g1).1
  have ht := hr t (List.mem_of_getElem? g1)
  exact across (hw.hist t ht).1 (hw.hist t ht).1 (Same.refl _) (by omega) g2 (hj t ht)

theorem glued_below {w : World} (hw : WorldOK w) {p j : Nat} {reads : List ListState} (hr : ∀ st ∈ reads, st ∈ w.hist) {e x : Element}
    (hj : ∀ t ∈ w.hist, e ∈ elemsAt t.scores.segs j) (h2 : j < p) (hx : x ∈ glued p reads) : RanksAbove e x := by
  obtain ⟨i, t, g1, g2⟩ := mem_glued hx
  have ht := hr t (List.mem_of_getElem? g1)
  exact across (hw.hist t ht).1 (hw.hist t ht).1 (Same.refl _) (by omega) (hj t ht) g2

theorem above_asymm {a b : Element} (h : RanksAbove a b) : ¬ RanksAbove b a := by
  unfold RanksAbove at *; omega

/-- Nothing that does not change is left out between two elements that were read. -/
theorem scanEx_between {w : World} (hw : WorldOK w) {s : Scan} {p first n : Nat} {reads : List ListState}
    (h : ScanEx w s p reads first n) {e a b : Element} (hall : ∀ t ∈ w.hist, e ∈ t.content) (ha : a ∈ s.res) (hb : b ∈ s.res)
    (hae : RanksAbove a e) (heb : RanksAbove e b) : e ∈ s.res := by
  obtain ⟨j, -, hj⟩ := same_place hw hall
  have hG := glued_ok hw h.hist p
  rw [h.res] at ha hb ⊢
  have hin : e ∈ glued p reads := by
    refine place_glued h.hist hj (Nat.le_of_not_lt fun hlt => ?_) (Nat.lt_of_not_le fun hle => ?_)
    · exact above_asymm hae (glued_below hw h.hist hj hlt (List.mem_of_mem_drop (List.mem_of_mem_take ha)))
    · exact above_asymm heb (glued_above hw h.hist hj hle (List.mem_of_mem_drop (List.mem_of_mem_take hb)))
  rw [← List.take_append_drop first (glued p reads)] at hin hG
  rw [List.pairwise_append] at hG
  rcases List.mem_append.1 hin with hin | hin
  · exact (above_asymm hae (hG.2.2 e hin a (List.mem_of_mem_take ha))).elim
  · have hG2 := hG.2.1
    rw [← List.take_append_drop n ((glued p reads).drop first)] at hin hG2
    rw [List.pairwise_append] at hG2
    rcases List.mem_append.1 hin with hin | hin
    · exact hin
    · exact (above_asymm heb (hG2.2.2 b hb e hin)).elim

/-! ### From a score on -/

/-- The segment divides the elements of lists with these segments at the score. -/
def Divides (w : World) (score i : Nat) : Prop :=
  i < w.cur.scores.segs.length ∧ ∀ t, ListOK t → Same t w.cur → ∀ j e, e ∈ elemsAt t.scores.segs j →
    (j < i → score < e.score) ∧ (i < j → e.score ≤ score)

theorem segIdxScore_first {score : Nat} : ∀ {segs : List Seg} {k above i a : Nat}, segIdxScore score segs k above = some (i, a) →
    ∃ j, i = k + j ∧ ∃ s, segs[j]? = some s ∧ s.min ≤ score ∧ score ≤ s.max
  | [], _, _, _, _, h => nomatch h
  | s :: ss, k, above, i, a, h => by
    unfold segIdxScore at h
    split at h
    · cases h; exact ⟨0, rfl, s, rfl, ‹_›⟩
    · obtain ⟨j, h1, t, h2⟩ := segIdxScore_first h
      exact ⟨j + 1, by omega, t, by simpa using h2⟩

theorem segIdxScore_none {score : Nat} : ∀ {segs : List Seg} {k above i a : Nat}, segIdxScore score segs k above = some (i, a) →
    ∀ j s, segs[j]? = some s → k + j < i → ¬ (s.min ≤ score ∧ score ≤ s.max)
  | [], _, _, _, _, h => nomatch h
  | s :: ss, k, above, i, a, h => by
    intro j t hj hlt
    unfold segIdxScore at h
    split at h
    · cases h; omega
    · rename_i hno
      cases j with
      | zero => cases hj; exact hno
      | succ j => exact segIdxScore_none h j t (by simpa using hj) (by omega)

theorem same_seg {a b : List Seg} (h : SameRanges a b) {j : Nat} {s : Seg} (hs : a[j]? = some s) :
    ∃ t, b[j]? = some t ∧ SameRange s t := by
  rcases sameRanges_getElem? h j with ⟨h1, _⟩ | ⟨x, y, h1, h2, h3⟩
  · rw [h1] at hs; cases hs
  · rw [h1] at hs; cases hs; exact ⟨y, h2, h3⟩

theorem locate_divides {w : World} (hw : WorldOK w) {score i above : Nat}
    (h : segIdxScore score (table w) 0 0 = some (i, above)) : Divides w score i := by
  obtain ⟨j, h1, s, h2, h3⟩ := segIdxScore_first h
  rw [Nat.zero_add] at h1
  subst h1
  refine ⟨by rw [← (table_same hw).length]; exact (List.getElem?_eq_some_iff.1 h2).1, fun t ht hst j e he => ?_⟩
  have hr : SameRanges t.scores.segs (table w) := hst.1.trans (sameRanges_symm (table_same hw))
  obtain ⟨g, hg, heg⟩ := elemsAt_mem he
  obtain ⟨g', hg', hgr⟩ := same_seg hr hg
  obtain ⟨si, hsi, hsr⟩ := same_seg (sameRanges_symm hr) h2
  have hpw := tiles_pairwise ht.scores.tiles
  rw [List.pairwise_iff_getElem] at hpw
  obtain ⟨l1, e1⟩ := List.getElem?_eq_some_iff.1 hg
  obtain ⟨l2, e2⟩ := List.getElem?_eq_some_iff.1 hsi
  have hgm := List.mem_of_getElem? hg
  have hsm := List.mem_of_getElem? hsi
  have hir := ht.scores.inRange g hgm e heg
  have t1 := ht.scores.ties g hgm
  have t2 := ht.scores.ties si hsm
  have t3 := (ht.scores.storable e (mem_allElems.2 ⟨g, hgm, heg⟩)).tie
  have hle := tiles_le ht.scores.tiles g hgm
  constructor
  · intro hji
    have hno := segIdxScore_none h j g' hg' (by omega)
    have hlt := hpw j i l1 l2 hji
    rw [e1, e2] at hlt
    unfold SameRange at hgr hsr
    unfold InRange lo hi pos at *
    omega
  · intro hij
    have hlt := hpw i j l2 l1 hij
    rw [e1, e2] at hlt
    unfold SameRange at hgr hsr
    unfold InRange lo hi pos at *
    omega

/-- What is known of a call. -/
def DescOK (w : World) (score n : Nat) : Desc → Prop
  | .located i _ _ => Divides w score i
  | .reading i l _ _ _ s => Divides w score i ∧ i ∉ lockedScores w ∧ l = elemsAt (logical w).scores.segs i ∧
      ((∃ k reads, firstAtMost score l = some k ∧ ScanEx w s i reads k n ∧ ∀ t, reads[0]? = some t → elemsAt t.scores.segs i = l) ∨
        ∃ reads, firstAtMost score l = none ∧ ScanEx w s (i + 1) reads 0 n)

theorem Divides.mono {w w' : World} {score i : Nat} (h : Divides w score i) (hs : Same w'.cur w.cur) : Divides w' score i :=
  ⟨by rw [hs.1.length]; exact h.1, fun t ht hst => h.2 t ht (hst.trans hs)⟩

theorem desc_step {score n : Nat} {x y : World × Option Desc} (hw : WorldOK x.1) (h : ∀ d, x.2 = some d → DescOK x.1 score n d)
    (hs : DescStep score n x y) : WorldOK y.1 ∧ ∀ d, y.2 = some d → DescOK y.1 score n d := by
  cases hs with
  | @update w w' d hs hl =>
    refine ⟨world_step hw hs, fun d hd => ?_⟩
    have hd' := h d hd
    obtain ⟨h1, h2⟩ := step_same hw hs
    cases d with
    | located => exact Divides.mono hd' h1
    | reading i l f a t s =>
      obtain ⟨g1, -, g3, g4⟩ := hd'
      have hi := hl _ hd i (by simp [Desc.held])
      refine ⟨g1.mono h1, hi, by rw [logical_kept hw hs hi]; exact g3, ?_⟩
      rcases g4 with ⟨k, r, a1, a2, a3⟩ | ⟨r, a1, a2⟩
      · exact .inl ⟨k, r, a1, a2.mono h1.1.length h2, a3⟩
      · exact .inr ⟨r, a1, a2.mono h1.1.length h2⟩
  | @call w d hd =>
    refine ⟨restart_ok hw, fun d' hd' => ?_⟩
    cases hd'
    obtain ⟨⟨i, a⟩, h1, rfl⟩ := Option.map_eq_some_iff.1 hd
    exact locate_divides hw h1
  | @lock w i a t l hl =>
    refine ⟨hw, fun d' hd' => ?_⟩
    cases hd'
    have hdiv : Divides w score i := h _ rfl
    have hlog := seeScores_logical hw hl
    refine ⟨hdiv, see_unlocked hl, hlog, ?_⟩
    unfold Desc.begin
    cases hf : firstAtMost score l with
    | some k => exact .inl ⟨k, [], rfl, scanEx_start (Nat.le_of_lt hdiv.1), nofun⟩
    | none => exact .inr ⟨[], rfl, scanEx_start hdiv.1⟩
  | @read w i f a t l' l s hm hl =>
    refine ⟨hw, fun d' hd' => ?_⟩
    cases hd'
    obtain ⟨g1, g2, g3, g4⟩ := h _ rfl
    refine ⟨g1, g2, g3, ?_⟩
    rcases g4 with ⟨k, r, a1, a2, a3⟩ | ⟨r, a1, a2⟩
    · refine .inl ⟨k, _, a1, scanEx_read hw a2 hm hl, fun t ht => ?_⟩
      cases r with
      | nil => cases ht; exact g3.symm
      | cons b r => exact a3 t ht
    · exact .inr ⟨_, a1, scanEx_read hw a2 hm hl⟩

theorem desc_run {score n : Nat} {x y : World × Option Desc} (hr : DescRun score n x y) (hw : WorldOK x.1)
    (h : ∀ d, x.2 = some d → DescOK x.1 score n d) : WorldOK y.1 ∧ ∀ d, y.2 = some d → DescOK y.1 score n d := by
  induction hr with
  | refl => exact ⟨hw, h⟩
  | step _ hs ih => exact desc_step ih.1 ih.2 hs

/-- What a call has read: a piece of the segments glued together, without elements above the score at the beginning,
and with only such elements left out before it. -/
theorem desc_read {w : World} (hw : WorldOK w) {score n i f a t : Nat} {l : List Element} {s : Scan}
    (h : DescOK w score n (.reading i l f a t s)) :
    ∃ p reads first, ScanEx w s p reads first n ∧ (∀ e ∈ (glued p reads).drop first, e.score ≤ score) ∧
      (∀ e ∈ (glued p reads).take first, score < e.score) ∧
      ∀ e, e.score ≤ score → (∀ t ∈ w.hist, e ∈ t.content) → ∀ j, (∀ t ∈ w.hist, e ∈ elemsAt t.scores.segs j) → p ≤ j := by
  obtain ⟨g1, g2, g3, g4⟩ := h
  have hdesc : l.Pairwise (fun a b => b.score ≤ a.score) := by
    rw [g3]
    exact (elemsAt_strict (logical_ok hw) i).imp fun {a b} hab => by unfold RanksAbove at hab; omega
  have hlow : ∀ {reads : List ListState} {p : Nat}, (∀ st ∈ reads, st ∈ w.hist) → i < p → ∀ e ∈ glued p reads, e.score ≤ score := by
    intro reads p hr hp e he
    obtain ⟨j, t, h1, h2⟩ := mem_glued he
    have ht := hw.hist t (hr t (List.mem_of_getElem? h1))
    exact (g1.2 t ht.1 ht.2 _ e h2).2 (by omega)
  have hge : ∀ e, e.score ≤ score → ∀ j, (∀ t ∈ w.hist, e ∈ elemsAt t.scores.segs j) → i ≤ j := by
    intro e he j hj
    refine Nat.le_of_not_lt fun hlt => ?_
    have ht := hw.hist _ (logical_mem hw)
    have := (g1.2 _ ht.1 ht.2 j e (hj _ (logical_mem hw))).1 hlt
    omega
  rcases g4 with ⟨k, reads, a1, a2, a3⟩ | ⟨reads, a1, a2⟩
  · refine ⟨i, reads, k, a2, ?_, ?_, fun e he _ j hj => hge e he j hj⟩
    · rcases firstAtMost_spec (score := score) hdesc with ⟨b1, b2⟩ | ⟨k', b1, b2, b3, b4⟩
      · rw [b1] at a1; cases a1
      · rw [b1] at a1
        cases a1
        cases reads with
        | nil => simp [glued]
        | cons r reads =>
          intro e he
          unfold glued at he
          rw [a3 r rfl, List.drop_append, List.mem_append] at he
          rcases he with he | he
          · exact b4 e he
          · exact hlow (fun st hst => a2.hist st (by simp [hst])) (Nat.lt_succ_self i) e (List.mem_of_mem_drop he)
    · rcases firstAtMost_spec (score := score) hdesc with ⟨b1, b2⟩ | ⟨k', b1, b2, b3, b4⟩
      · rw [b1] at a1; cases a1
      · rw [b1] at a1
        cases a1
        cases reads with
        | nil => simp [glued]
        | cons r reads =>
          intro e he
          unfold glued at he
          rw [a3 r rfl, List.take_append, List.mem_append] at he
          rcases he with he | he
          · exact b3 e he
          · rw [show k - l.length = 0 by omega] at he; simp at he
  · refine ⟨i + 1, reads, 0, a2, ?_, by simp, fun e he _ j hj => ?_⟩
    · intro e he
      exact hlow a2.hist (Nat.lt_succ_self i) e (by simpa using he)
    · rcases Nat.lt_or_eq_of_le (hge e he j hj) with hlt | rfl
      · exact hlt
      · have hel := hj _ (logical_mem hw)
        rw [← g3] at hel
        rcases firstAtMost_spec (score := score) hdesc with ⟨b1, b2⟩ | ⟨k', b1, b2, b3, b4⟩
        · have := b2 e hel; omega
        · rw [b1] at a1; cases a1

/-! ### Without changes -/

/-- What a call leads to if it is not disturbed. -/
def DescTrace (st : ListState) (score n : Nat) : Desc → Prop
  | .located i a t => Desc.locate st.scores.segs score = some (.located i a t)
  | .reading i _ f a t s => Desc.locate st.scores.segs score = some (.located i a t) ∧
      getElementsFromScore st.scores.segs score i n = some (Scan.rest st.scores.segs s, f)

/-- The list is as it was at the beginning of the call. -/
def Undisturbed (st : ListState) (w : World) : Prop :=
  w.hist = [st] → w.cur = st ∧ ∀ u a b c, w.phase ≠ .storing u a b c

theorem undisturbed_step {st : ListState} {w w' : World} (hw : WorldOK w) (h : Undisturbed st w) (hs : Step (w, none) (w', none)) :
    Undisturbed st w' ∧ (w'.hist = [st] → w.hist = [st]) := by
  unfold Undisturbed at *
  cases hs with
  | change =>
    refine ⟨fun hh => ?_, fun hh => ?_⟩ <;>
    · simp only [List.cons.injEq] at hh
      have := hw.head
      rw [hh.2] at this
      cases this
  | begin => exact ⟨fun hh => ⟨(h hh).1, nofun⟩, id⟩
  | lockIndex => exact ⟨fun hh => ⟨(h hh).1, nofun⟩, id⟩
  | lockScores => exact ⟨fun hh => ⟨(h hh).1, nofun⟩, id⟩
  | storeIndex => exact ⟨fun hh => absurd rfl ((h hh).2 _ _ _ _), id⟩
  | setCount => exact ⟨fun hh => absurd rfl ((h hh).2 _ _ _ _), id⟩
  | storeScores => exact ⟨fun hh => absurd rfl ((h hh).2 _ _ _ _), id⟩
  | finish => exact ⟨fun hh => absurd rfl ((h hh).2 _ _ _ _), id⟩

theorem desc_quiet {st : ListState} {score n : Nat} {x y : World × Option Desc} (hr : DescRun score n x y) (hw : WorldOK x.1)
    (ho : ∀ d, x.2 = some d → DescOK x.1 score n d) (hx : Undisturbed st x.1) (hs : x.2.isSome)
    (ht : ∀ d, x.2 = some d → DescTrace st score n d) :
    y.2.isSome ∧ Undisturbed st y.1 ∧ (y.1.hist = [st] → ∀ d, y.2 = some d → DescTrace st score n d) := by
  induction hr with
  | refl => exact ⟨hs, hx, fun _ => ht⟩
  | @step y z hr hs' ih =>
    obtain ⟨i1, i2, i3⟩ := ih
    obtain ⟨hwy, hoy⟩ := desc_run hr hw ho
    cases hs' with
    | update hs' =>
      obtain ⟨q1, q2⟩ := undisturbed_step hwy i2 hs'
      exact ⟨i1, q1, fun hh => i3 (q2 hh)⟩
    | call => cases i1
    | @lock w i a t l hl =>
      refine ⟨rfl, i2, fun hh d hd => ?_⟩
      cases hd
      have hloc := i3 hh _ rfl
      refine ⟨hloc, ?_⟩
      obtain ⟨c1, c2⟩ := i2 hh
      have hdiv : Divides w score i := hoy _ rfl
      obtain ⟨s, hs⟩ : ∃ s, st.scores.segs[i]? = some s := ⟨_, List.getElem?_eq_getElem (by rw [← c1]; exact hdiv.1)⟩
      have htab : table w = st.scores.segs := by
        unfold table
        split
        · exact absurd ‹_› (c2 _ _ _ _)
        · rw [c1]
      have hlog : logical w = st := by
        have := logical_mem hwy
        rw [hh] at this
        exact List.mem_singleton.1 this
      have hle : l = s.elems := by
        rw [seeScores_logical hwy hl, hlog]; unfold elemsAt; rw [hs]; rfl
      unfold getElementsFromScore Desc.begin
      rw [hs, htab, hle]
      dsimp only
      cases hf : firstAtMost score s.elems with
      | some k => simp [Scan.rest]
      | none => simp [Scan.rest, hs]
    | @read w i f a t l' l s hm hl =>
      refine ⟨rfl, i2, fun hh d hd => ?_⟩
      cases hd
      obtain ⟨t1, t2⟩ := i3 hh _ rfl
      refine ⟨t1, ?_⟩
      have hlog : logical w = st := by
        have := logical_mem hwy
        rw [hh] at this
        exact List.mem_singleton.1 this
      rw [seeScores_logical hwy hl, hlog, rest_read (by rw [← (i2 hh).1]; exact hm.1) hm.2]
      exact t2

end RankDB.Concurrent

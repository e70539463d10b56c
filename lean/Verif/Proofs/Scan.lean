import Verif.Model.Scan
import Verif.Proofs.Concurrent
/-
What is read from the segments of a list one after the other while updates are in progress.
-/
namespace RankDB.Concurrent
open Segments Spec Lists

/-- The segments from position `p` on, each as it is in another list. -/
def glued : Nat → List ListState → List Element
  | _, [] => []
  | p, st :: sts => elemsAt st.scores.segs p ++ glued (p + 1) sts

theorem glued_append : ∀ (a b : List ListState) (p : Nat), glued p (a ++ b) = glued p a ++ glued (p + a.length) b
  | [], b, p => by simp [glued]
  | st :: a, b, p => by
    simp only [List.cons_append, glued, glued_append a b, List.append_assoc, List.length_cons]
    rw [show p + 1 + a.length = p + (a.length + 1) by omega]

theorem mem_glued : ∀ {sts : List ListState} {p : Nat} {e : Element}, e ∈ glued p sts →
    ∃ i st, sts[i]? = some st ∧ e ∈ elemsAt st.scores.segs (p + i)
  | [], _, _, h => nomatch h
  | st :: sts, p, e, h => by
    unfold glued at h
    rcases List.mem_append.1 h with h | h
    · exact ⟨0, st, rfl, h⟩
    · obtain ⟨i, s, h1, h2⟩ := mem_glued h
      exact ⟨i + 1, s, by simpa using h1, by rwa [show p + (i + 1) = p + 1 + i by omega]⟩

theorem glued_mem {sts : List ListState} {p i : Nat} {st : ListState} {e : Element} (h : sts[i]? = some st)
    (he : e ∈ elemsAt st.scores.segs (p + i)) : e ∈ glued p sts := by
  induction sts generalizing p i with
  | nil => cases h
  | cons s sts ih =>
    unfold glued
    cases i with
    | zero => cases h; exact List.mem_append.2 (.inl he)
    | succ i =>
      exact List.mem_append.2 (.inr (ih (i := i) (by simpa using h) (by rwa [show p + 1 + i = p + (i + 1) by omega])))

/-- Elements of different segments of lists with the same ranges are in ranking order. -/
theorem across {a b : ListState} (ha : ListOK a) (hb : ListOK b) (hs : Same a b) {i j : Nat} (hij : i < j)
    {x y : Element} (hx : x ∈ elemsAt a.scores.segs i) (hy : y ∈ elemsAt b.scores.segs j) : RanksAbove x y := by
  obtain ⟨s, h1, h2⟩ := elemsAt_mem hx
  obtain ⟨t, h3, h4⟩ := elemsAt_mem hy
  rcases sameRanges_getElem? hs.1 i with ⟨h, _⟩ | ⟨s', s2, h5, h6, h7⟩
  · rw [h] at h1; cases h1
  rw [h1] at h5
  cases h5
  have hs1 : s ∈ a.scores.segs := List.mem_of_getElem? h1
  have ht1 : t ∈ b.scores.segs := List.mem_of_getElem? h3
  have hxr : InRange s2 x := (h7.inRange x).1 (ha.scores.inRange s hs1 x h2)
  have hyr := hb.scores.inRange t ht1 y h4
  have hlt : hi t < lo s2 := by
    have := tiles_pairwise hb.scores.tiles
    rw [List.pairwise_iff_getElem] at this
    obtain ⟨l1, e1⟩ := List.getElem?_eq_some_iff.1 h6
    obtain ⟨l2, e2⟩ := List.getElem?_eq_some_iff.1 h3
    have := this i j l1 l2 hij
    rw [e1, e2] at this
    exact this
  apply ranksAbove_of_epos
  · exact (ha.scores.storable x (mem_allElems.2 ⟨s, hs1, h2⟩)).tie
  · exact (hb.scores.storable y (mem_allElems.2 ⟨t, ht1, h4⟩)).tie
  · unfold InRange at hxr hyr; unfold epos; omega

theorem elemsAt_strict {a : ListState} (ha : ListOK a) (i : Nat) : (elemsAt a.scores.segs i).Pairwise RanksAbove := by
  unfold elemsAt
  cases h : a.scores.segs[i]? with
  | none => exact .nil
  | some s => exact ha.scores.strictSeg s (List.mem_of_getElem? h)

theorem glued_strict : ∀ {sts : List ListState} {p : Nat}, (∀ a ∈ sts, ListOK a) → (∀ a ∈ sts, ∀ b ∈ sts, Same a b) →
    (glued p sts).Pairwise RanksAbove
  | [], _, _, _ => .nil
  | st :: sts, p, h, hs => by
    unfold glued
    rw [List.pairwise_append]
    refine ⟨elemsAt_strict (h st (by simp)) p, glued_strict (fun a ha => h a (by simp [ha])) fun a ha b hb =>
      hs a (by simp [ha]) b (by simp [hb]), fun x hx y hy => ?_⟩
    obtain ⟨i, b, h1, h2⟩ := mem_glued hy
    have hb : b ∈ sts := List.mem_of_getElem? h1
    exact across (h st (by simp)) (h b (by simp [hb])) (hs st (by simp) b (by simp [hb])) (by omega) hx h2

/-- What was read so far comes from lists in effect since the beginning. -/
structure ScanOK (w : World) (s : Scan) (p : Nat) (reads : List ListState) : Prop where
  hist : ∀ st ∈ reads, st ∈ w.hist
  res : s.res.Sublist (glued p reads)
  pos : s.left ≠ some 0 → s.pos = p + reads.length
  bound : s.pos ≤ w.cur.scores.segs.length
  all : s.left = none → p = 0 ∧ s.res = glued 0 reads

theorem segIdxTop_bound : ∀ {segs : List Seg} {k o i f : Nat}, segIdxTop segs k o = some (i, f) → i < k + segs.length
  | [], _, _, _, _, h => nomatch h
  | s :: ss, k, o, i, f, h => by
    unfold segIdxTop at h
    split at h
    · cases h; simp
    · have := segIdxTop_bound h
      simp only [List.length_cons]; omega

theorem segIdxBottomLoop_bound : ∀ {segs : List Seg} {k o i f : Nat}, segIdxBottomLoop segs k o = some (i, f) → i ≤ k
  | [], _, _, _, _, h => nomatch h
  | s :: ss, k, o, i, f, h => by
    unfold segIdxBottomLoop at h
    split at h
    · cases h; exact Nat.le_refl _
    · have := segIdxBottomLoop_bound h
      omega

theorem scan_start {w : World} {s : Scan} (hr : s.res = []) (hb : s.pos ≤ w.cur.scores.segs.length)
    (hc : s.left = none → s.pos = 0) : ScanOK w s s.pos [] :=
  ⟨by simp, by rw [hr]; exact .slnil, fun _ => rfl, hb, fun h => ⟨hc h, hr⟩⟩

theorem scan_read {w : World} {s : Scan} {p : Nat} {reads : List ListState} (hw : WorldOK w) (h : ScanOK w s p reads)
    {l : List Element} (hm : s.More w) (hl : seeScores w s.pos = some l) :
    ScanOK w (s.read l) p (reads ++ [logical w]) := by
  have hpos := h.pos hm.2
  have hg : glued p (reads ++ [logical w]) = glued p reads ++ l := by
    rw [glued_append]
    simp only [glued, List.append_nil]
    rw [seeScores_logical hw hl, hpos]
  have hhist : ∀ st ∈ reads ++ [logical w], st ∈ w.hist := by
    intro st hst
    rcases List.mem_append.1 hst with hst | hst
    · exact h.hist st hst
    · rw [List.mem_singleton.1 hst]; exact logical_mem hw
  have hlt := hm.1
  have hle := h.bound
  cases hleft : s.left with
  | none =>
    obtain ⟨rfl, hres⟩ := h.all hleft
    have he : s.read l = { s with pos := s.pos + 1, res := s.res ++ l } := by unfold Scan.read; rw [hleft]
    rw [he]
    refine ⟨hhist, ?_, fun _ => ?_, ?_, fun _ => ⟨rfl, ?_⟩⟩
    · rw [hg]; dsimp only; rw [hres]; exact .refl _
    · dsimp only; simp; omega
    · dsimp only; omega
    · dsimp only; rw [hg, hres]
  | some n =>
    have he : s.read l = if s.first ≥ l.length then { s with pos := s.pos + 1, first := s.first - l.length }
      else if (l.drop s.first).length > n then { s with left := some 0, res := s.res ++ (l.drop s.first).take n }
      else ⟨s.pos + 1, 0, some (n - (l.drop s.first).length), s.res ++ l.drop s.first⟩ := by
      unfold Scan.read; rw [hleft]
    rw [he]
    split
    · refine ⟨hhist, ?_, fun _ => ?_, ?_, fun hn => ?_⟩
      · rw [hg]; exact h.res.trans (List.sublist_append_left _ _)
      · dsimp only; simp; omega
      · dsimp only; omega
      · dsimp only at hn; rw [hleft] at hn; cases hn
    · split
      · refine ⟨hhist, ?_, fun hn => (hn rfl).elim, hle, fun hn => nomatch hn⟩
        rw [hg]
        exact h.res.append ((List.take_sublist _ _).trans (List.drop_sublist _ _))
      · refine ⟨hhist, ?_, fun _ => ?_, hlt, fun hn => nomatch hn⟩
        · rw [hg]
          exact h.res.append (List.drop_sublist _ _)
        · dsimp only; simp; omega

theorem step_same {w w' : World} (hw : WorldOK w) (hs : Step (w, none) (w', none)) :
    Same w'.cur w.cur ∧ ∀ st ∈ w.hist, st ∈ w'.hist := by
  cases hs with
  | finish => exact ⟨hw.phase.1.same, fun _ h => h⟩
  | change => exact ⟨Same.refl _, fun _ h => List.mem_cons_of_mem _ h⟩
  | _ => exact ⟨Same.refl _, fun _ h => h⟩

theorem ScanOK.mono {w w' : World} {s : Scan} {p : Nat} {reads : List ListState} (h : ScanOK w s p reads)
    (hs : Same w'.cur w.cur) (hh : ∀ st ∈ w.hist, st ∈ w'.hist) : ScanOK w' s p reads :=
  ⟨fun st hst => hh st (h.hist st hst), h.res, h.pos, by rw [hs.1.length]; exact h.bound, h.all⟩

theorem restart_ok {w : World} (h : WorldOK w) : WorldOK { w with hist := w.hist.take 1 } :=
  world_step (k := none) h (.call [])

theorem scan_step {x y : World × Option Scan} (hw : WorldOK x.1) (h : ∀ s, x.2 = some s → ∃ p r, ScanOK x.1 s p r)
    (hs : ScanStep x y) : WorldOK y.1 ∧ ∀ s, y.2 = some s → ∃ p r, ScanOK y.1 s p r := by
  cases hs with
  | update hs =>
    refine ⟨world_step hw hs, fun s hk => ?_⟩
    obtain ⟨p, r, h⟩ := h s hk
    obtain ⟨h1, h2⟩ := step_same hw hs
    exact ⟨p, r, h.mono h1 h2⟩
  | clone => exact ⟨restart_ok hw, fun s hk => by cases hk; exact ⟨_, _, scan_start rfl (Nat.zero_le _) fun _ => rfl⟩⟩
  | @fromTop w s o n hf =>
    refine ⟨restart_ok hw, fun s' hk => ?_⟩
    cases hk
    obtain ⟨⟨i, f⟩, hi, rfl⟩ := Option.map_eq_some_iff.1 hf
    have := segIdxTop_bound hi
    rw [(table_same hw).length] at this
    dsimp only at this
    exact ⟨_, _, scan_start rfl (by dsimp only; omega) nofun⟩
  | @fromBottom w s o n hf =>
    refine ⟨restart_ok hw, fun s' hk => ?_⟩
    cases hk
    obtain ⟨⟨i, f⟩, hi, rfl⟩ := Option.map_eq_some_iff.1 hf
    have := segIdxBottomLoop_bound hi
    rw [(table_same hw).length] at this
    dsimp only at this
    exact ⟨_, _, scan_start rfl (by dsimp only; omega) nofun⟩
  | @read w s l hm hl =>
    refine ⟨hw, fun s' hk => ?_⟩
    cases hk
    obtain ⟨p, r, h⟩ := h s rfl
    exact ⟨p, _, scan_read hw h hm hl⟩

theorem scan_ok {x y : World × Option Scan} (hr : ScanRun x y) (hw : WorldOK x.1)
    (h : ∀ s, x.2 = some s → ∃ p r, ScanOK x.1 s p r) : WorldOK y.1 ∧ ∀ s, y.2 = some s → ∃ p r, ScanOK y.1 s p r := by
  induction hr with
  | refl => exact ⟨hw, h⟩
  | step _ hs ih => exact scan_step ih.1 ih.2 hs

/-! ### Without changes -/

/-- What a reading leads to if it is not disturbed. -/
def Scan.rest (segs : List Seg) (s : Scan) : List Element :=
  match s.left with
  | none => s.res ++ allElems (segs.drop s.pos)
  | some n => s.res ++ getElementsOffset (segs.drop s.pos) s.first n

theorem rest_read {segs : List Seg} {s : Scan} (hp : s.pos < segs.length) (hl : s.left ≠ some 0) :
    Scan.rest segs (s.read (elemsAt segs s.pos)) = Scan.rest segs s := by
  have hd : segs.drop s.pos = segs[s.pos] :: segs.drop (s.pos + 1) := (List.getElem_cons_drop hp).symm
  have he : elemsAt segs s.pos = segs[s.pos].elems := by
    unfold elemsAt; rw [List.getElem?_eq_getElem hp]; rfl
  obtain ⟨pos, first, left, res⟩ := s
  dsimp only at hp hd he hl
  cases left with
  | none =>
    simp only [Scan.rest, Scan.read]
    rw [hd, he]
    simp only [allElems, List.flatMap_cons, List.append_assoc]
  | some n =>
    have hn : n ≠ 0 := fun h => hl (by rw [h])
    simp only [Scan.rest, Scan.read]
    rw [hd, he]
    conv => rhs; unfold getElementsOffset
    rw [if_neg hn]
    by_cases h1 : first ≥ segs[pos].elems.length
    · rw [if_pos h1, if_pos h1]
    · rw [if_neg h1, if_neg h1]
      by_cases h2 : (segs[pos].elems.drop first).length > n
      · rw [if_pos h2, if_pos h2]
        dsimp only
        rw [hd]
        unfold getElementsOffset
        rw [if_pos rfl, List.append_nil]
      · rw [if_neg h2, if_neg h2]
        dsimp only
        rw [List.append_assoc]

/-- While the list does not change, neither does what the reading leads to. -/
theorem quiet_scan {st : ListState} {x y : World × Option Scan} (hr : ScanRun x y) (hw : WorldOK x.1)
    {s0 : Scan} (h0 : x.2 = some s0) {l : List Element} (hrest : Scan.rest st.scores.segs s0 = l) (hq : y.1.hist = [st]) :
    (∃ s, y.2 = some s ∧ Scan.rest st.scores.segs s = l) ∧ WorldOK y.1 := by
  induction hr with
  | refl => exact ⟨⟨s0, h0, hrest⟩, hw⟩
  | @step y z _ hs ih =>
    have hlen : z.1.hist = [st] → y.2.isSome → y.1.hist ≠ [] → y.1.hist = [st] := by
      intro hz hk hy
      cases hs with
      | update hs =>
        cases hs with
        | change => simp only [List.cons.injEq] at hz; exact (hy hz.2).elim
        | _ => exact hz
      | read => exact hz
      | _ => cases hk
    -- the history never gets empty
    have hok : ∀ {a b : World × Option Scan}, ScanRun a b → WorldOK a.1 → a.2.isSome → WorldOK b.1 ∧ b.2.isSome := by
      intro a b hr ha hk
      induction hr with
      | refl => exact ⟨ha, hk⟩
      | @step b c _ hs ih =>
        obtain ⟨i1, i2⟩ := ih
        cases hs with
        | update hs => exact ⟨world_step i1 hs, i2⟩
        | read => exact ⟨i1, rfl⟩
        | _ => cases i2
    obtain ⟨hwy, hky⟩ := hok ‹_› hw (by rw [h0]; rfl)
    have hne : y.1.hist ≠ [] := fun h => by have := hwy.head; rw [h] at this; cases this
    obtain ⟨⟨s, hs1, hs2⟩, -⟩ := ih (hlen hq hky hne)
    have hqy := hlen hq hky hne
    cases hs with
    | update hs => exact ⟨⟨s, hs1, hs2⟩, world_step hwy hs⟩
    | @read w s' l' hm hl =>
      cases hs1
      have hlog : logical w = st := by
        have := logical_mem hwy
        rw [hqy] at this
        exact List.mem_singleton.1 this
      refine ⟨⟨_, rfl, ?_⟩, hwy⟩
      have hle : s.pos < st.scores.segs.length := by
        have := (hwy.hist st (by rw [hqy]; simp)).2.1.length
        rw [this]
        exact hm.1
      rw [seeScores_logical hwy hl, hlog, rest_read hle hm.2]
      exact hs2
    | _ => cases hky

/-- The result, once there is nothing more to read. -/
theorem rest_done {segs : List Seg} {s : Scan} (h : segs.length ≤ s.pos ∨ s.left = some 0) : Scan.rest segs s = s.res := by
  unfold Scan.rest
  rcases h with h | h
  · rw [List.drop_eq_nil_of_le h]
    cases s.left with
    | none => simp [allElems]
    | some n => simp [getElementsOffset]
  · rw [h]
    dsimp only
    cases segs.drop s.pos with
    | nil => simp [getElementsOffset]
    | cons => simp [getElementsOffset]

end RankDB.Concurrent

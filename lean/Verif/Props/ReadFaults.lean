import Verif.Proofs.ReadFaults
import Verif.Spec.ReadFaults
import Verif.Props.Queries
/-
C109: queries while the storage fails. The theorems are about every run (`Runs`) of a query on a list, in which every
read of a segment may or may not fail; `t` are the reads of the run with whether they succeeded.
-/
namespace RankDB.Props
open Spec ReadFaults

theorem not_fine {t : List (Place × Bool)} (h : ¬ Fine t) : ReadFailed t := by
  apply Classical.byContradiction
  intro hn
  refine h fun x hx => ?_
  cases hb : x.2 with
  | true => rfl
  | false => exact absurd ⟨x.1, by rw [← hb]; exact hx⟩ hn

theorem fine_iff {t : List (Place × Bool)} : Fine t ↔ ¬ ReadFailed t := by
  constructor
  · rintro h ⟨p, hp⟩
    have := h _ hp
    cases this
  · exact fun h => Classical.byContradiction fun hn => h (not_fine hn)

/-- `GetRankTop`: an error, and then a read has failed; or the page, and then none has. Only segments with elements of
the page are read (or empty ones), at most two more than the page fills. -/
theorem C109_rank_top (st : ListState) (h : ListOK st) (offset n : Nat) {t : List (Place × Bool)} {a : Answer (List Element)}
    (hr : Runs (stored st) (rankTop st offset n) t a) :
    (a = .failed ∧ ReadFailed t ∨
      ¬ ReadFailed t ∧ a = if offset < st.content.length then .given ((st.content.drop offset).take n) else .refused) ∧
    (∀ x ∈ t, PartOf st ((st.content.drop offset).take n) x.1) ∧
    ∀ m, (∀ s ∈ st.scores.segs, m ≤ s.elems.length) → (t.length - 2) * m ≤ n := by
  have hp := C22_rank_top st offset n h
  unfold Lists.getRankTop at hp
  unfold rankTop at hr
  cases hs : Segments.segIdxTop st.scores.segs 0 offset with
  | none =>
    rw [hs] at hr hp
    obtain ⟨rfl, rfl⟩ := runs_done hr
    split at hp
    · cases hp
    · refine ⟨.inr ⟨(fun ⟨_, h⟩ => nomatch h), ?_⟩, nofun, fun m _ => by simp⟩
      rw [if_neg ‹_›]
  | some q =>
    obtain ⟨i, o⟩ := q
    rw [hs] at hr hp
    split at hp
    · rename_i hlt
      have hpage := Option.some.inj hp
      dsimp only at hr hpage
      have hin := segIdxTop_inside (k := 0) h.scoresCount (by rw [Nat.zero_add]; exact hs)
      obtain ⟨r1, r2, r3⟩ := readOffset_runs (stored_scores st) _ i o n rfl hr
      rw [hpage] at r1 r2
      refine ⟨?_, fun x hx => ?_, fun m hm => (r3 (.inr hin) m hm).1⟩
      · rcases r1 with ⟨rfl, r1⟩ | ⟨rfl, r1⟩
        · exact .inl ⟨rfl, not_fine r1⟩
        · exact .inr ⟨fine_iff.1 r1, by rw [if_pos hlt]⟩
      · obtain ⟨j, j1, j2, j3⟩ := r2 (.inr hin) x hx
        rw [j1]
        refine ⟨rfl, j2, ?_⟩
        rw [stored_scores]
        rcases j3 with j3 | ⟨e, e1, e2⟩
        · exact .inl j3
        · exact .inr ⟨e, e2, e1⟩
    · cases hp

/-- A page of two segments when the third cannot be read, and when the second cannot. -/
example : ListOK exList ∧
    Runs (stored exList) (rankTop exList 1 3) [((false, 0), true), ((false, 1), true)]
      (.given [⟨70, 3, [], 0, 7⟩, ⟨50, 1, [], 3, 7⟩, ⟨50, 2, [9], 0, 7⟩]) ∧
    Runs (stored exList) (rankTop exList 1 3) [((false, 0), true), ((false, 1), false)] .failed := by
  have e1 := runs_run (fails := fun _ p => p == (false, 2)) (elems := stored exList) (rankTop exList 1 3) 0
  have e2 := runs_run (fails := fun _ p => p == (false, 1)) (elems := stored exList) (rankTop exList 1 3) 0
  rw [show run (fun _ p => p == (false, 2)) (stored exList) 0 (rankTop exList 1 3) =
    ([((false, 0), true), ((false, 1), true)], .given [⟨70, 3, [], 0, 7⟩, ⟨50, 1, [], 3, 7⟩, ⟨50, 2, [9], 0, 7⟩]) by
      decide +kernel] at e1
  rw [show run (fun _ p => p == (false, 1)) (stored exList) 0 (rankTop exList 1 3) =
    ([((false, 0), true), ((false, 1), false)], .failed) by decide +kernel] at e2
  exact ⟨exList_ok, e1, e2⟩

/-- `GetRankBottom`, in the same way. -/
theorem C109_rank_bottom (st : ListState) (h : ListOK st) (offset n : Nat) {t : List (Place × Bool)} {a : Answer (List Element)}
    (hr : Runs (stored st) (rankBottom st offset n) t a) :
    (a = .failed ∧ ReadFailed t ∨
      ¬ ReadFailed t ∧ a = if offset < st.content.length then
        .given ((st.content.drop (st.content.length - 1 - offset)).take n) else .refused) ∧
    (∀ x ∈ t, PartOf st ((st.content.drop (st.content.length - 1 - offset)).take n) x.1) ∧
    ∀ m, (∀ s ∈ st.scores.segs, m ≤ s.elems.length) → (t.length - 2) * m ≤ n := by
  have hp := C23_rank_bottom st offset n h
  unfold Lists.getRankBottom at hp
  unfold rankBottom at hr
  cases hs : Segments.segIdxBottom st.scores.segs offset with
  | none =>
    rw [hs] at hr hp
    obtain ⟨rfl, rfl⟩ := runs_done hr
    split at hp
    · cases hp
    · refine ⟨.inr ⟨(fun ⟨_, h⟩ => nomatch h), ?_⟩, nofun, fun m _ => by simp⟩
      rw [if_neg ‹_›]
  | some q =>
    obtain ⟨i, o⟩ := q
    rw [hs] at hr hp
    split at hp
    · rename_i hlt
      have hpage := Option.some.inj hp
      dsimp only at hr hpage
      have hin := segIdxBottom_inside h.scoresCount hs
      obtain ⟨r1, r2, r3⟩ := readOffset_runs (stored_scores st) _ i o n rfl hr
      rw [hpage] at r1 r2
      refine ⟨?_, fun x hx => ?_, fun m hm => (r3 (.inr hin) m hm).1⟩
      · rcases r1 with ⟨rfl, r1⟩ | ⟨rfl, r1⟩
        · exact .inl ⟨rfl, not_fine r1⟩
        · exact .inr ⟨fine_iff.1 r1, by rw [if_pos hlt]⟩
      · obtain ⟨j, j1, j2, j3⟩ := r2 (.inr hin) x hx
        rw [j1]
        refine ⟨rfl, j2, ?_⟩
        rw [stored_scores]
        rcases j3 with j3 | ⟨e, e1, e2⟩
        · exact .inl j3
        · exact .inr ⟨e, e2, e1⟩
    · cases hp

example : ListOK exList ∧
    Runs (stored exList) (rankBottom exList 3 2) [((false, 1), true)] (.given [⟨20, 5, [], 0, 7⟩, ⟨20, 8, [], 0, 7⟩]) := by
  have e1 := runs_run (fails := fun _ p => p == (false, 2)) (elems := stored exList) (rankBottom exList 3 2) 0
  rw [show run (fun _ p => p == (false, 2)) (stored exList) 0 (rankBottom exList 3 2) =
    ([((false, 1), true)], .given [⟨20, 5, [], 0, 7⟩, ⟨20, 8, [], 0, 7⟩]) by decide +kernel] at e1
  exact ⟨exList_ok, e1⟩

theorem firstAtMost_lt {score : Nat} : ∀ {l : List Element} {k : Nat}, Segments.firstAtMost score l = some k → k < l.length
  | [], _, h => nomatch h
  | e :: l, k, h => by
    unfold Segments.firstAtMost at h
    split at h
    · cases h; simp
    · obtain ⟨j, j1, rfl⟩ := Option.map_eq_some_iff.1 h
      have := firstAtMost_lt j1
      simp only [List.length_cons]; omega

/-- `GetRankScoreDesc`: an error, and then a read has failed; or the elements from the score on with their ranks, and
then none has. Besides the segments with those elements only one is read, whose scores the score is among. -/
theorem C109_rank_score (st : ListState) (h : ListOK st) (score n : Nat) (hs : score < 2 ^ 64) {t : List (Place × Bool)}
    {a : Answer (List (Element × Int × Int))} (hr : Runs (stored st) (rankScoreDesc st score n) t a) :
    (a = .failed ∧ ReadFailed t ∨
      ¬ ReadFailed t ∧ ∃ r, a = .given r ∧ r.map (·.1) = (st.content.filter fun e => decide (e.score ≤ score)).take n ∧
        ∀ x ∈ r, x.2.1 = rankFromTop st.content x.1 ∧ x.2.2 = rankFromBottom st.content x.1) ∧
    (∀ x ∈ t, x.1.1 = false ∧ Covers st.scores.segs x.1.2 score ∨
      PartOf st ((st.content.filter fun e => decide (e.score ≤ score)).take n) x.1) ∧
    ∀ m, (∀ s ∈ st.scores.segs, m ≤ s.elems.length) → (t.length - 3) * m ≤ n := by
  obtain ⟨r, p1, p2, p3⟩ := C24_rank_score st score n h hs
  unfold Lists.getRankScoreDesc at p1
  unfold rankScoreDesc at hr
  cases hq : Segments.segIdxScore score st.scores.segs 0 0 with
  | none => rw [hq] at p1; cases p1
  | some q =>
    obtain ⟨i, above⟩ := q
    rw [hq] at p1 hr
    obtain ⟨j, hj, s, s1, s2⟩ := Concurrent.segIdxScore_first hq
    obtain rfl : i = j := by omega
    have hcov : Covers st.scores.segs i score := ⟨s, s1, s2⟩
    have hat : Segments.elemsAt st.scores.segs i = s.elems := by unfold Segments.elemsAt; rw [s1]; rfl
    cases hr with
    | fail hr =>
      obtain ⟨rfl, rfl⟩ := runs_done hr
      refine ⟨.inl ⟨rfl, (false, i), List.mem_cons_self⟩, fun x hx => ?_, fun m _ => by simp⟩
      rw [List.mem_singleton.1 hx]
      exact .inl ⟨rfl, hcov⟩
    | ok hr =>
      rename_i t
      dsimp only at hr
      rw [stored_scores, hat] at hr
      dsimp only at p1
      unfold Segments.getElementsFromScore at p1
      rw [s1] at p1
      dsimp only at p1
      obtain ⟨t₁, t₂, x, rfl, h1, hr⟩ := runs_bind hr
      -- where the page starts
      obtain ⟨i', o, f, hpar, hpage, hin⟩ : ∃ i' o f,
          scoreStart st score i s.elems = (i', o, f) ∧
          Lists.rankFrom (Segments.count st.scores.segs) above f
            (Segments.getElementsOffset (st.scores.segs.drop i') o n) = r ∧
          (o = 0 ∨ o < (Segments.elemsAt st.scores.segs i').length) := by
        unfold scoreStart
        cases hf : Segments.firstAtMost score s.elems with
        | some k =>
          rw [hf] at p1
          exact ⟨i, k, k, rfl, Option.some.inj p1, .inr (by rw [hat]; exact firstAtMost_lt hf)⟩
        | none =>
          rw [hf] at p1
          refine ⟨i + 1, 0, s.n, ?_, Option.some.inj p1, .inl rfl⟩
          simp [List.getD, s1]
      rw [hpar] at h1 hr
      dsimp only at h1 hr
      obtain ⟨r1, r2, r3⟩ := readOffset_runs (stored_scores st) _ i' o n rfl h1
      have hel : Segments.getElementsOffset (st.scores.segs.drop i') o n =
          (st.content.filter fun e => decide (e.score ≤ score)).take n := by
        rw [← p2, ← hpage]
        exact rankFrom_spec.1.symm
      have ht₂ : t₂ = [] := by
        revert hr
        cases x <;> exact fun hr => (runs_done hr).1
      subst ht₂
      rw [List.append_nil]
      refine ⟨?_, fun y hy => ?_, fun m hm => ?_⟩
      · rcases r1 with ⟨rfl, r1⟩ | ⟨rfl, r1⟩
        · obtain ⟨q, hq⟩ := not_fine r1
          exact .inl ⟨(runs_done hr).2, q, List.mem_cons_of_mem _ hq⟩
        · refine .inr ⟨fine_iff.1 (fine_cons.2 ⟨rfl, r1⟩), r, ?_, p2, p3⟩
          rw [(runs_done hr).2, hpage]
      · rcases List.mem_cons.1 hy with rfl | hy
        · exact .inl ⟨rfl, hcov⟩
        · obtain ⟨j, j1, j2, j3⟩ := r2 hin y hy
          rw [hel] at j3
          rw [j1]
          refine .inr ⟨rfl, j2, ?_⟩
          rw [stored_scores]
          rcases j3 with j3 | ⟨e, e1, e2⟩
          · exact .inl j3
          · exact .inr ⟨e, e2, e1⟩
      · have := (r3 hin m hm).1
        rw [List.length_cons]
        exact Nat.le_trans (Nat.mul_le_mul_right m (by omega)) this

/-- With the first segment unreadable for the second of the three reads. -/
example : ListOK exList ∧
    Runs (stored exList) (rankScoreDesc exList 50 3) [((false, 0), true), ((false, 0), true), ((false, 1), true)]
      (.given [(⟨50, 1, [], 3, 7⟩, 2, 6), (⟨50, 2, [9], 0, 7⟩, 3, 5), (⟨33, 9, [], 0, 7⟩, 4, 4)]) ∧
    Runs (stored exList) (rankScoreDesc exList 50 3) [((false, 0), true), ((false, 0), false)] .failed := by
  have e1 := runs_run (fails := fun _ p => p == (false, 2)) (elems := stored exList) (rankScoreDesc exList 50 3) 0
  have e2 := runs_run (fails := fun k _ => k == 1) (elems := stored exList) (rankScoreDesc exList 50 3) 0
  rw [show run (fun _ p => p == (false, 2)) (stored exList) 0 (rankScoreDesc exList 50 3) =
    ([((false, 0), true), ((false, 0), true), ((false, 1), true)],
      .given [(⟨50, 1, [], 3, 7⟩, 2, 6), (⟨50, 2, [9], 0, 7⟩, 3, 5), (⟨33, 9, [], 0, 7⟩, 4, 4)]) by decide +kernel] at e1
  rw [show run (fun k _ => k == 1) (stored exList) 0 (rankScoreDesc exList 50 3) =
    ([((false, 0), true), ((false, 0), false)], .failed) by decide +kernel] at e2
  exact ⟨exList_ok, e1, e2⟩

theorem partial_of_cut {content : List Element} {radius : Nat} {r full : Segments.Ranked} (hc : Cut r full)
    (h : Lists.ResultOK content radius full) : PartialResult content radius r := by
  refine ⟨by rw [hc.elem]; exact h.mem, by rw [hc.top, hc.elem]; exact h.top, by rw [hc.bottom, hc.elem]; exact h.bottom, ?_, ?_⟩
  · rw [hc.elem, ← h.below]; exact hc.below
  · rw [hc.elem, ← h.above]; exact hc.above

theorem exact_of_cut {content : List Element} {radius : Nat} {r full : Segments.Ranked} (hc : Cut r full)
    (h : Lists.ResultOK content radius full) (h0 : radius = 0 ∨ r = full) : FullResult content radius r := by
  rcases h0 with rfl | rfl
  · have p := partial_of_cut hc h
    refine ⟨p, ?_, ?_⟩
    · have := p.below
      rw [List.take_zero] at this ⊢
      exact List.prefix_nil.1 this
    · have := p.above
      rw [List.take_zero] at this ⊢
      exact List.prefix_nil.1 this
  · exact ⟨partial_of_cut hc h, h.below, h.above⟩

/-- `GetPercentile`: an error, and then a read has failed; or the element with its ranks and the neighbours nearest to
it, all of them if none has failed. -/
theorem C109_percentile (st : ListState) (m e radius : Nat) (h : ListOK st) (hm : m < 2 ^ e) (hm' : m < 2 ^ 53)
    (hlen : st.content.length < 2 ^ 63) (hne : st.content ≠ []) {t : List (Place × Bool)} {a : Answer Segments.Ranked}
    (hr : Runs (stored st) (percentile st m e radius) t a) :
    (a = .failed ∧ ReadFailed t ∨
      ∃ r, a = .given r ∧ PartialResult st.content radius r ∧ (radius = 0 ∨ ¬ ReadFailed t → FullResult st.content radius r) ∧
        (st.content[st.content.length * m / 2 ^ e]? = some r.elem ∨
          2 ^ 64 ≤ st.content.length * m ∧ st.content[st.content.length * m / 2 ^ e + 1]? = some r.elem)) ∧
    (radius = 0 → t.length = 1) ∧
    ∀ k, (∀ s ∈ st.scores.segs, k ≤ s.elems.length) → (t.length - 3) * k ≤ 2 * radius := by
  obtain ⟨full, p1, p2, p3⟩ := C25_percentile_below_one st m e radius h hm hm' hlen hne
  unfold Lists.getPercentile Lists.getAtOffset at p1
  unfold percentile atOffset at hr
  generalize Lists.percentileOffset (Segments.count st.scores.segs) (if m > 2 ^ e then 2 ^ e else m) e = want at p1 hr
  dsimp only at p1 hr
  generalize Lists.percentileSeg want (Segments.topOffsets st.scores.segs 0) 0 = i at p1 hr
  obtain ⟨x, x1, x2⟩ := Option.map_eq_some_iff.1 p1
  unfold Segments.getElementIndex at x1
  cases hs : st.scores.segs[i]? with
  | none => rw [hs] at x1; cases x1
  | some s =>
    have hi : i < st.scores.segs.length := (List.getElem?_eq_some_iff.1 hs).1
    have hat : Segments.elemsAt st.scores.segs i = s.elems := by unfold Segments.elemsAt; rw [hs]; rfl
    rw [hs] at x1
    dsimp only at x1
    rw [if_neg (by omega)] at hr
    cases hr with
    | fail hr =>
      obtain ⟨rfl, rfl⟩ := runs_done hr
      exact ⟨.inl ⟨rfl, _, List.mem_cons_self⟩, fun _ => rfl, fun k _ => by simp⟩
    | ok hr =>
      dsimp only at hr
      rw [stored_scores, hat] at hr
      cases he : s.elems[min (want - (Segments.topOffsets st.scores.segs 0).getD i 0) (s.elems.length - 1)]? with
      | none => rw [he] at x1; cases x1
      | some el =>
        rw [he] at x1 hr
        dsimp only at x1 hr
        obtain ⟨t₁, t₂, y, rfl, h1, hr⟩ := runs_bind hr
        rw [← hat] at h1
        obtain ⟨f1, -, f3, f4⟩ := findRanked_runs (stored_scores st) hi h1
        have ht₂ : t₂ = [] := by
          revert hr
          cases y <;> exact fun hr => (runs_done hr).1
        subst ht₂
        rw [List.append_nil]
        refine ⟨.inr ?_, fun h0 => by rw [f4 h0]; rfl, fun k hk => ?_⟩
        · rw [← Option.some.inj x1] at x2
          rcases f1 with ⟨-, f1, -⟩ | ⟨r, fr, rfl, f1, f2, f5⟩
          · rw [f1] at x2; cases x2
          · rw [f1] at x2
            obtain rfl := Option.some.inj x2
            have hc := cut_total f2 (Segments.count st.scores.segs)
            refine ⟨_, (runs_done hr).2, partial_of_cut hc p2, fun h0 => exact_of_cut hc p2 ?_, ?_⟩
            · refine h0.imp id fun h0 => ?_
              rw [f5 ((fine_cons.1 (fine_iff.2 h0)).2)]
            · rw [hc.elem]; exact p3
        · rw [List.length_cons]
          exact Nat.le_trans (Nat.mul_le_mul_right k (by omega)) (f3 k hk)

/-- The median, with a neighbouring segment that can be read and one that cannot. -/
example : ListOK exList ∧
    Runs (stored exList) (percentile exList 1 1 3) [((false, 1), true), ((false, 2), false), ((false, 0), true)]
      (.given ⟨⟨33, 9, [], 0, 7⟩, 4, 4, [⟨50, 2, [9], 0, 7⟩, ⟨50, 1, [], 3, 7⟩, ⟨70, 3, [], 0, 7⟩],
        [⟨20, 5, [], 0, 7⟩, ⟨20, 8, [], 0, 7⟩], none⟩) := by
  have e1 := runs_run (fails := fun _ p => p == (false, 2)) (elems := stored exList) (percentile exList 1 1 3) 0
  rw [show run (fun _ p => p == (false, 2)) (stored exList) 0 (percentile exList 1 1 3) =
    ([((false, 1), true), ((false, 2), false), ((false, 0), true)],
      .given ⟨⟨33, 9, [], 0, 7⟩, 4, 4, [⟨50, 2, [9], 0, 7⟩, ⟨50, 1, [], 3, 7⟩, ⟨70, 3, [], 0, 7⟩],
        [⟨20, 5, [], 0, 7⟩, ⟨20, 8, [], 0, 7⟩], none⟩) by decide +kernel] at e1
  exact ⟨exList_ok, e1⟩

/-- `GetElements`: an error, and then a read has failed; or every one of the elements that is in the list, once, with
its ranks and the neighbours nearest to it, all of them if no read has failed. Segments of the index are read only for
IDs they cover; without neighbours, score segments only for elements they hold, and at most two per ID. -/
theorem C109_lookup {sch : Sched} (st : ListState) (h : ListOK st) (ids : List Nat) (hid : ∀ v ∈ ids, v < 2 ^ 64)
    (radius : Nat) {t : List (Place × Bool)} {a : Answer (List Segments.Ranked)}
    (hr : Runs (stored st) (getElements sch st ids radius) t a) :
    (a = .failed ∧ ReadFailed t ∨
      ∃ rs, a = .given rs ∧ (rs.map (·.elem.id)).Nodup ∧ (∀ e ∈ st.content, e.id ∈ ids → ∃ r ∈ rs, r.elem = e) ∧
        ∀ r ∈ rs, r.elem.id ∈ ids ∧ PartialResult st.content radius r ∧
          (radius = 0 ∨ ¬ ReadFailed t → FullResult st.content radius r)) ∧
    (∀ x ∈ t, (x.1.1 = true ∧ ∃ v ∈ ids, Covers st.index.segs x.1.2 v) ∨
      x.1.1 = false ∧ (radius = 0 → ∃ e ∈ stored st x.1, e.id ∈ ids)) ∧
    (radius = 0 → t.length ≤ 2 * (uniq ids).length) := by
  obtain ⟨g1, g2, g3⟩ := getElements_runs h hid hr
  refine ⟨?_, fun x hx => ?_, g3⟩
  · rcases g1 with ⟨rfl, g1⟩ | ⟨rs, rfl, r1, r2, r3⟩
    · exact .inl ⟨rfl, not_fine g1⟩
    · refine .inr ⟨rs, rfl, r1, r2, fun r hr => ?_⟩
      obtain ⟨full, f1, f2, f3, f4⟩ := r3 r hr
      exact ⟨f3, partial_of_cut f1 f2, fun h0 => exact_of_cut f1 f2 (h0.imp id fun h0 => f4 (fine_iff.2 h0))⟩
  · rcases g2 x hx with ⟨j, j1, v, v1, s, s1, s2⟩ | ⟨j, j1, j2, j3⟩
    · rw [j1]; exact .inl ⟨rfl, v, v1, s, s1, s2⟩
    · rw [j1]; exact .inr ⟨rfl, fun h0 => by rw [stored_scores]; exact j3 h0⟩

/-- Two elements of the list and an ID that is not in it. -/
example : ListOK exList ∧
    Runs (stored exList) (getElements .inOrder exList [1, 3, 77] 0) [((true, 0), true), ((true, 2), true), ((false, 0), true)]
      (.given [⟨⟨70, 3, [], 0, 7⟩, 1, 7, [], [], none⟩, ⟨⟨50, 1, [], 3, 7⟩, 2, 6, [], [], none⟩]) ∧
    Runs (stored exList) (getElements .inOrder exList [1, 3, 77] 0) [((true, 0), false), ((true, 2), true)] .failed := by
  have e1 := runs_run (fails := fun _ p => p == (false, 2)) (elems := stored exList) (getElements .inOrder exList [1, 3, 77] 0) 0
  have e2 := runs_run (fails := fun _ p => p == (true, 0)) (elems := stored exList) (getElements .inOrder exList [1, 3, 77] 0) 0
  rw [show run (fun _ p => p == (false, 2)) (stored exList) 0 (getElements .inOrder exList [1, 3, 77] 0) =
    ([((true, 0), true), ((true, 2), true), ((false, 0), true)],
      .given [⟨⟨70, 3, [], 0, 7⟩, 1, 7, [], [], none⟩, ⟨⟨50, 1, [], 3, 7⟩, 2, 6, [], [], none⟩]) by decide +kernel] at e1
  rw [show run (fun _ p => p == (true, 0)) (stored exList) 0 (getElements .inOrder exList [1, 3, 77] 0) =
    ([((true, 0), false), ((true, 2), true)], .failed) by decide +kernel] at e2
  exact ⟨exList_ok, e1, e2⟩

/-- Segments that cannot be read do not disturb a page that has none of their elements. -/
theorem C109_isolated (st : ListState) (h : ListOK st) (bad : Place → Prop) (offset n : Nat)
    (hbad : ∀ p, bad p → stored st p ≠ [] ∧ ∀ e ∈ (st.content.drop offset).take n, e ∉ stored st p)
    {t : List (Place × Bool)} {a : Answer (List Element)} (hr : Runs (stored st) (rankTop st offset n) t a)
    (ht : ∀ x ∈ t, x.2 = false → bad x.1) :
    a = if offset < st.content.length then .given ((st.content.drop offset).take n) else .refused := by
  obtain ⟨h1, h2, -⟩ := C109_rank_top st h offset n hr
  rcases h1 with ⟨-, p, hp⟩ | ⟨-, h1⟩
  · exfalso
    obtain ⟨b1, b2⟩ := hbad p (ht _ hp rfl)
    obtain ⟨-, -, q⟩ := h2 _ hp
    rcases q with q | ⟨e, e1, e2⟩
    · exact b1 q
    · exact b2 e e1 e2
  · exact h1

/-- The third segment is such a segment for the page of the example above. -/
example : stored exList (false, 2) ≠ [] ∧ (∀ e ∈ (exList.content.drop 1).take 3, e ∉ stored exList (false, 2)) ∧
    (stored exList (true, 1) ≠ [] ∧ ∀ e ∈ (exList.content.drop 1).take 3, e ∉ stored exList (true, 1)) := by decide +kernel

/-- Segments that cannot be read do not disturb the lookup of elements that are not in them, as long as the segments of
the index that cover their IDs can be read. -/
theorem C109_isolated_lookup {sch : Sched} (st : ListState) (h : ListOK st) (bad : Place → Prop) (ids : List Nat)
    (hid : ∀ v ∈ ids, v < 2 ^ 64)
    (hidx : ∀ j, bad (true, j) → ∀ v ∈ ids, ¬ Covers st.index.segs j v)
    (hscore : ∀ j, bad (false, j) → ∀ e ∈ stored st (false, j), e.id ∉ ids)
    {t : List (Place × Bool)} {a : Answer (List Segments.Ranked)} (hr : Runs (stored st) (getElements sch st ids 0) t a)
    (ht : ∀ x ∈ t, x.2 = false → bad x.1) :
    ∃ rs, a = .given rs ∧ (∀ e ∈ st.content, e.id ∈ ids → ∃ r ∈ rs, r.elem = e) ∧
      ∀ r ∈ rs, r.elem.id ∈ ids ∧ FullResult st.content 0 r := by
  obtain ⟨h1, h2, -⟩ := C109_lookup st h ids hid 0 hr
  rcases h1 with ⟨-, p, hp⟩ | ⟨rs, r1, -, r2, r3⟩
  · exfalso
    obtain ⟨b, j⟩ := p
    have hb := ht _ hp rfl
    rcases h2 _ hp with ⟨q1, v, v1, v2⟩ | ⟨q1, q2⟩
    · dsimp only at q1 v2; subst q1
      exact hidx j hb v v1 v2
    · dsimp only at q1 q2; subst q1
      obtain ⟨e, e1, e2⟩ := q2 rfl
      exact hscore j hb e e1 e2
  · exact ⟨rs, r1, r2, fun r hr => ⟨(r3 r hr).1, (r3 r hr).2.2 (.inl rfl)⟩⟩

/-- The other score segments and the second index segment are such segments for the lookup of the example above. -/
example : (∀ e ∈ stored exList (false, 1) ++ stored exList (false, 2), e.id ∉ [1, 3, 77]) ∧
    (exList.index.segs[1]?.map fun s => (s.min, s.max)).any fun r => [1, 3, 77].all fun v => !(decide (r.1 ≤ v ∧ v ≤ r.2)) := by
  decide +kernel

/-- `Stats`: the numbers are right whatever fails; the top and the bottom element are right if they are there, and they
are there if no read has failed and the list has elements. -/
theorem C109_stats (st : ListState) (h : ListOK st) {t : List (Place × Bool)} {s : Lists.Stats}
    (hr : Runs (stored st) (stats st) t s) :
    s.elements = st.content.length ∧ s.segments = st.scores.segs.length ∧
    (∀ x, s.top = some x → st.content.head? = some x.1 ∧ x.2.1 = 0 ∧ x.2.2 = (st.content.length : Int) - 1) ∧
    (∀ x, s.bottom = some x → st.content.getLast? = some x.1 ∧ x.2.1 = (st.content.length : Int) - 1 ∧ x.2.2 = 0) ∧
    (¬ ReadFailed t → st.content ≠ [] → s.top.isSome ∧ s.bottom.isSome) := by
  unfold stats at hr
  obtain ⟨t₁, t₂, x, rfl, h1, hr⟩ := runs_bind hr
  obtain ⟨t₂, t₃, y, rfl, h2, hr⟩ := runs_bind hr
  obtain ⟨rfl, rfl⟩ := runs_done hr
  obtain ⟨a1, -, -⟩ := C109_rank_top st h 0 1 h1
  obtain ⟨b1, -, -⟩ := C109_rank_bottom st h 0 1 h2
  have hcnt : Segments.count st.scores.segs = st.content.length := Segments.count_eq h.scoresCount
  have ht : ∀ {u : List (Place × Bool)}, (∀ z ∈ u, z ∈ t₁ ++ (t₂ ++ [])) → ReadFailed u → ReadFailed (t₁ ++ (t₂ ++ [])) :=
    fun hu ⟨p, hp⟩ => ⟨p, hu _ hp⟩
  refine ⟨hcnt, rfl, fun z hz => ?_, fun z hz => ?_, fun hn hne => ⟨?_, ?_⟩⟩
  · obtain ⟨e, e1, rfl⟩ := Option.map_eq_some_iff.1 hz
    rcases a1 with ⟨rfl, -⟩ | ⟨-, rfl⟩
    · cases e1
    · split at e1
      · refine ⟨?_, rfl, by dsimp only; omega⟩
        rw [← e1]
        dsimp only
        rw [List.drop_zero, List.head?_take, if_neg (by decide)]
      · cases e1
  · obtain ⟨e, e1, rfl⟩ := Option.map_eq_some_iff.1 hz
    rcases b1 with ⟨rfl, -⟩ | ⟨-, rfl⟩
    · cases e1
    · split at e1
      · refine ⟨?_, by dsimp only; omega, rfl⟩
        rw [← e1]
        dsimp only
        rw [List.head?_take, if_neg (by decide), List.head?_drop, List.getLast?_eq_getElem?]
        rfl
      · cases e1
  · rcases a1 with ⟨-, q⟩ | ⟨-, rfl⟩
    · exact absurd (ht (fun z hz => List.mem_append_left _ hz) q) hn
    · rw [if_pos (List.length_pos_iff.2 hne), List.drop_zero, Option.isSome_map]
      dsimp only
      rw [List.head?_take, if_neg (by decide)]
      simpa using hne
  · rcases b1 with ⟨-, q⟩ | ⟨-, rfl⟩
    · exact absurd (ht (fun z hz => List.mem_append_right _ (List.mem_append_left _ hz)) q) hn
    · have := List.length_pos_iff.2 hne
      rw [if_pos this, Option.isSome_map]
      dsimp only
      rw [List.head?_take, if_neg (by decide), List.head?_drop, Option.isSome_iff_exists]
      exact ⟨_, List.getElem?_eq_getElem (by omega)⟩

example : ListOK exList ∧ exList.content ≠ [] ∧
    Runs (stored exList) (stats exList) [((false, 0), true), ((false, 2), false)]
      ⟨9, 3, some (⟨90, 6, [], 0, 7⟩, 0, 8), none⟩ := by
  have e1 := runs_run (fails := fun _ p => p == (false, 2)) (elems := stored exList) (stats exList) 0
  rw [show run (fun _ p => p == (false, 2)) (stored exList) 0 (stats exList) =
    ([((false, 0), true), ((false, 2), false)], ⟨9, 3, some (⟨90, 6, [], 0, 7⟩, 0, 8), none⟩) by decide +kernel] at e1
  exact ⟨exList_ok, by decide +kernel, e1⟩

theorem segIdxTop_le : ∀ {segs : List Seg} {k off i o : Nat}, Segments.segIdxTop segs k off = some (i, o) → i < k + segs.length
  | [], _, _, _, _, h => nomatch h
  | s :: ss, k, off, i, o, h => by
    unfold Segments.segIdxTop at h
    split at h
    · cases h; simp
    · have := segIdxTop_le h
      simp only [List.length_cons]; omega

/-- What the code gets wrong: on every list with elements `Stats` shows no top and no bottom element, without an error,
when reads fail. -/
theorem C109_stats_silent (st : ListState) (h : ListOK st) (hne : st.content ≠ []) :
    ∃ t, Runs (stored st) (stats st) t ⟨st.content.length, st.scores.segs.length, none, none⟩ := by
  have hpos := List.length_pos_iff.2 hne
  have hcnt : Segments.count st.scores.segs = st.content.length := Segments.count_eq h.scoresCount
  have h1 := C22_rank_top st 0 1 h
  have h2 := C23_rank_bottom st 0 1 h
  rw [if_pos hpos] at h1 h2
  unfold Lists.getRankTop at h1
  unfold Lists.getRankBottom at h2
  obtain ⟨⟨i, o⟩, i1, -⟩ := Option.map_eq_some_iff.1 h1
  obtain ⟨⟨j, q⟩, j1, -⟩ := Option.map_eq_some_iff.1 h2
  have hi := segIdxTop_le i1
  have hj : j < st.scores.segs.length := by
    have := segIdxBottom_inside h.scoresCount j1
    apply Classical.byContradiction
    intro hn
    unfold Segments.elemsAt at this
    rw [List.getElem?_eq_none (by omega)] at this
    exact absurd this (Nat.not_lt_zero _)
  have hfail : ∀ i, i < st.scores.segs.length → ∀ o, readOffset (st.scores.segs.length - i) i o 1 =
      readOffset (st.scores.segs.length - i - 1 + 1) i o 1 := by
    intro i hi o
    rw [show st.scores.segs.length - i - 1 + 1 = st.scores.segs.length - i by omega]
  refine ⟨[((false, i), false), ((false, j), false)], ?_⟩
  unfold stats rankTop rankBottom
  rw [i1, j1]
  dsimp only
  rw [hfail i (by omega) o, hfail j hj q, hcnt]
  exact .fail (.fail (.done _))

/-- What the code gets wrong: when a neighbouring segment cannot be read, an element is returned without an error and
with too few neighbours. -/
theorem C109_neighbours_dropped :
    ∃ st t r, ListOK st ∧ Runs (stored st) (getElements .inOrder st [1] 3) t (.given [r]) ∧ ReadFailed t ∧
      r.elem.id = 1 ∧ ¬ FullResult st.content 3 r := by
  have hrun := runs_run (fails := fun _ p => p == (false, 1)) (elems := stored exList) (getElements .inOrder exList [1] 3) 0
  have hr : (run (fun _ p => p == (false, 1)) (stored exList) 0 (getElements .inOrder exList [1] 3)).2 =
      .given [⟨⟨50, 1, [], 3, 7⟩, 2, 6, [⟨70, 3, [], 0, 7⟩, ⟨90, 6, [], 0, 7⟩], [], none⟩] := by decide +kernel
  rw [hr] at hrun
  refine ⟨exList, _, _, exList_ok, hrun, ⟨(false, 1), by decide +kernel⟩, rfl, fun hf => ?_⟩
  have := hf.allBelow
  revert this
  decide +kernel

end RankDB.Props

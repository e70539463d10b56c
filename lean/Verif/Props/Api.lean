import Verif.Model.Api
import Verif.Props.Queries
import Verif.Props.Lists
import Verif.Props.Example
/-
The REST handlers that look up elements (C56, C57, C58, C64, C65).
-/
namespace RankDB
open Spec

namespace Api
open Segments (Ranked)

theorem sortRanked_perm (r : List Ranked) : (sortRanked r).Perm r := goSort_perm _ r

theorem sortRanked_ranked (r : List Ranked) : Spec.Ranked ((sortRanked r).map (·.elem)) := by
  have h := goSort_sorted (le := fun a b : Ranked => Elements.le a.elem b.elem)
    (by
      intro a b c h1 h2
      rw [le_iff] at *
      exact not_ranksAbove_trans h1 h2)
    (by
      intro a b
      simp only [Bool.or_eq_true, le_iff]
      by_cases h : RanksAbove b.elem a.elem
      · exact Or.inr (ranksAbove_asymm h)
      · exact Or.inl h) r
  unfold Spec.Ranked
  rw [List.pairwise_map]
  exact h.imp fun h => (le_iff _ _).1 h

theorem ascending_perm (l : List Nat) : (ascending l).Perm l := goSort_perm _ l

theorem ascending_sorted (l : List Nat) : (ascending l).Pairwise fun a b => a ≤ b := by
  have := goSort_sorted (le := fun a b : Nat => decide (a ≤ b))
    (by intro a b c h1 h2; simp at *; omega) (by intro a b; simp; omega) l
  exact this.imp (by simp)

theorem mem_deduplicate (sch : Sched) (l : List Nat) (v : Nat) : v ∈ ElementIDs.deduplicate sch.order l ↔ v ∈ l := by
  unfold ElementIDs.deduplicate
  rw [(ElementIDs.sort_perm _).mem_iff, (sch.perm _).mem_iff, mem_uniq]

theorem nodup_deduplicate (sch : Sched) (l : List Nat) : (ElementIDs.deduplicate sch.order l).Nodup := by
  unfold ElementIDs.deduplicate
  rw [(ElementIDs.sort_perm _).nodup_iff, (sch.perm _).nodup_iff]
  exact nodup_uniq l

/-- The sorted results of a lookup are the part of the content with the requested IDs, in order. -/
theorem sorted_results {sch : Sched} {st : ListState} (h : ListOK st) {ids : List Nat}
    (hid : ∀ v ∈ ids, v < 2 ^ 64) (radius : Nat) :
    (sortRanked (Lists.getElements sch st ids radius)).map (·.elem) =
      st.content.filter fun e => decide (e.id ∈ ids) := by
  obtain ⟨hp, -⟩ := Props.C26_get_elements_partial sch st ids radius h hid
  have hd : DistinctIDs (st.content.filter fun e => decide (e.id ∈ ids)) :=
    List.Nodup.sublist (List.filter_sublist.map _) h.scores.distinct
  have hs : (st.content.filter fun e => decide (e.id ∈ ids)).Pairwise RanksAbove :=
    List.Pairwise.filter _ h.scores.strict
  exact (ranked_perm_eq hd (ranked_of_strict hs) (sortRanked_ranked _)
    (hp.symm.trans ((sortRanked_perm _).map _).symm)).symm

theorem sorted_ranks {sch : Sched} {st : ListState} (h : ListOK st) {ids : List Nat}
    (hid : ∀ v ∈ ids, v < 2 ^ 64) (radius : Nat) :
    ∀ r ∈ sortRanked (Lists.getElements sch st ids radius),
      r.fromTop = rankFromTop st.content r.elem ∧ r.fromBottom = rankFromBottom st.content r.elem := by
  intro r hr
  exact (Props.C26_get_elements_partial sch st ids radius h hid).2 r ((sortRanked_perm _).mem_iff.1 hr)

end Api

namespace Props
open Segments (Ranked)

/-! ### C56 GetMulti -/

/-- The found elements are those of the list with a requested ID, in ranking order and with their true ranks;
the missing IDs are the requested ones without an element, strictly ascending. -/
theorem C56_get_multi (sch : Sched) (st : ListState) (req : List Nat) (h : ListOK st)
    (hid : ∀ v ∈ req, v < 2 ^ 64) :
    let res := Api.getMulti sch st req
    res.1.map (·.elem) = st.content.filter (fun e => decide (e.id ∈ req)) ∧
    (∀ r ∈ res.1, r.fromTop = rankFromTop st.content r.elem ∧ r.fromBottom = rankFromBottom st.content r.elem) ∧
    res.2.Pairwise (· < ·) ∧
    (∀ v, v ∈ res.2 ↔ v ∈ req ∧ ∀ e ∈ st.content, e.id ≠ v) := by
  intro res
  have hids : ∀ v ∈ ElementIDs.deduplicate sch.order req, v < 2 ^ 64 :=
    fun v hv => hid v ((Api.mem_deduplicate sch req v).1 hv)
  have hfil : (st.content.filter fun e => decide (e.id ∈ ElementIDs.deduplicate sch.order req)) =
      st.content.filter fun e => decide (e.id ∈ req) := by
    apply List.filter_congr; intro e _; simp only [Api.mem_deduplicate]
  have hres : res = Api.getMulti sch st req := rfl
  unfold Api.getMulti at hres
  simp only [] at hres
  by_cases hnil : (ElementIDs.deduplicate sch.order req).length = 0
  · rw [if_pos (by simp [hnil])] at hres
    have hreq : ∀ v, v ∉ req := by
      intro v hv
      have := (Api.mem_deduplicate sch req v).2 hv
      rw [List.length_eq_zero_iff] at hnil
      rw [hnil] at this; simp at this
    rw [hres]
    refine ⟨?_, by simp, by simp, ?_⟩
    · simp only [List.map_nil]
      symm
      rw [List.filter_eq_nil_iff]
      intro e _; simp [hreq]
    · intro v; simp [hreq]
  · rw [if_neg (by simp only [beq_iff_eq]; exact hnil)] at hres
    have hsort := Api.sorted_results (sch := sch) h hids 0
    have hperm := (C26_get_elements_partial sch st _ 0 h hids).1
    generalize hre : Lists.getElements sch st (ElementIDs.deduplicate sch.order req) 0 = re at *
    have hmem : ∀ v, v ∈ Api.resultIDs re ↔ v ∈ req ∧ ∃ e ∈ st.content, e.id = v := by
      intro v
      unfold Api.resultIDs
      rw [show (re.map (·.elem.id)) = (re.map (·.elem)).map (·.id) by rw [List.map_map]; rfl,
        List.mem_map]
      constructor
      · rintro ⟨e, he, rfl⟩
        have := hperm.mem_iff.1 he
        rw [hfil, List.mem_filter, decide_eq_true_eq] at this
        exact ⟨this.2, e, this.1, rfl⟩
      · rintro ⟨hv, e, he, rfl⟩
        refine ⟨e, hperm.mem_iff.2 ?_, rfl⟩
        rw [hfil, List.mem_filter, decide_eq_true_eq]
        exact ⟨he, hv⟩
    have hnd : (Api.resultIDs re).Nodup := by
      unfold Api.resultIDs
      rw [show (re.map (·.elem.id)) = (re.map (·.elem)).map (·.id) by rw [List.map_map]; rfl,
        (hperm.map _).nodup_iff]
      exact List.Nodup.sublist (List.filter_sublist.map _) h.scores.distinct
    have hnotin : ∀ v, v ∈ ElementIDs.notIn sch.order (ElementIDs.deduplicate sch.order req) (Api.resultIDs re) ↔
        v ∈ req ∧ ∀ e ∈ st.content, e.id ≠ v := by
      intro v
      unfold ElementIDs.notIn
      rw [(sch.perm _).mem_iff, List.mem_filter, mem_uniq, Api.mem_deduplicate]
      simp only [List.contains_eq_mem, Bool.not_eq_true', decide_eq_false_iff_not, hmem, not_and,
        not_exists]
      exact ⟨fun ⟨a, b⟩ => ⟨a, b a⟩, fun ⟨a, b⟩ => ⟨a, fun _ => b⟩⟩
    rw [hres]
    dsimp only
    refine ⟨by rw [hsort, hfil], ?_, ?_, ?_⟩
    · rw [← hre]; exact Api.sorted_ranks h hids 0
    · split
      · have h1 := Api.ascending_sorted
          (ElementIDs.notIn sch.order (ElementIDs.deduplicate sch.order req) (Api.resultIDs re))
        have h2 : (Api.ascending (ElementIDs.notIn sch.order (ElementIDs.deduplicate sch.order req)
            (Api.resultIDs re))).Nodup := by
          rw [(Api.ascending_perm _).nodup_iff]
          unfold ElementIDs.notIn
          rw [(sch.perm _).nodup_iff]
          exact List.Pairwise.filter _ (nodup_uniq _)
        exact (h1.and h2).imp fun ⟨a, b⟩ => by omega
      · simp
    · intro v
      split
      · rw [(Api.ascending_perm _).mem_iff]; exact hnotin v
      · rename_i hlen
        simp only [bne_iff_ne, ne_eq, Decidable.not_not] at hlen
        -- all requested IDs were found
        have hsub : ∀ x ∈ Api.resultIDs re, x ∈ ElementIDs.deduplicate sch.order req :=
          fun x hx => (Api.mem_deduplicate sch req x).2 ((hmem x).1 hx).1
        constructor
        · intro hv; simp at hv
        · rintro ⟨hv, hno⟩
          exfalso
          have hn : v ∉ Api.resultIDs re := by
            intro hv'
            obtain ⟨-, e, he, heq⟩ := (hmem v).1 hv'
            exact hno e he heq
          have := nodup_length_le (List.nodup_cons.2 ⟨hn, hnd⟩) (l' := ElementIDs.deduplicate sch.order req) (by
            intro x hx
            rcases List.mem_cons.1 hx with rfl | hx
            · exact (Api.mem_deduplicate sch req _).2 hv
            · exact hsub x hx)
          have hl : (Api.resultIDs re).length = re.length := by unfold Api.resultIDs; rw [List.length_map]
          simp only [List.length_cons] at this
          omega

example : ListOK exList ∧ (let r := Api.getMulti .reversed exList [5, 77, 6, 5, 12]
    (r.1.map fun r => (r.elem.id, r.fromTop, r.fromBottom), r.2)) = ([(6, 0, 8), (5, 5, 3)], [12, 77]) :=
  ⟨exList_ok, by decide +kernel⟩

/-! ### C57 Neighbours of an element -/

/-- An entry has the true ranks of its element. -/
def TrueRank (content : List Element) (x : Element × Int × Int) : Prop :=
  x.2.1 = rankFromTop content x.1 ∧ x.2.2 = rankFromBottom content x.1

theorem toRanked_spec : ∀ (l : List Element) (t b : Int),
    (Api.toRanked t b l).map (·.1) = l ∧
    ∀ (i : Nat) x, (Api.toRanked t b l)[i]? = some x → x.2.1 = t + i ∧ x.2.2 = b - i
  | [], t, b => by simp [Api.toRanked]
  | e :: l, t, b => by
    obtain ⟨h1, h2⟩ := toRanked_spec l (t + 1) (b - 1)
    refine ⟨by simp [Api.toRanked, h1], ?_⟩
    intro i x hx
    unfold Api.toRanked at hx
    cases i with
    | zero => simp at hx; subst hx; simp
    | succ i =>
      simp only [List.getElem?_cons_succ] at hx
      obtain ⟨h3, h4⟩ := h2 i x hx
      constructor
      · rw [h3]; omega
      · rw [h4]; omega

/-- Consecutive elements of the content get their true ranks if the first one does. -/
theorem toRanked_true {content : List Element} (hs : content.Pairwise RanksAbove) (start n : Nat) (t b : Int)
    (ht : t = start) (hb : b = content.length - start - 1) :
    ∀ x ∈ Api.toRanked t b ((content.drop start).take n), TrueRank content x := by
  intro x hx
  obtain ⟨i, hi⟩ := List.getElem?_of_mem hx
  obtain ⟨h1, h2⟩ := toRanked_spec ((content.drop start).take n) t b
  obtain ⟨h3, h4⟩ := h2 i x hi
  have he : ((content.drop start).take n)[i]? = some x.1 := by
    rw [← h1, List.getElem?_map, hi]; rfl
  rw [List.getElem?_take] at he
  split at he
  · rw [List.getElem?_drop] at he
    obtain ⟨t1, t2⟩ := Segments.countP_pos_of_strict hs he
    have hlt := (List.getElem?_eq_some_iff.1 he).1
    unfold TrueRank
    rw [h3, h4, show rankFromTop content x.1 = start + i from t1,
      show rankFromBottom content x.1 = content.length - 1 - (start + i) from t2, ht, hb]
    omega
  · simp at he

theorem toRanked_snd : ∀ (l l' : List Element) (t b : Int), l.length = l'.length →
    (Api.toRanked t b l).map (·.2) = (Api.toRanked t b l').map (·.2)
  | [], [], _, _, _ => rfl
  | [], _ :: _, _, _, h => by simp at h
  | _ :: _, [], _, _, h => by simp at h
  | _ :: l, _ :: l', t, b, h => by
    simp only [Api.toRanked, List.map_cons, toRanked_snd l l' (t + 1) (b - 1) (by simpa using h)]

/-- The ranks of an element as the API reports them. -/
def ranksOf (content : List Element) (e : Element) : Int × Int := (rankFromTop content e, rankFromBottom content e)

theorem full_spec {content : List Element} (hs : content.Pairwise RanksAbove) {radius : Nat} {r : Ranked}
    (h : Lists.ResultOK content radius r) :
    (∀ x ∈ Api.fullBelow r, TrueRank content x) ∧
    (Api.fullAbove r).map (·.2) = r.above.reverse.map (ranksOf content) ∧
    (Api.fullAbove r).map (·.1) = r.above ∧ (Api.fullBelow r).map (·.1) = r.below := by
  obtain ⟨i, hi⟩ := List.getElem?_of_mem h.mem
  obtain ⟨t1, t2⟩ := Segments.countP_pos_of_strict hs hi
  obtain ⟨u1, u2⟩ := strict_take hs hi
  have hlt := (List.getElem?_eq_some_iff.1 hi).1
  have hab := h.above
  rw [← u1] at hab
  have hlen : r.above.length = min radius i := by
    rw [hab]; simp only [List.length_take, List.length_reverse]; omega
  have hrev : r.above.reverse = (content.drop (i - r.above.length)).take r.above.length := by
    rw [hlen, hab, List.take_reverse, List.reverse_reverse, List.length_take]
    apply List.ext_getElem?
    intro k
    rw [List.getElem?_drop, List.getElem?_take, List.getElem?_take, List.getElem?_drop]
    by_cases hk : k < min radius i
    · rw [if_pos (by omega), if_pos hk]
      congr 1; omega
    · rw [if_neg (by omega), if_neg hk]
  refine ⟨?_, ?_, (toRanked_spec _ _ _).1, (toRanked_spec _ _ _).1⟩
  · unfold Api.fullBelow
    rw [h.below, ← u2]
    apply toRanked_true hs
    · rw [h.top, t1]; omega
    · rw [h.bottom, t2]; omega
  · unfold Api.fullAbove
    rw [toRanked_snd _ r.above.reverse _ _ (by simp)]
    have key : ∀ x ∈ Api.toRanked ((r.fromTop : Int) - r.above.length) ((r.fromBottom : Int) + r.above.length)
        r.above.reverse, TrueRank content x := by
      rw [hrev]
      apply toRanked_true hs
      · rw [h.top, t1]; omega
      · rw [h.bottom, t2]; omega
    have hfst := (toRanked_spec r.above.reverse ((r.fromTop : Int) - r.above.length)
      ((r.fromBottom : Int) + r.above.length)).1
    rw [← hfst, List.map_map]
    rw [hfst]
    apply List.map_congr_left
    intro x hx
    obtain ⟨k1, k2⟩ := key x hx
    unfold ranksOf
    simp only [Function.comp]
    rw [← k1, ← k2]

/-- A single neighbour above gets its true ranks. -/
theorem near_above {content : List Element} {r : Ranked}
    (f2 : (Api.fullAbove r).map (·.2) = r.above.reverse.map (ranksOf content))
    (f3 : (Api.fullAbove r).map (·.1) = r.above) (hlen : (Api.fullAbove r).length ≤ 1) :
    ∀ x ∈ Api.fullAbove r, TrueRank content x := by
  intro x hx
  generalize Api.fullAbove r = A at *
  match A, hlen, hx with
  | [y], _, hx =>
    simp only [List.mem_singleton] at hx
    subst hx
    rw [← f3] at f2
    simp only [List.map_cons, List.map_nil, List.reverse_cons, List.reverse_nil, List.nil_append,
      List.cons.injEq, and_true] at f2
    unfold TrueRank
    rw [f2]
    exact ⟨rfl, rfl⟩

/-- The element itself and the neighbours below carry their true ranks. The ranks of the neighbours above
are assigned in the opposite order: the nearest one gets the rank of the farthest one.
Partial: the neighbours above carry their true ranks only if there is at most one. -/
theorem C57_neighbours_partial (sch : Sched) (st : ListState) (id range : Nat) (h : ListOK st) (hid : id < 2 ^ 64) :
    match Api.get sch st id range with
    | none => ∀ e ∈ st.content, e.id ≠ id
    | some f =>
      f.elem ∈ st.content ∧ f.elem.id = id ∧ TrueRank st.content (f.elem, f.fromTop, f.fromBottom) ∧
      f.below.map (·.1) = (st.content.filter fun x => decide (RanksAbove f.elem x)).take range ∧
      (∀ x ∈ f.below, TrueRank st.content x) ∧
      f.above.map (·.1) = (st.content.filter fun x => decide (RanksAbove x f.elem)).reverse.take range ∧
      f.above.map (·.2) = ((f.above.map (·.1)).reverse).map (ranksOf st.content) ∧
      (f.above.length ≤ 1 → ∀ x ∈ f.above, TrueRank st.content x) := by
  have hids : ∀ v ∈ [id], v < 2 ^ 64 := by simpa using hid
  obtain ⟨-, h2, h3⟩ := Lists.getElements_spec (sch := sch) h hids range
  unfold Api.get
  cases hre : Lists.getElements sch st [id] range with
  | nil =>
    simp only [List.head?_nil, Option.map_none]
    intro e he heq
    obtain ⟨r, hr, -⟩ := h3 e he (by simp [heq])
    rw [hre] at hr; simp at hr
  | cons r rs =>
    simp only [List.head?_cons, Option.map_some, Api.full]
    obtain ⟨hr, hrid⟩ := h2 r (by rw [hre]; simp)
    obtain ⟨f1, f2, f3, f4⟩  := full_spec (content := st.content) h.scores.strict hr
    refine ⟨hr.mem, by simpa using hrid, ⟨by rw [hr.top], by rw [hr.bottom]⟩, by rw [f4, hr.below], f1,
      by rw [f3, hr.above], by rw [f2, f3], ?_⟩
    exact fun hlen x hx => near_above f2 f3 hlen x hx

/-- In every list, every element with at least two neighbours above in the answer gets wrong ranks for
them. -/
theorem C57_above_wrong (sch : Sched) (st : ListState) (id range : Nat) (h : ListOK st) (hid : id < 2 ^ 64)
    (f : Api.Full) (hf : Api.get sch st id range = some f) (hlen : 2 ≤ f.above.length) :
    ∃ x ∈ f.above, ¬ TrueRank st.content x := by
  have := C57_neighbours_partial sch st id range h hid
  rw [hf] at this
  obtain ⟨-, -, -, -, -, h1, h2, -⟩ := this
  generalize hA : f.above = A at *
  match A, hlen with
  | x :: y :: A, _ =>
    refine ⟨x, by simp, ?_⟩
    rintro ⟨k1, -⟩
    -- the rank reported for the nearest is that of the last one, which is ranked above it
    obtain ⟨z, B, hB⟩ : ∃ z B, (y :: A).reverse = z :: B := by
      cases hr : (y :: A).reverse with
      | nil => simp at hr
      | cons z B => exact ⟨z, B, rfl⟩
    have hx2 : x.2 = ranksOf st.content z.1 := by
      have e1 : ((x :: y :: A).map (·.1)).reverse = z.1 :: (B.map (·.1) ++ [x.1]) := by
        rw [← List.map_reverse, List.reverse_cons, hB]; simp
      rw [e1] at h2
      simp only [List.map_cons, List.cons.injEq] at h2
      exact h2.1
    have hz : z ∈ y :: A := by
      have : z ∈ (y :: A).reverse := by rw [hB]; simp
      exact List.mem_reverse.1 this
    have hpw : ((x :: y :: A).map (·.1)).Pairwise fun a b => RanksAbove b a := by
      rw [h1]
      refine List.Pairwise.sublist (List.take_sublist _ _) ?_
      rw [List.pairwise_reverse]
      exact List.Pairwise.filter _ h.scores.strict
    have habove : RanksAbove z.1 x.1 := by
      rw [List.map_cons, List.pairwise_cons] at hpw
      exact hpw.1 z.1 (List.mem_map.2 ⟨z, hz, rfl⟩)
    have hmem : z.1 ∈ st.content := by
      have : z.1 ∈ (st.content.filter fun x => decide (RanksAbove x f.elem)).reverse.take range := by
        rw [← h1]; exact List.mem_map.2 ⟨z, by simp [List.mem_cons.1 hz], rfl⟩
      exact (List.mem_filter.1 (List.mem_reverse.1 (List.mem_of_mem_take this))).1
    have hlt : rankFromTop st.content z.1 < rankFromTop st.content x.1 := by
      unfold rankFromTop
      obtain ⟨p, q, hpq⟩ := List.append_of_mem hmem
      have hmono : ∀ l : List Element, l.countP (fun a => decide (RanksAbove a z.1)) ≤
          l.countP (fun a => decide (RanksAbove a x.1)) := by
        intro l
        apply List.countP_mono_left
        intro a _ ha
        rw [decide_eq_true_eq] at *
        exact ranksAbove_trans ha habove
      rw [hpq, List.countP_append, List.countP_append,
        List.countP_cons_of_neg (by simpa using ranksAbove_irrefl z.1),
        List.countP_cons_of_pos (by simpa using habove)]
      have a1 := hmono p
      have a2 := hmono q
      omega
    rw [hx2] at k1
    unfold ranksOf at k1
    simp only [] at k1
    omega

example : ListOK exList ∧ (Api.get .inOrder exList 9 2).map (fun f => (f.above.map fun x => (x.1.id, x.2),
    f.below.map fun x => (x.1.id, x.2))) = some ([(2, 2, 6), (1, 3, 5)], [(5, 5, 3), (8, 6, 2)]) :=
  ⟨exList_ok, by decide +kernel⟩

/-- The neighbours of the element at a percentile. -/
theorem C57_percentile_partial (st : ListState) (m e radius : Nat) (r : Ranked) (h : ListOK st) (hm : m < 2 ^ e)
    (hbits : st.content.length * m < 2 ^ 64) (hlen : st.content.length < 2 ^ 63) (hne : st.content ≠ [])
    (hr : Lists.getPercentile st m e radius = some (some r)) :
    (∀ x ∈ (Api.full r).below, TrueRank st.content x) ∧
    (Api.full r).above.map (·.2) = (((Api.full r).above.map (·.1)).reverse).map (ranksOf st.content) := by
  have hpos : 0 < st.content.length := List.length_pos_iff.2 hne
  obtain ⟨-, -, -, o4⟩ := C25_offset _ m e hlen (Nat.le_of_lt hm)
  have hcnt : Segments.count st.scores.segs = st.content.length := Segments.count_eq h.scoresCount
  unfold Lists.getPercentile at hr
  rw [if_neg (by omega), hcnt, o4 hbits] at hr
  have hlt : st.content.length * m / 2 ^ e < st.content.length := by
    rw [Nat.div_lt_iff_lt_mul (Nat.two_pow_pos e)]
    exact Nat.mul_lt_mul_of_pos_left hm hpos
  obtain ⟨r', r1, r2, -⟩ := Lists.getAtOffset_spec (radius := radius) h hlt
  rw [r1] at hr
  simp only [Option.some.injEq] at hr
  subst hr
  obtain ⟨f1, f2, f3, -⟩  := full_spec (content := st.content) h.scores.strict r2
  exact ⟨f1, by unfold Api.full; dsimp only; rw [f2, f3]⟩

example : ListOK exList ∧ ((Lists.getPercentile exList 1 1 2).map (·.map fun r =>
    (Api.full r).below.map fun x => (x.1.id, x.2))) = some (some [(5, 5, 3), (8, 6, 2)]) := ⟨exList_ok, by decide +kernel⟩

/-! ### C58 GetAround -/

theorem position_spec : ∀ (l : List Ranked) (id : Nat),
    (Api.position id l = none ∧ ∀ r ∈ l, r.elem.id ≠ id) ∨
    ∃ i r, Api.position id l = some i ∧ l[i]? = some r ∧ r.elem.id = id
  | [], id => by simp [Api.position]
  | r :: l, id => by
    unfold Api.position
    by_cases h : r.elem.id = id
    · right; exact ⟨0, r, by rw [if_pos (by simp [h])], rfl, h⟩
    · rw [if_neg (by simpa using h)]
      rcases position_spec l id with ⟨h1, h2⟩ | ⟨i, x, h1, h2, h3⟩
      · left
        rw [h1]
        refine ⟨rfl, ?_⟩
        intro x hx
        rcases List.mem_cons.1 hx with rfl | hx
        · exact h
        · exact h2 x hx
      · right
        exact ⟨i + 1, x, by rw [h1]; rfl, by simpa using h2, h3⟩

/-- The last `n` elements of a list. -/
def lastN {α : Type} (n : Nat) (l : List α) : List α := l.drop (l.length - n)

/-- `pool` are the elements of the list with one of the given IDs. The answer has the nearest `range` elements
of the pool on both sides with their ranks in the whole list, and the rank of the element in the pool. -/
theorem C58_around (sch : Sched) (st : ListState) (req : List Nat) (id range : Nat) (h : ListOK st)
    (hid : id < 2 ^ 64) (hreq : ∀ v ∈ req, v < 2 ^ 64) :
    let pool := st.content.filter fun e => decide (e.id = id ∨ e.id ∈ req)
    match Api.getAround sch st req id range with
    | none => ∀ e ∈ st.content, e.id ≠ id
    | some a =>
      a.center.elem ∈ st.content ∧ a.center.elem.id = id ∧
      a.below.map (·.elem) = (pool.filter fun x => decide (RanksAbove a.center.elem x)).take range ∧
      a.above.map (·.elem) = lastN range (pool.filter fun x => decide (RanksAbove x a.center.elem)) ∧
      (∀ r ∈ a.center :: (a.above ++ a.below),
        r.fromTop = rankFromTop st.content r.elem ∧ r.fromBottom = rankFromBottom st.content r.elem) ∧
      a.localFromTop = rankFromTop pool a.center.elem ∧ a.localFromBottom = rankFromBottom pool a.center.elem := by
  intro pool
  have hids : ∀ v ∈ ElementIDs.deduplicate sch.order (req ++ [id]), v < 2 ^ 64 := by
    intro v hv
    rw [Api.mem_deduplicate, List.mem_append, List.mem_singleton] at hv
    rcases hv with hv | rfl
    · exact hreq v hv
    · exact hid
  have hsort := Api.sorted_results (sch := sch) h hids 0
  have hranks := Api.sorted_ranks (sch := sch) h hids 0
  have hpool : (st.content.filter fun e => decide (e.id ∈ ElementIDs.deduplicate sch.order (req ++ [id]))) = pool := by
    apply List.filter_congr
    intro e _
    simp only [Api.mem_deduplicate, List.mem_append, List.mem_singleton, or_comm]
  rw [hpool] at hsort
  have hstrict : pool.Pairwise RanksAbove := List.Pairwise.filter _ h.scores.strict
  unfold Api.getAround
  simp only []
  generalize Api.sortRanked (Lists.getElements sch st (ElementIDs.deduplicate sch.order (req ++ [id])) 0) = re at *
  rcases position_spec re id with ⟨h1, h2⟩ | ⟨i, c, h1, h2, h3⟩
  · rw [h1]
    intro e he heq
    have : e ∈ re.map (·.elem) := by
      rw [hsort]; exact List.mem_filter.2 ⟨he, by simp [heq]⟩
    obtain ⟨r, hr, hre⟩ := List.mem_map.1 this
    exact h2 r hr (by rw [hre]; exact heq)
  · rw [h1]
    simp only [h2]
    have hpi : pool[i]? = some c.elem := by rw [← hsort, List.getElem?_map, h2]; rfl
    obtain ⟨t1, t2⟩ := Segments.countP_pos_of_strict hstrict hpi
    obtain ⟨u1, u2⟩ := strict_take hstrict hpi
    have hlen : re.length = pool.length := by rw [← hsort, List.length_map]
    have htk : ∀ l : List Ranked, (if l.length > range then l.take range else l) = l.take range := by
      intro l; split
      · rfl
      · rw [List.take_of_length_le (by omega)]
    have hdr : ∀ l : List Ranked, (if l.length > range then l.drop (l.length - range) else l) = lastN range l := by
      intro l; unfold lastN; split
      · rfl
      · rw [show l.length - range = 0 by omega, List.drop_zero]
    rw [htk, hdr]
    refine ⟨?_, h3, ?_, ?_, ?_, t1.symm, by rw [t2]; omega⟩
    · have : c.elem ∈ pool := List.mem_of_getElem? hpi
      exact (List.mem_filter.1 this).1
    · rw [List.map_take, List.map_drop, hsort, u2]
    · unfold lastN
      rw [← u1, ← hsort, List.map_drop, List.map_take]
      simp
    · intro r hr
      apply hranks
      rcases List.mem_cons.1 hr with rfl | hr
      · exact List.mem_of_getElem? h2
      · rcases List.mem_append.1 hr with hr | hr
        · unfold lastN at hr
          exact List.mem_of_mem_take (List.mem_of_mem_drop hr)
        · exact List.mem_of_mem_drop (List.mem_of_mem_take hr)

example : ListOK exList ∧ (Api.getAround .reversed exList [6, 3, 4, 77, 8, 7] 9 2).map (fun a =>
    ((a.center.elem.id, a.localFromTop, a.localFromBottom), a.above.map (·.elem.id), a.below.map (·.elem.id))) =
    some ((9, 2, 3), [6, 3], [8, 7]) := ⟨exList_ok, by decide +kernel⟩

/-! ### C64 GetRange -/

/-- A range from the top is the part of the ranking that starts at the offset, with true ranks; "not found"
if there is none. -/
theorem C64_range_top (st : ListState) (fromTop limit : Nat) (h : ListOK st) (hl : 0 < limit) :
    match Api.getRangeTop st fromTop limit with
    | none => st.content.length ≤ fromTop
    | some res => fromTop < st.content.length ∧ res.map (·.1) = (st.content.drop fromTop).take limit ∧
        ∀ x ∈ res, TrueRank st.content x := by
  unfold Api.getRangeTop
  rw [C22_rank_top st fromTop limit h]
  by_cases hlt : fromTop < st.content.length
  · rw [if_pos hlt]
    simp only []
    have hne : Api.toRanked (fromTop : Int) ((Lists.len st : Int) - fromTop - 1) ((st.content.drop fromTop).take limit) ≠ [] := by
      intro he
      have := (toRanked_spec ((st.content.drop fromTop).take limit) (fromTop : Int) ((Lists.len st : Int) - fromTop - 1)).1
      rw [he] at this
      have := congrArg List.length this
      simp at this
      omega
    rw [if_neg (by simpa using hne)]
    refine ⟨hlt, (toRanked_spec _ _ _).1, ?_⟩
    apply toRanked_true (content := st.content) h.scores.strict
    · rfl
    · rw [C28_len st h]
  · rw [if_neg hlt]
    simp only []
    omega

/-- A range from the bottom starts at the element with the given rank from the bottom and goes on downwards. -/
theorem C64_range_bottom (st : ListState) (fromBottom limit : Nat) (h : ListOK st) (hl : 0 < limit) :
    match Api.getRangeBottom st fromBottom limit with
    | none => st.content.length ≤ fromBottom
    | some res => fromBottom < st.content.length ∧
        res.map (·.1) = (st.content.drop (st.content.length - 1 - fromBottom)).take limit ∧
        ∀ x ∈ res, TrueRank st.content x := by
  unfold Api.getRangeBottom
  rw [C23_rank_bottom st fromBottom limit h]
  by_cases hlt : fromBottom < st.content.length
  · rw [if_pos hlt]
    simp only []
    have hne : Api.toRanked ((Lists.len st : Int) - fromBottom - 1) (fromBottom : Int)
        ((st.content.drop (st.content.length - 1 - fromBottom)).take limit) ≠ [] := by
      intro he
      have := (toRanked_spec ((st.content.drop (st.content.length - 1 - fromBottom)).take limit)
        ((Lists.len st : Int) - fromBottom - 1) (fromBottom : Int)).1
      rw [he] at this
      have := congrArg List.length this
      simp at this
      omega
    rw [if_neg (by simpa using hne)]
    refine ⟨hlt, (toRanked_spec _ _ _).1, ?_⟩
    apply toRanked_true (content := st.content) h.scores.strict
    · rw [C28_len st h]; omega
    · omega
  · rw [if_neg hlt]
    simp only []
    omega

example : ListOK exList ∧
    (Api.getRangeTop exList 7 5).map (·.map fun x => (x.1.id, x.2)) = some [(7, 7, 1), (4, 8, 0)] ∧
    (Api.getRangeBottom exList 3 2).map (·.map fun x => (x.1.id, x.2)) = some [(5, 5, 3), (8, 6, 2)] ∧
    Api.getRangeTop exList 9 5 = none := ⟨exList_ok, by decide +kernel⟩

end Props
end RankDB

import Verif.Props.Api
import Verif.Props.Results
/-
The REST handlers that change elements (C65, C66).
-/
namespace RankDB
open Spec

namespace Props
open Segments (Ranked)

/-! ### C65 Create -/

/-- An element that exists is not changed; the answer is "conflict". A new one is added with the current
time; the answer has it with its true ranks.
Partial: requests one after the other; see `C65_concurrent_duplicate`. -/
theorem C65_create_partial (now : Nat) (sch : Sched) (st : ListState) (e : Element) (range : Nat) (h : ListOK st)
    (he : Storable e) (hnow : now < 2 ^ 32 - 1) (hs : 4 ≤ st.splitSize) :
    ∃ r, Api.create now sch st e range = some r ∧
      ((∃ x ∈ st.content, x.id = e.id) → r = (.conflict, st)) ∧
      ((∀ x ∈ st.content, x.id ≠ e.id) →
        ListOK r.2 ∧ r.2.content = ranking (st.content ++ [{ e with updated := now }]) ∧
        ∃ f, r.1 = .ok f ∧ f.elem = { e with updated := now } ∧
          TrueRank r.2.content (f.elem, f.fromTop, f.fromBottom)) := by
  have hids : ∀ v ∈ [e.id], v < 2 ^ 64 := by simpa using he.id
  obtain ⟨-, h2, h3⟩ := Lists.getElements_spec (sch := sch) h hids range
  unfold Api.create
  by_cases hex : ∃ x ∈ st.content, x.id = e.id
  · obtain ⟨x, hx, hxe⟩ := hex
    obtain ⟨r, hr, -⟩ := h3 x hx (by simp [hxe])
    refine ⟨(.conflict, st), ?_, fun _ => rfl, fun hno => absurd hxe (hno x hx)⟩
    rw [if_pos (List.length_pos_of_mem hr)]
  · have hno : ∀ x ∈ st.content, x.id ≠ e.id := fun x hx hxe => hex ⟨x, hx, hxe⟩
    have hnil : Lists.getElements sch st [e.id] range = [] := by
      cases hg : Lists.getElements sch st [e.id] range with
      | nil => rfl
      | cons r rs =>
        obtain ⟨hr, hrid⟩ := h2 r (by rw [hg]; simp)
        exact absurd (by simpa using hrid) (hno r.elem hr.mem)
    rw [hnil, if_neg (by simp)]
    obtain ⟨st', hi⟩ := C15_insert_returns now sch st (Elements.updateTime now [e]) h hs
    obtain ⟨hok, hcon⟩ := C15_insert now sch st st' (Elements.updateTime now [e]) h
      (by
        intro x hx
        simp only [Elements.updateTime, List.map_cons, List.map_nil, List.mem_singleton] at hx
        subst hx
        exact ⟨he.score, he.id, he.tie, hnow⟩)
      (by simp [DistinctIDs, Elements.updateTime])
      (by
        intro x hx y hy
        simp only [Elements.updateTime, List.map_cons, List.map_nil, List.mem_singleton] at hx
        subst hx
        exact fun heq => hno y hy heq.symm)
      hi
    rw [hi]
    simp only [Option.map_some]
    refine ⟨_, rfl, fun hx => absurd hx hex, fun _ => ?_⟩
    obtain ⟨g1, g2, g3⟩ := Lists.getElements_spec (sch := sch) hok hids range
    have hmem : { e with updated := now } ∈ st'.content := by
      rw [hcon, (ranking_perm _).mem_iff]
      simp [Elements.updateTime]
    obtain ⟨r, hr, hre⟩ := g3 _ hmem (by simp)
    have hone : Lists.getElements sch st' [e.id] range = [r] := by
      cases hg : Lists.getElements sch st' [e.id] range with
      | nil => rw [hg] at hr; simp at hr
      | cons a as =>
        cases as with
        | nil => rw [hg] at hr; simp at hr; rw [hr]
        | cons b bs =>
          exfalso
          have ha := (g2 a (by rw [hg]; simp)).2
          have hb := (g2 b (by rw [hg]; simp)).2
          rw [hg] at g1
          simp at ha hb
          rw [List.map_cons, List.map_cons, ha, hb] at g1
          simp at g1
    rw [hone]
    obtain ⟨hrok, -⟩ := g2 r hr
    refine ⟨hok, hcon, Api.full r, rfl, hre, ?_⟩
    exact ⟨by unfold Api.full; dsimp only; rw [hrok.top], by unfold Api.full; dsimp only; rw [hrok.bottom]⟩

example : ListOK exList ∧ 4 ≤ exList.splitSize ∧
    (Api.create 9 .inOrder exList ⟨1, 3, [], 0, 0⟩ 1 = some (.conflict, exList)) ∧
    ((Api.create 9 .inOrder exList ⟨34, 33, [], 0, 0⟩ 1).map fun r => (match r.1 with
      | .ok f => (f.elem.id, f.fromTop, f.fromBottom) | _ => (0, 0, 0))) = some (33, 4, 5) :=
  ⟨exList_ok, by decide +kernel⟩

/-- Two requests at the same time can create a duplicate: both look up the ID before one inserts. Both are answered without conflict
and the ID is in the list twice. -/
theorem C65_concurrent_duplicate : ∃ (st : ListState) (e : Element) (c : Api.Creates), ListOK st ∧ Storable e ∧
    4 ≤ st.splitSize ∧ Api.CreateSteps 9 .inOrder ⟨st, [(e, .lookup), (e, .lookup)]⟩ c ∧
    c.reqs = [(e, .answered false), (e, .answered false)] ∧ ¬ DistinctIDs c.st.content := by
  have h0 : ∃ st1 st2, Lists.insert 9 .inOrder exList (Elements.updateTime 9 [⟨34, 33, [], 0, 0⟩]) = some st1 ∧
      Lists.insert 9 .inOrder st1 (Elements.updateTime 9 [⟨34, 33, [], 0, 0⟩]) = some st2 ∧
      ¬ DistinctIDs st2.content := by
    refine ⟨((Lists.insert 9 .inOrder exList (Elements.updateTime 9 [⟨34, 33, [], 0, 0⟩])).getD default),
      ((Lists.insert 9 .inOrder ((Lists.insert 9 .inOrder exList (Elements.updateTime 9 [⟨34, 33, [], 0, 0⟩])).getD default)
        (Elements.updateTime 9 [⟨34, 33, [], 0, 0⟩])).getD default), by decide +kernel, by decide +kernel, by decide +kernel⟩
  obtain ⟨st1, st2, h1, h2, h3⟩ := h0
  refine ⟨exList, ⟨34, 33, [], 0, 0⟩, ⟨st2, [(⟨34, 33, [], 0, 0⟩, .answered false), (⟨34, 33, [], 0, 0⟩, .answered false)]⟩,
    exList_ok, by decide, by decide +kernel, ?_, rfl, h3⟩
  have hno : ¬ (Lists.getElements .inOrder exList [33] 0).length > 0 := by decide +kernel
  have s0 := Api.CreateSteps.refl (now := 9) (sch := .inOrder)
    ⟨exList, [(⟨34, 33, [], 0, 0⟩, .lookup), (⟨34, 33, [], 0, 0⟩, .lookup)]⟩
  have s1 := s0.step (.lookup _ [] ⟨34, 33, [], 0, 0⟩ _ rfl)
  simp only [if_neg hno] at s1
  have s2 := s1.step (.lookup _ [(⟨34, 33, [], 0, 0⟩, .insert)] ⟨34, 33, [], 0, 0⟩ [] rfl)
  simp only [if_neg hno] at s2
  have s3 := s2.step (.insert _ [] ⟨34, 33, [], 0, 0⟩ _ st1 rfl h1)
  exact s3.step (.insert _ [(⟨34, 33, [], 0, 0⟩, .answered false)] ⟨34, 33, [], 0, 0⟩ [] st2 rfl h2)

/-! ### C66 PutMulti -/

/-- For every ID in the request one of its elements is in the list afterwards, with the current time; other
elements are as before. The answer has these elements in ranking order, with their true ranks. -/
theorem C66_put_multi (now : Nat) (sch : Sched) (st : ListState) (es : List Element) (h : ListOK st)
    (hes : ∀ e ∈ es, Storable e) (hnow : 0 < now ∧ now < 2 ^ 32 - 1) :
    let r := Api.putMulti now sch st es
    let ids := es.map (·.id)
    ListOK r.2 ∧
    (∀ e ∈ r.2.content, e.id ∈ ids → ∃ x ∈ es, e = { x with updated := now }) ∧
    (∀ x ∈ es, ∃ e ∈ r.2.content, e.id = x.id) ∧
    (∀ e, e.id ∉ ids → (e ∈ r.2.content ↔ e ∈ st.content)) ∧
    r.1.map (·.elem) = r.2.content.filter (fun e => decide (e.id ∈ ids)) ∧
    ∀ x ∈ r.1, x.fromTop = rankFromTop r.2.content x.elem ∧ x.fromBottom = rankFromBottom r.2.content x.elem := by
  intro r ids
  have hdd := Elements.deduplicate_spec (Elements.updateTime now es)
  generalize hes' : (Elements.deduplicate (Elements.updateTime now es)).1 = es' at hdd
  obtain ⟨d1, d2, d3, d4, -⟩ := hdd
  have hr1 : r.1 = Api.sortRanked (Lists.updateResults now sch st es' 0) := by
    rw [← hes']; rfl
  have hr2 : r.2 = Lists.updateElements now sch st es' := by
    rw [← hes']; rfl
  have hfrom : ∀ e ∈ es', ∃ x ∈ es, e = { x with updated := now } := by
    intro e he
    have := d3 e he
    unfold Elements.updateTime at this
    obtain ⟨x, hx, rfl⟩ := List.mem_map.1 this
    exact ⟨x, hx, rfl⟩
  have hst : ∀ e ∈ es', Storable e := by
    intro e he
    obtain ⟨x, hx, rfl⟩ := hfrom e he
    have := hes x hx
    exact ⟨this.score, this.id, this.tie, hnow.2⟩
  have hstamp : es'.map (stamp now) = es' := by
    conv => rhs; rw [← List.map_id es']
    apply List.map_congr_left
    intro e he
    obtain ⟨x, hx, rfl⟩ := hfrom e he
    unfold stamp
    rw [if_neg (by show ¬ now = 0; omega)]
    rfl
  have hidmem : ∀ v, v ∈ ids ↔ ∃ e ∈ es', e.id = v := by
    intro v
    constructor
    · intro hv
      obtain ⟨x, hx, rfl⟩ := List.mem_map.1 hv
      obtain ⟨k, hk, hki, -⟩ := d4 { x with updated := now } (List.mem_map.2 ⟨x, hx, rfl⟩)
      exact ⟨k, hk, hki⟩
    · rintro ⟨e, he, rfl⟩
      obtain ⟨x, hx, rfl⟩ := hfrom e he
      exact List.mem_map.2 ⟨x, hx, rfl⟩
  obtain ⟨hok, hcon⟩ := C16_update_upserts now sch st es' h hst d2 hnow.2
  rw [hstamp] at hcon
  obtain ⟨p1, p2⟩ := C29_update_results_partial now sch st es' 0 h hst d2 hnow.2
  rw [hstamp] at p1
  rw [← hr2] at hok hcon p2
  have hmem : ∀ e, e ∈ r.2.content ↔ e ∈ es' ∨ (e ∈ st.content ∧ e.id ∉ ids) := by
    intro e
    rw [hcon, (ranking_perm _).mem_iff, C16_upsert_meaning, hidmem]
    simp only [not_exists, not_and, ne_eq]
  refine ⟨hok, ?_, ?_, ?_, ?_, ?_⟩
  · intro e he hi
    rcases (hmem e).1 he with he | ⟨-, hn⟩
    · exact hfrom e he
    · exact absurd hi hn
  · intro x hx
    obtain ⟨e, he, hei⟩ := (hidmem x.id).1 (List.mem_map.2 ⟨x, hx, rfl⟩)
    exact ⟨e, (hmem e).2 (Or.inl he), hei⟩
  · intro e hn
    rw [hmem]
    constructor
    · rintro (he | ⟨he, -⟩)
      · exact absurd ((hidmem e.id).2 ⟨e, he, rfl⟩) hn
      · exact he
    · intro he; exact Or.inr ⟨he, hn⟩
  · have hdis : DistinctIDs r.2.content := hok.scores.distinct
    have hd : DistinctIDs (r.2.content.filter fun e => decide (e.id ∈ ids)) :=
      List.Nodup.sublist (List.filter_sublist.map _) hdis
    have hs : (r.2.content.filter fun e => decide (e.id ∈ ids)).Pairwise RanksAbove :=
      List.Pairwise.filter _ hok.scores.strict
    rw [hr1]
    refine (ranked_perm_eq hd (ranked_of_strict hs) (Api.sortRanked_ranked _) ?_).symm
    refine List.Perm.trans ?_ ((Api.sortRanked_perm _).map _).symm
    refine List.Perm.trans ?_ p1.symm
    refine (List.perm_ext_iff_of_nodup hd.nodup d2.nodup).2 ?_
    intro e
    rw [List.mem_filter, decide_eq_true_eq, hmem]
    constructor
    · rintro ⟨he | ⟨-, hn⟩, hi⟩
      · exact he
      · exact absurd hi hn
    · intro he
      exact ⟨Or.inl he, (hidmem e.id).2 ⟨e, he, rfl⟩⟩
  · intro x hx
    rw [hr1] at hx
    obtain ⟨q1, q2, -⟩ := p2 x ((Api.sortRanked_perm _).mem_iff.1 hx)
    exact ⟨q1, q2⟩

example : ListOK exList ∧ (let r := Api.putMulti 11 .reversed exList [⟨40, 6, [], 0, 0⟩, ⟨12, 99, [], 1, 5⟩, ⟨41, 6, [], 0, 5⟩]
    (r.1.map (fun x => (x.elem.id, x.elem.score, x.fromTop, x.fromBottom)), r.2.content.map (·.id))) =
    ([(6, 40, 3, 6), (99, 12, 8, 1)], [3, 1, 2, 6, 9, 5, 8, 7, 99, 4]) := ⟨exList_ok, by decide +kernel⟩

end Props
end RankDB

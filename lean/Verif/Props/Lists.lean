import Verif.Proofs.Update
import Verif.Proofs.Build
import Verif.Props.Example
/-
Properties C14-C17, C19 and C20: operations that change a list.
Specification: `Verif/Spec/Lists.lean` (`ListOK`, `upsert`, `remove`, `stamp`) and
`Verif/Spec/Ranking.lean` (`ranking`).
-/
namespace RankDB.Props
open Spec

theorem content_eq_ranking {st : ListState} {l : List Element} (h : ListOK st) (hp : st.content.Perm l) :
    st.content = ranking l :=
  eq_ranking (h.scores.distinct.perm hp) (ranked_of_strict h.scores.strict) hp

/-- In a well-formed list the stored order is the ranking. -/
theorem C21_content_is_ranked (st : ListState) (h : ListOK st) :
    Ranked st.content ∧ DistinctIDs st.content ∧ st.content = ranking st.content :=
  ⟨ranked_of_strict h.scores.strict, h.scores.distinct, content_eq_ranking h (.refl _)⟩

/-! ### C14 Creating or populating a list -/

/-- Whenever populating returns, for every schedule and shuffle. -/
theorem C14_populate (now : Nat) (sch shuffle : Sched) (reduce : Nat → Nat) (merge split : Nat)
    (l : List Element) (st : ListState) (hd : DistinctIDs l) (hst : ∀ e ∈ l, Storable e)
    (hlen : l.length + 2 ≤ 2 ^ 32)
    (h : Lists.populate now sch shuffle reduce merge split l = some st) :
    ListOK st ∧ st.content = ranking l := by
  obtain ⟨h1, h2, -⟩ := Lists.populate_spec h hd hst hlen
  exact ⟨h1, content_eq_ranking h1 h2⟩

/-- It returns for a split size of at least 4, provided the reduced segment size stays positive. -/
theorem C14_populate_returns (now : Nat) (sch shuffle : Sched) (reduce : Nat → Nat) (merge split : Nat)
    (l : List Element) (hd : DistinctIDs l) (hst : ∀ e ∈ l, Storable e)
    (hlen : l.length + 2 ≤ 2 ^ 32) (hred : ∀ n, 0 < n → 0 < reduce n) (hs : 4 ≤ split) :
    ∃ st, Lists.populate now sch shuffle reduce merge split l = some st :=
  Lists.populate_returns hd hst hlen (by omega) hred hs

/-- Creating an empty list. -/
theorem C14_empty (now merge split : Nat) :
    ListOK (Lists.initEmpty now merge split) ∧ (Lists.initEmpty now merge split).content = [] :=
  ⟨Lists.initEmpty_spec now merge split, Lists.initEmpty_content now merge split⟩

/-- Creation with initial elements sets all update times to the time of the creation. -/
theorem C14_new (now : Nat) (sch shuffle : Sched) (reduce : Nat → Nat) (merge split : Nat)
    (l : List Element) (st : ListState) (hd : DistinctIDs l) (hst : ∀ e ∈ l, Storable e)
    (hnow : now < 2 ^ 32 - 1) (hlen : l.length + 2 ≤ 2 ^ 32)
    (h : Lists.newPopulated now sch shuffle reduce merge split l = some st) :
    ListOK st ∧ st.content = ranking (l.map fun e => { e with updated := now }) := by
  unfold Lists.newPopulated Elements.updateTime at h
  refine C14_populate _ _ _ _ _ _ _ _ ?_ ?_ (by simpa using hlen) h
  · unfold DistinctIDs
    rw [List.map_map]; exact hd
  · intro e he
    obtain ⟨x, hx, rfl⟩ := List.mem_map.1 he
    have := hst x hx
    exact ⟨this.score, this.id, this.tie, hnow⟩

/-- A list accepted by the options can still make populating fail: merge size 0 and split size 1 give
a division by zero. -/
theorem C14_populate_can_panic : ∃ merge split, Lists.mergeSplitSize merge split = some (merge, split) ∧
    ∀ (now : Nat) (sch shuffle : Sched) (reduce : Nat → Nat),
      Lists.populate now sch shuffle reduce merge split [⟨1, 1, [], 0, 1⟩] = none :=
  ⟨0, 1, rfl, fun _ _ _ _ => rfl⟩

example : DistinctIDs exElems ∧ (∀ e ∈ exElems, Storable e) ∧ exElems.length + 2 ≤ 2 ^ 32 ∧
    Lists.populate 100 .inOrder .reversed id 2 4 exElems = some exList ∧ exList.content.length = 9 := by
  decide +kernel

/-! ### C15 Insert -/

theorem C15_insert (now : Nat) (sch : Sched) (st st' : ListState) (l : List Element) (h : ListOK st)
    (hl : ∀ e ∈ l, Storable e) (hd : DistinctIDs l) (hnew : ∀ e ∈ l, ∀ x ∈ st.content, e.id ≠ x.id)
    (hi : Lists.insert now sch st l = some st') :
    ListOK st' ∧ st'.content = ranking (st.content ++ l) := by
  have hdd : DistinctIDs (st.content ++ l) := by
    unfold DistinctIDs
    rw [List.map_append, List.nodup_append]
    refine ⟨h.scores.distinct, hd, ?_⟩
    intro a ha b hb
    obtain ⟨x, hx, rfl⟩ := List.mem_map.1 ha
    obtain ⟨e, he, rfl⟩ := List.mem_map.1 hb
    exact fun heq => hnew e he x hx heq.symm
  obtain ⟨h1, h2, -⟩ := Lists.insert_spec h hl hdd hi
  exact ⟨h1, content_eq_ranking h1 h2⟩

theorem C15_insert_returns (now : Nat) (sch : Sched) (st : ListState) (l : List Element) (h : ListOK st)
    (hs : 4 ≤ st.splitSize) : ∃ st', Lists.insert now sch st l = some st' :=
  Lists.insert_returns h hs

/-- With a split size below 4 no insertion ever returns. -/
theorem C15_insert_hangs (now : Nat) (sch : Sched) (st : ListState) (e : Element) (l : List Element)
    (hs : st.splitSize < 4) : Lists.insert now sch st (e :: l) = none := by
  have hl : Lists.insertLimit st = 0 := by
    unfold Lists.insertLimit
    have : st.splitSize / 4 = 0 := by omega
    simp [this]
  have : ∀ (fuel : Nat) (x : List Element), x ≠ [] → Lists.chunks 0 fuel x = none := by
    intro fuel
    induction fuel with
    | zero => intro x hx; unfold Lists.chunks; rw [if_pos (List.length_pos_iff.2 hx)]
    | succ n ih =>
      intro x hx; unfold Lists.chunks; rw [if_pos (List.length_pos_iff.2 hx)]
      simp [ih x hx]
  unfold Lists.insert
  rw [hl, this _ _ (by simp)]
  rfl

example : ListOK exList ∧ 4 ≤ exList.splitSize ∧
    (Lists.insert 5 .reversed exList [⟨40, 77, [], 0, 5⟩, ⟨50, 78, [], 1, 5⟩]).map (·.content.map (·.id)) =
      some [6, 3, 1, 78, 2, 77, 9, 5, 8, 7, 4] := ⟨exList_ok, by decide +kernel⟩

/-! ### C16 UpdateElements -/

/-- For every order in which segments are processed the result is the ranking of the upserted
content. -/
theorem C16_update_upserts (now : Nat) (sch : Sched) (st : ListState) (es : List Element) (h : ListOK st)
    (hes : ∀ e ∈ es, Storable e) (hd : DistinctIDs es) (hnow : now < 2 ^ 32 - 1) :
    ListOK (Lists.updateElements now sch st es) ∧
    (Lists.updateElements now sch st es).content = ranking (upsert st.content (es.map (stamp now))) := by
  obtain ⟨h1, h2, -⟩ := Lists.updateElements_spec (sch := sch) h hes hd hnow
  exact ⟨h1, content_eq_ranking h1 h2⟩

/-- What an upsert is: an element of the result is one of the given elements, or an old one whose ID was
not given. -/
theorem C16_upsert_meaning (content es : List Element) (e : Element) :
    e ∈ upsert content es ↔ e ∈ es ∨ (e ∈ content ∧ ∀ x ∈ es, x.id ≠ e.id) := by
  unfold upsert
  simp only [List.mem_append, List.mem_filter, List.contains_eq_mem, Bool.not_eq_true',
    decide_eq_false_iff_not, List.mem_map, not_exists, not_and]

example : ListOK exList ∧
    (Lists.updateElements 11 .reversed exList [⟨40, 6, [], 0, 0⟩, ⟨12, 99, [], 1, 5⟩, ⟨51, 2, [], 1, 5⟩]).content.map
      (fun e => (e.id, e.updated)) = [(3, 7), (2, 5), (1, 7), (6, 11), (9, 7), (5, 7), (8, 7), (7, 7), (99, 5), (4, 8)] :=
  ⟨exList_ok, by decide +kernel⟩

/-! ### C17 DeleteElements -/

theorem C17_delete (now : Nat) (sch : Sched) (st : ListState) (ids : List Nat) (h : ListOK st)
    (hid : ∀ v ∈ ids, v < 2 ^ 64) :
    ListOK (Lists.deleteElements now sch st ids) ∧
    (Lists.deleteElements now sch st ids).content = st.content.filter (fun e => decide (e.id ∉ ids)) := by
  obtain ⟨h1, h2, -⟩ := Lists.deleteElements_spec (now := now) (sch := sch) h hid
  refine ⟨h1, h2.trans ?_⟩
  unfold remove
  apply List.filter_congr
  intro e _
  rw [Bool.eq_iff_iff]
  simp

example : ListOK exList ∧
    (Lists.deleteElements 11 .reversed exList [2, 6, 6, 1234, 4]).content.map (·.id) = [3, 1, 9, 5, 8, 7] :=
  ⟨exList_ok, by decide +kernel⟩

/-! ### C19 Reindex -/

/-- Nothing is assumed about the index. -/
theorem C19_reindex (now : Nat) (sch : Sched) (st st' : ListState) (hok : SegsOK st.scores.segs)
    (hc : Counted st.scores.segs) (hid : IDsBelow st.scores) (hf : st.scores.isIndex = false)
    (hlen : st.content.length + 2 ≤ 2 ^ 32) (h : Lists.reindex now sch st = some st') :
    ListOK st' ∧ st'.content = st.content := by
  obtain ⟨h1, h2, -⟩ := Lists.reindex_spec hok hc hid hf hlen h
  exact ⟨h1, by unfold ListState.content; rw [h2]⟩

theorem C19_reindex_returns (now : Nat) (sch : Sched) (st : ListState) (hw : 2 ≤ st.mergeSize + st.splitSize) :
    ∃ st', Lists.reindex now sch st = some st' :=
  Lists.reindex_returns (by unfold Lists.wantSize; omega)

/-- A list whose index was lost. -/
def exBroken : ListState := { exList with index := Segments.empty 1 true }

example : SegsOK exBroken.scores.segs ∧ Counted exBroken.scores.segs ∧ IDsBelow exBroken.scores ∧
    ¬ ListOK exBroken ∧ ((Lists.reindex 3 .reversed exBroken).map listOK) = some true :=
  ⟨exList_ok.scores, exList_ok.scoresCount, exList_ok.scoresIDs,
    fun h => absurd ((listOK_iff _).2 h) (by decide +kernel), by decide +kernel⟩

/-! ### C20 Clone

That the clone is independent of the original in the storage is `C20_clone_keys` in
`Verif/Props/Keys.lean`. -/

theorem C20_clone (now merge split : Nat) (org st : ListState) (h : ListOK org)
    (hlen : org.content.length + 2 ≤ 2 ^ 32) (hsegs : org.scores.segs.length + 1 ≤ 2 ^ 32)
    (hc : Lists.clone now merge split org = some st) :
    ListOK st ∧ st.content = org.content ∧ st.mergeSize = merge ∧ st.splitSize = split :=
  Lists.clone_spec h.scores hlen hsegs hc

theorem C20_clone_returns (now merge split : Nat) (org : ListState) (hw : 2 ≤ merge + split) :
    ∃ st, Lists.clone now merge split org = some st :=
  Lists.clone_returns (by omega)

example : ListOK exList ∧ exList.content.length + 2 ≤ 2 ^ 32 ∧ exList.scores.segs.length + 1 ≤ 2 ^ 32 ∧
    ((Lists.clone 3 4 9 exList).map fun st => (st.content.map (·.id), st.index.segs.length)) =
      some ([6, 3, 1, 2, 9, 5, 8, 7, 4], 2) :=
  ⟨exList_ok, by decide +kernel⟩

end RankDB.Props

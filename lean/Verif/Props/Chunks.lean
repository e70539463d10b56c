import Verif.Props.Lists
/-
Inserting many elements in pieces (C55).
-/
namespace RankDB.Props
open Spec

/-! ### C55 Pieces of an insertion -/

/-- The pieces are the input, cut into pieces of at most `limit` elements. -/
theorem C55_pieces (limit : Nat) : ∀ (fuel : Nat) (l : List Element) (ps : List (List Element)),
    Lists.chunks limit fuel l = some ps → ps.flatten = l ∧ ∀ p ∈ ps, p.length ≤ limit
  | 0, l, ps, h => by
    unfold Lists.chunks at h
    split at h
    · simp at h
    · simp only [Option.some.injEq] at h
      subst h
      refine ⟨by simp, ?_⟩
      simp; omega
  | fuel + 1, l, ps, h => by
    unfold Lists.chunks at h
    split at h
    · rename_i hl
      cases hc : Lists.chunks limit fuel (l.drop limit) with
      | none => rw [hc] at h; simp at h
      | some qs =>
        rw [hc] at h
        simp only [Option.map_some, Option.some.injEq] at h
        subst h
        obtain ⟨h1, h2⟩ := C55_pieces limit fuel _ qs hc
        refine ⟨by rw [List.flatten_cons, h1, List.take_append_drop], ?_⟩
        intro p hp
        rcases List.mem_cons.1 hp with rfl | hp
        · simp; omega
        · exact h2 p hp
    · simp only [Option.some.injEq] at h
      subst h
      refine ⟨by simp, ?_⟩
      simp; omega

/-- Cutting ends if and only if the limit is positive or there is nothing to insert. -/
theorem C55_cutting_ends (limit : Nat) (l : List Element) :
    (∃ ps, Lists.chunks limit l.length l = some ps) ↔ 0 < limit ∨ l = [] := by
  constructor
  · rintro ⟨ps, h⟩
    rcases Nat.eq_zero_or_pos limit with h0 | h0
    · subst h0
      obtain ⟨h1, h2⟩ := C55_pieces 0 l.length l ps h
      right
      rw [← h1, List.flatten_eq_nil_iff]
      intro p hp
      exact List.length_eq_zero_iff.1 (Nat.le_zero.1 (h2 p hp))
    · exact Or.inl h0
  · have key : ∀ (fuel : Nat) (l : List Element), 0 < limit → l.length ≤ fuel → ∃ ps, Lists.chunks limit fuel l = some ps := by
      intro fuel
      induction fuel with
      | zero =>
        intro l hl hf
        unfold Lists.chunks
        rw [if_neg (by omega)]
        exact ⟨_, rfl⟩
      | succ fuel ih =>
        intro l hl hf
        unfold Lists.chunks
        split
        · obtain ⟨ps, hps⟩ := ih (l.drop limit) hl (by simp; omega)
          rw [hps]; exact ⟨_, rfl⟩
        · exact ⟨_, rfl⟩
    rintro (h | rfl)
    · exact key _ l h (Nat.le_refl _)
    · exact ⟨[[]], by simp [Lists.chunks]⟩

/-- Inserting any number of elements ends, and the list has every old and every new element exactly once.
Partial: the split size must be at least 4; lists created over the API have at least 10
(api/design/lists.go). -/
theorem C55_insert_partial (now : Nat) (sch : Sched) (st : ListState) (l : List Element) (h : ListOK st)
    (hl : ∀ e ∈ l, Storable e) (hd : DistinctIDs l) (hnew : ∀ e ∈ l, ∀ x ∈ st.content, e.id ≠ x.id)
    (hs : 4 ≤ st.splitSize) :
    ∃ st', Lists.insert now sch st l = some st' ∧ ListOK st' ∧ st'.content.Perm (st.content ++ l) := by
  obtain ⟨st', h1⟩ := C15_insert_returns now sch st l h hs
  obtain ⟨h2, h3⟩ := C15_insert now sch st st' l h hl hd hnew h1
  exact ⟨st', h1, h2, by rw [h3]; exact ranking_perm _⟩

/-- The sizes (merge, split) with a split size below 4 are accepted when a list is created, and no insertion
into such a list ends. -/
theorem C55_hangs (merge split : Nat) (hms : merge < split) (hs : split < 4) :
    Lists.mergeSplitSize merge split = some (merge, split) ∧
    ∀ (now now' : Nat) (sch : Sched) (e : Element) (l : List Element),
      Lists.insert now sch (Lists.initEmpty now' merge split) (e :: l) = none := by
  refine ⟨by unfold Lists.mergeSplitSize; rw [if_neg (by omega)], ?_⟩
  intro now now' sch e l
  exact C15_insert_hangs now sch _ e l hs

example : ListOK exList ∧ 4 ≤ exList.splitSize ∧ (Lists.chunks 2 5 [⟨1, 1, [], 0, 0⟩, ⟨1, 2, [], 0, 0⟩, ⟨1, 3, [], 0, 0⟩]) =
    some [[⟨1, 1, [], 0, 0⟩, ⟨1, 2, [], 0, 0⟩], [⟨1, 3, [], 0, 0⟩]] ∧
    ((Lists.insert 9 .inOrder exList ((List.range 7).map fun i => ⟨i * 5, 100 + i, [], 0, 0⟩)).map fun st =>
      (st.content.map (·.id))) = some [6, 3, 1, 2, 9, 106, 105, 104, 5, 8, 103, 7, 102, 4, 101, 100] :=
  ⟨exList_ok, by decide +kernel⟩

end RankDB.Props

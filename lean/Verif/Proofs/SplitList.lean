import Verif.Proofs.Split
/-
`Lists.split`: splitting and merging segments keeps a list well-formed and its content unchanged.
-/
namespace RankDB
open Spec
namespace Lists
open Segments

theorem over_mem {U : List IndexUpdate} (hU : (U.map (·.1)).Nodup) {u : IndexUpdate} (hu : u ∈ U)
    {p : Nat × Nat} (hp : p.1 = u.1) : over U p = u := by
  induction U generalizing p with
  | nil => simp at hu
  | cons v U ih =>
    rw [List.map_cons, List.nodup_cons] at hU
    show over U (if p.1 = v.1 then v else p) = u
    rcases List.mem_cons.1 hu with rfl | hu
    · rw [if_pos hp]
      exact over_absent fun w hw hwu => hU.1 (hwu ▸ List.mem_map_of_mem hw)
    · have : p.1 ≠ v.1 := fun he => hU.1 (by rw [← he, hp]; exact List.mem_map_of_mem hu)
      rw [if_neg this]
      exact ih hU.2 hu hp

theorem split_spec {now : Nat} {merge : Bool} {st : ListState} (h : ListOK st) (hnow : now < 2 ^ 32 - 1)
    (hs : st.scores.nextID + st.scores.segs.length ≤ 2 ^ 32)
    (hi : st.index.nextID + st.index.segs.length ≤ 2 ^ 32)
    (hs0 : 0 < st.scores.nextID) (hi0 : 0 < st.index.nextID) :
    let st' := Lists.split now merge st
    ListOK st' ∧ st'.content = st.content ∧ st'.mergeSize = st.mergeSize ∧ st'.splitSize = st.splitSize ∧
    st'.scores.nextID ≤ st.scores.nextID + st.scores.segs.length ∧
    st'.index.nextID ≤ st.index.nextID + st.index.segs.length := by
  unfold Lists.split
  simp only []
  have hw : WF false st.scores.nextID st.scores.segs :=
    ⟨h.scores, h.scoresCount, h.scoresIDs.1, by simp⟩
  have L1 := splitLoop_spec (now := now) (splitSize := st.splitSize) (mergeSize := st.mergeSize)
    (merge := merge) (skipUnsplit := 0) (ss := st.scores.segs) (done := []) (skip := 0)
    (by simpa using hw) hs0
  rw [List.reverse_nil, List.nil_append] at L1
  generalize splitLoop now st.splitSize st.mergeSize merge false 0 st.scores.nextID 0 [] st.scores.segs = r at *
  have hU : (r.2.2.map (·.1)).Nodup := L1.sub.nodup h.scores.distinct
  have hU64 : ∀ u ∈ r.2.2, u.1 < 2 ^ 64 := by
    intro u hu
    have := L1.sub.subset (List.mem_map_of_mem (f := (·.1)) hu)
    obtain ⟨e, he, hid⟩ := List.mem_map.1 this
    rw [← hid]; exact (h.scores.storable e he).id
  have hI : IsIndex st.index.segs := ⟨h.index, h.link.byID, h.link.aligned⟩
  obtain ⟨u1, u2, u3, u4⟩ := updateIndexElements_spec (now := now) hI hU hU64 hnow h.indexCount
  generalize updateIndexElements now st.index.segs r.2.2 = I at *
  have hlen : I.length = st.index.segs.length := SameRanges.length u1
  have hw2 : WF true st.index.nextID I := by
    refine ⟨u4.ok, u3, ?_, fun _ => ⟨u4.byID, u4.aligned⟩⟩
    intro s' hs'
    obtain ⟨j, hj⟩ := List.mem_iff_getElem?.1 hs'
    rcases sameRanges_getElem? u1 j with ⟨e1, -⟩ | ⟨a, b, e1, e2, e3⟩
    · rw [hj] at e1; simp at e1
    · rw [hj] at e1
      simp only [Option.some.injEq] at e1
      subst e1
      rw [e3.1]
      exact h.indexIDs.1 b (List.mem_of_getElem? e2)
  have L2 := splitLoop_spec (now := now) (splitSize := st.splitSize) (mergeSize := st.mergeSize)
    (merge := true) (skipUnsplit := 1) (ss := I) (done := []) (skip := 0)
    (by simpa using hw2) hi0
  rw [List.reverse_nil, List.nil_append] at L2
  generalize splitLoop now st.splitSize st.mergeSize true true 1 st.index.nextID 0 [] I = q at *
  have n1 := L1.next
  have n2 := L2.next
  have hindexed : indexed q.1 = (indexed st.index.segs).map (over r.2.2) := by
    unfold indexed
    rw [L2.elems, u2, List.map_map, List.map_map]
    apply List.map_congr_left
    intro e he
    have hsc := h.link.byID e he
    simp only [Function.comp_apply]
    rw [setAll_id]
    by_cases hx : ∃ u ∈ r.2.2, u.1 = e.id
    · obtain ⟨u, hu, hue⟩ := hx
      rw [over_mem hU hu (p := (e.id, e.tie)) hue.symm, setAll_mem hU hu (by rw [hsc, hue])]
      have := L1.news u hu
      simp only []
      rw [Nat.mod_eq_of_lt (by omega), ← hue]
    · rw [over_absent (p := (e.id, e.tie)) fun u hu hue => hx ⟨u, hu, hue⟩,
        setAll_absent fun u hu hue => hx ⟨u, hu, by rw [hue, hsc]⟩]
  refine ⟨⟨L1.wf.ok, L2.wf.ok, L1.wf.counted, L2.wf.counted, ⟨L1.wf.ids, by simp only []; omega⟩,
    ⟨L2.wf.ids, by simp only []; omega⟩, ⟨?_, (L2.wf.index rfl).1, (L2.wf.index rfl).2⟩, h.flags⟩,
    L1.elems, trivial, trivial, n1.2, by omega⟩
  rw [hindexed, L1.placed]
  exact h.link.complete.map _

end Lists
end RankDB

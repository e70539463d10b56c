import Verif.Proofs.Update
import Verif.Proofs.Build
/-
Helper lemmas: splitting and merging segments, and updating the index afterwards.
-/
namespace RankDB
open Spec

/-! ### Replacing neighbouring segments -/

theorem tiles_replace {X X' : List Seg} (hne : X ≠ []) (hne' : X' ≠ []) (hX : ∀ h, Tiles h X → Tiles h X') :
    ∀ {A : List Seg} {h : Nat}, Tiles h (A ++ X) → Tiles h (A ++ X')
  | [], h, ht => hX h ht
  | a :: A, h, ht => by
    rw [List.cons_append] at ht ⊢
    obtain ⟨h1, h2, h3⟩ := tiles_cons.1 ht
    rw [tiles_cons]
    refine ⟨h1, h2, ?_⟩
    rcases h3 with ⟨h3, h4⟩ | ⟨h3, h4, h5⟩
    · exact absurd (List.append_eq_nil_iff.1 h3).2 hne
    · exact Or.inr ⟨by simp [hne'], h4, tiles_replace hne hne' hX h5⟩

/-- One segment becomes two. -/
theorem tiles_split {s s1 s2 : Seg} {B : List Seg} (h1 : hi s1 = hi s) (h2 : lo s1 = hi s2 + 1) (h3 : lo s2 = lo s)
    (h4 : lo s1 ≤ hi s1) (h5 : lo s2 ≤ hi s2) {h : Nat} (ht : Tiles h (s :: B)) : Tiles h (s1 :: s2 :: B) := by
  obtain ⟨t1, t2, t3⟩ := tiles_cons.1 ht
  refine tiles_cons.2 ⟨by omega, h4, Or.inr ⟨by simp, by omega, tiles_cons.2 ⟨by omega, h5, ?_⟩⟩⟩
  rw [h3]; exact t3

/-- Two segments become one. -/
theorem tiles_merge {p s m : Seg} {B : List Seg} (h1 : hi m = hi p) (h2 : lo m = lo s) {h : Nat}
    (ht : Tiles h (p :: s :: B)) : Tiles h (m :: B) := by
  obtain ⟨t1, t2, t3⟩ := tiles_cons.1 ht
  rcases t3 with ⟨t3, -⟩ | ⟨-, t4, t5⟩
  · simp at t3
  · obtain ⟨u1, u2, u3⟩ := tiles_cons.1 t5
    refine tiles_cons.2 ⟨by omega, by omega, ?_⟩
    rw [h2]; exact u3

theorem segsOK_replace {A B X X' : List Seg} (h : SegsOK (A ++ (X ++ B))) (hne : X ≠ []) (hne' : X' ≠ [])
    (ht : ∀ h, Tiles h (X ++ B) → Tiles h (X' ++ B)) (hel : allElems X' = allElems X)
    (hties : ∀ s ∈ X', s.minTie < 2 ^ 32 ∧ s.maxTie < 2 ^ 32) (hin : ∀ s ∈ X', ∀ e ∈ s.elems, InRange s e)
    (hids : ((A ++ (X' ++ B)).map (·.id)).Nodup) : SegsOK (A ++ (X' ++ B)) where
  tiles := tiles_replace (by simp [hne]) (by simp [hne']) ht h.tiles
  ties := by
    intro s hs
    simp only [List.mem_append] at hs
    rcases hs with hs | hs | hs
    · exact h.ties s (by simp [hs])
    · exact hties s hs
    · exact h.ties s (by simp [hs])
  inRange := by
    intro s hs
    simp only [List.mem_append] at hs
    rcases hs with hs | hs | hs
    · exact h.inRange s (by simp [hs])
    · exact hin s hs
    · exact h.inRange s (by simp [hs])
  ranked := by
    intro s hs
    simp only [List.mem_append] at hs
    rcases hs with hs | hs | hs
    · exact h.ranked s (by simp [hs])
    · have h1 : s.elems.Sublist (allElems X') := by
        unfold allElems
        rw [List.flatMap_def]
        exact List.sublist_flatten_of_mem (List.mem_map.2 ⟨s, hs, rfl⟩)
      rw [hel] at h1
      have h2 : (allElems X).Sublist (allElems (A ++ (X ++ B))) := by
        rw [allElems_append, allElems_append]
        exact (List.sublist_append_left _ _).trans (List.sublist_append_right _ _)
      exact ranked_of_strict (h.strict.sublist (h1.trans h2))
    · exact h.ranked s (by simp [hs])
  distinct := by
    have := h.distinct
    rw [allElems_append, allElems_append] at this ⊢
    rw [hel]; exact this
  storable := by
    have := h.storable
    rw [allElems_append, allElems_append] at this ⊢
    rw [hel]; exact this
  segIDs := hids

namespace Segments

/-- What the split loop keeps. -/
structure WF (isIndex : Bool) (nextID : Nat) (segs : List Seg) : Prop where
  ok : SegsOK segs
  counted : Counted segs
  ids : ∀ s ∈ segs, 0 < s.id ∧ s.id < nextID
  index : isIndex = true → (∀ e ∈ allElems segs, e.score = e.id) ∧
    ∀ s ∈ segs, s.minTie = 0 ∧ s.maxTie = 2 ^ 32 - 1

/-- Apply updates to an entry of the index, one after the other. -/
def over (U : List IndexUpdate) (p : Nat × Nat) : Nat × Nat :=
  U.foldl (fun p u => if p.1 = u.1 then u else p) p

theorem over_append (U V : List IndexUpdate) (p : Nat × Nat) : over (U ++ V) p = over V (over U p) := by
  simp [over, List.foldl_append]

theorem over_fst (U : List IndexUpdate) : ∀ p, (over U p).1 = p.1 := by
  induction U with
  | nil => intro p; rfl
  | cons u U ih =>
    intro p
    show (over U (if p.1 = u.1 then u else p)).1 = p.1
    rw [ih]; split
    · rename_i h; exact h.symm
    · rfl

theorem over_absent {U : List IndexUpdate} : ∀ {p : Nat × Nat}, (∀ u ∈ U, u.1 ≠ p.1) → over U p = p := by
  induction U with
  | nil => intro p _; rfl
  | cons u U ih =>
    intro p h
    show over U (if p.1 = u.1 then u else p) = p
    rw [if_neg (fun he => h u (by simp) he.symm)]
    exact ih fun v hv => h v (by simp [hv])

theorem over_map (l : List Element) (n : Nat) (p : Nat × Nat) :
    over (l.map fun e => (e.id, n)) p = if p.1 ∈ l.map (·.id) then (p.1, n) else p := by
  induction l generalizing p with
  | nil => simp [over]
  | cons e l ih =>
    rw [List.map_cons]
    show over (l.map fun e => (e.id, n)) (if p.1 = e.id then (e.id, n) else p) = _
    rw [ih]
    by_cases h : p.1 = e.id
    · rw [if_pos h]; simp [h]
    · rw [if_neg h]; simp [h]

/-- Old placement and new placement of the elements of some segments. -/
theorem placement_append (a b : List Seg) : placement (a ++ b) = placement a ++ placement b := by
  simp [placement]

theorem placement_ids' (segs : List Seg) : (placement segs).map (·.1) = (allElems segs).map (·.id) := by
  unfold placement allElems
  rw [List.map_flatMap, List.map_flatMap]
  congr 1; funext s
  simp [Function.comp_def]

/-- A change of neighbouring segments moves only their elements. -/
theorem placement_replace {A B X X' : List Seg} {U : List IndexUpdate}
    (hd : DistinctIDs (allElems (A ++ (X ++ B)))) (hU : ∀ u ∈ U, u.1 ∈ (allElems X).map (·.id))
    (hX : placement X' = (placement X).map (over U)) :
    placement (A ++ (X' ++ B)) = (placement (A ++ (X ++ B))).map (over U) := by
  unfold DistinctIDs at hd
  rw [allElems_append, allElems_append, List.map_append, List.map_append, List.nodup_append, List.nodup_append] at hd
  obtain ⟨-, ⟨-, -, d2⟩, d1⟩ := hd
  have hfix : ∀ Y : List Seg, (∀ v ∈ (allElems Y).map (·.id), v ∉ (allElems X).map (·.id)) →
      (placement Y).map (over U) = placement Y := by
    intro Y hY
    conv => rhs; rw [← List.map_id (placement Y)]
    apply List.map_congr_left
    intro p hp
    apply over_absent
    intro u hu he
    have : p.1 ∈ (allElems Y).map (·.id) := by
      rw [← placement_ids']; exact List.mem_map.2 ⟨p, hp, rfl⟩
    exact hY p.1 this (he ▸ hU u hu)
  rw [placement_append, placement_append, placement_append, placement_append, List.map_append, List.map_append,
    hX, hfix A, hfix B]
  · intro v hv hx
    exact d2 v hx v hv rfl
  · intro v hv hx
    exact d1 v hv v (List.mem_append_left _ hx) rfl

/-- What `splitIdx` does to one segment. -/
theorem splitIdx_spec {now nid : Nat} {isIndex : Bool} {s s1 s2 : Seg} {U : List IndexUpdate}
    (h : splitIdx now isIndex nid s = some (s1, s2, U)) (hr : Spec.Ranked s.elems) (hd : DistinctIDs s.elems)
    (hst : ∀ e ∈ s.elems, Storable e) (hin : ∀ e ∈ s.elems, InRange s e)
    (hties : s.minTie < 2 ^ 32 ∧ s.maxTie < 2 ^ 32)
    (hix : isIndex = true → (∀ e ∈ s.elems, e.score = e.id) ∧ s.minTie = 0 ∧ s.maxTie = 2 ^ 32 - 1) :
    s1.elems ++ s2.elems = s.elems ∧ s1.id = s.id ∧ s2.id = nid ∧ U = s2.elems.map (fun e => (e.id, nid)) ∧
    s1.n = s1.elems.length ∧ s2.n = s2.elems.length ∧
    hi s1 = hi s ∧ lo s1 = hi s2 + 1 ∧ lo s2 = lo s ∧ lo s1 ≤ hi s1 ∧ lo s2 ≤ hi s2 ∧
    (s1.minTie < 2 ^ 32 ∧ s1.maxTie < 2 ^ 32) ∧ (s2.minTie < 2 ^ 32 ∧ s2.maxTie < 2 ^ 32) ∧
    (∀ e ∈ s1.elems, InRange s1 e) ∧ (∀ e ∈ s2.elems, InRange s2 e) ∧
    (isIndex = true → (s1.minTie = 0 ∧ s1.maxTie = 2 ^ 32 - 1) ∧ (s2.minTie = 0 ∧ s2.maxTie = 2 ^ 32 - 1)) := by
  unfold splitIdx at h
  split at h
  · rename_i a e b hsp
    simp only [Option.some.injEq, Prod.mk.injEq] at h
    obtain ⟨rfl, rfl, rfl⟩ := h
    have hfl := Elements.splitSize_flatten hsp
    simp only [List.flatten_cons, List.flatten_nil, List.append_nil] at hfl
    have hne : s.elems ≠ [] := by rw [← hfl]; simp
    have hne2 := Elements.splitSize_ne_nil hne hsp
    have hane : a ≠ [] := hne2 a (by simp)
    have hcut := cut_lt (Elements.splitSize_cuts hsp) (by simp)
      (by simp only [List.flatten_cons, List.flatten_nil, List.append_nil]; rw [hfl]; exact hr)
      (by simp only [List.flatten_cons, List.flatten_nil, List.append_nil]; rw [hfl]; exact fun e he => (hst e he).tie)
      (a := a.getLast hane) (by rw [List.getLast?_eq_some_getLast hane]; rfl)
    simp only [List.flatten_cons, List.flatten_nil, List.append_nil] at hcut
    have hf := falling_of_ranked hr (fun e he => (hst e he).tie)
    unfold Falling at hf
    rw [← hfl, List.pairwise_append] at hf
    obtain ⟨f1, f2, f3⟩ := hf
    have hea : ∀ y ∈ a, epos e < epos y := by
      intro y hy
      have h1 := hcut e (by simp)
      have hdl : a = a.dropLast ++ [a.getLast hane] := (List.dropLast_concat_getLast hane).symm
      rw [hdl] at hy f1
      rw [List.pairwise_append] at f1
      rcases List.mem_append.1 hy with hy | hy
      · have := f1.2.2 y hy (a.getLast hane) (by simp); omega
      · simp at hy; rw [hy]; exact h1
    have hbe : ∀ y ∈ e :: b, epos y ≤ epos e := by
      intro y hy
      rcases List.mem_cons.1 hy with rfl | hy
      · exact Nat.le_refl _
      · exact (List.pairwise_cons.1 f2).1 y hy
    have hste : Storable e := hst e (by rw [← hfl]; simp)
    have hmm : (Elements.minMax (e :: b)).2.1 = e.score ∧ (Elements.minMax (e :: b)).2.2.2 = e.tie := by
      unfold Elements.minMax
      rw [List.getLast?_eq_some_getLast (by simp)]; exact ⟨rfl, rfl⟩
    obtain ⟨y0, hy0⟩ := List.exists_mem_of_ne_nil a hane
    have hy0s : y0 ∈ s.elems := by rw [← hfl]; simp [hy0]
    have hst0 := hst y0 hy0s
    have hes : e ∈ s.elems := by rw [← hfl]; simp
    have hine := hin e hes
    have hin0 := hin y0 hy0s
    have h0 := hea y0 hy0
    unfold InRange at hine hin0
    -- the position of the cut
    have key : ∃ c, pos (aboveThis e.score (if isIndex then maxU32 else e.tie)).1
          (aboveThis e.score (if isIndex then maxU32 else e.tie)).2 = c + 1 ∧
        pos e.score (if isIndex then maxU32 else e.tie) = c ∧ (∀ y ∈ a, c < epos y) ∧ epos e ≤ c ∧
        (aboveThis e.score (if isIndex then maxU32 else e.tie)).2 < 2 ^ 32 ∧
        (isIndex = true → (aboveThis e.score (if isIndex then maxU32 else e.tie)).2 = 0) := by
      cases isIndex with
      | false =>
        simp only [Bool.false_eq_true, if_false]
        refine ⟨epos e, ?_, rfl, hea, Nat.le_refl _, ?_, fun h => by simp at h⟩
        · generalize haq : aboveThis e.score e.tie = q
          obtain ⟨q1, q2⟩ := q
          have := aboveThis_cases haq
          have := hste.tie; have := hste.score; have := hst0.tie; have := hst0.score
          unfold epos pos at *
          simp only []
          omega
        · generalize haq : aboveThis e.score e.tie = q
          obtain ⟨q1, q2⟩ := q
          have := aboveThis_cases haq
          have := hste.tie
          simp only []; omega
      | true =>
        simp only [if_true]
        obtain ⟨x1, x2, x3⟩ := hix rfl
        have hsc : ∀ y ∈ a, e.score < y.score := by
          intro y hy
          have hys : y ∈ s.elems := by rw [← hfl]; simp [hy]
          have hne : y.id ≠ e.id := by
            unfold DistinctIDs at hd
            rw [← hfl, List.map_append, List.nodup_append] at hd
            exact hd.2.2 y.id (List.mem_map.2 ⟨y, hy, rfl⟩) e.id (by simp)
          rw [← x1 y hys, ← x1 e hes] at hne
          have h1 := hea y hy
          have := (hst y hys).tie
          have := hste.tie
          unfold epos pos at h1
          omega
        have hs0 := hsc y0 hy0
        have := hst0.score
        refine ⟨pos e.score maxU32, ?_, rfl, ?_, ?_, ?_, ?_⟩
        · generalize haq : aboveThis e.score maxU32 = q
          obtain ⟨q1, q2⟩ := q
          have := aboveThis_cases haq
          unfold maxU32 at *
          unfold pos
          simp only []
          omega
        · intro y hy
          have := hsc y hy
          unfold epos pos maxU32; omega
        · have := hste.tie
          unfold epos pos maxU32; omega
        · generalize haq : aboveThis e.score maxU32 = q
          obtain ⟨q1, q2⟩ := q
          have := aboveThis_cases haq
          unfold maxU32 at *
          simp only []; omega
        · intro _
          generalize haq : aboveThis e.score maxU32 = q
          obtain ⟨q1, q2⟩ := q
          have := aboveThis_cases haq
          unfold maxU32 at *
          simp only []; omega
    obtain ⟨c, k1, k2, k3, k4, k5, k6⟩ := key
    have hc0 := k3 y0 hy0
    have hhi : ∀ y ∈ a, epos y ≤ hi s := fun y hy => (hin y (by rw [← hfl]; simp [hy])).2
    have hlo : ∀ y ∈ e :: b, lo s ≤ epos y := fun y hy => (hin y (by rw [← hfl]; exact List.mem_append_right _ hy)).1
    have hs2hi : ∀ mx mt, mx = e.score → mt = e.tie → pos mx (if isIndex then maxU32 else mt) = c := by
      rintro _ _ rfl rfl; exact k2
    have hs2 := hs2hi _ _ hmm.1 hmm.2
    have hlt32 : maxU32 < 2 ^ 32 := by decide
    refine ⟨hfl, rfl, rfl, rfl, rfl, rfl, rfl, ?_, rfl, ?_, ?_, ⟨k5, hties.2⟩, ⟨hties.1, ?_⟩, ?_, ?_, ?_⟩
    · show pos _ _ = pos _ _ + 1
      simp only []
      rw [k1, hs2]
    · show pos _ _ ≤ hi s
      simp only []
      rw [k1]
      have := hhi y0 hy0
      omega
    · show lo s ≤ pos _ _
      simp only []
      rw [hs2]
      have := hlo e (by simp)
      omega
    · simp only []
      rw [hmm.2]
      split
      · exact hlt32
      · exact hste.tie
    · intro y hy
      refine ⟨?_, hhi y hy⟩
      show pos _ _ ≤ epos y
      simp only []
      rw [k1]
      exact k3 y hy
    · intro y hy
      refine ⟨hlo y hy, ?_⟩
      show epos y ≤ pos _ _
      simp only []
      rw [hs2]
      have := hbe y hy
      omega
    · intro hi
      obtain ⟨x1, x2, x3⟩ := hix hi
      refine ⟨⟨k6 hi, x3⟩, x2, ?_⟩
      simp only [hi, if_true]; rfl
  · simp at h

/-- Segment IDs after a replacement. -/
theorem nodup_replace {A X X' B : List Nat} (h : (A ++ (X ++ B)).Nodup) (hX' : X'.Nodup)
    (hsub : ∀ v ∈ X', v ∈ X ∨ v ∉ A ++ (X ++ B)) : (A ++ (X' ++ B)).Nodup := by
  rw [List.nodup_append, List.nodup_append] at *
  obtain ⟨h1, ⟨h2, h3, h4⟩, h5⟩ := h
  refine ⟨h1, ⟨hX', h3, ?_⟩, ?_⟩
  · intro a ha b hb he
    rcases hsub a ha with h | h
    · exact h4 a h b hb he
    · exact h (by simp [he, hb])
  · intro a ha b hb he
    rcases List.mem_append.1 hb with hb | hb
    · rcases hsub b hb with h | h
      · exact h5 a ha b (by simp [h]) he
      · exact h (by simp [← he, ha])
    · exact h5 a ha b (by simp [hb]) he

theorem distinct_sub {A X B : List Seg} (h : SegsOK (A ++ (X ++ B))) : DistinctIDs (allElems X) := by
  have h2 : (allElems X).Sublist (allElems (A ++ (X ++ B))) := by
    rw [allElems_append, allElems_append]
    exact (List.sublist_append_left _ _).trans (List.sublist_append_right _ _)
  have := h.distinct
  unfold DistinctIDs at *
  exact this.sublist (h2.map _)

/-- A replacement of neighbours within the loop. -/
theorem WF.replace {isIndex : Bool} {nid nid' : Nat} {A B X X' : List Seg} (h : WF isIndex nid (A ++ (X ++ B)))
    (hn : nid ≤ nid') (hne : X ≠ []) (hne' : X' ≠ []) (ht : ∀ h, Tiles h (X ++ B) → Tiles h (X' ++ B))
    (hel : allElems X' = allElems X)
    (hties : ∀ s ∈ X', s.minTie < 2 ^ 32 ∧ s.maxTie < 2 ^ 32) (hin : ∀ s ∈ X', ∀ e ∈ s.elems, InRange s e)
    (hc : ∀ s ∈ X', s.n = s.elems.length) (hX' : (X'.map (·.id)).Nodup)
    (hids : ∀ s ∈ X', (∃ t ∈ X, t.id = s.id) ∨ (s.id = nid ∧ nid < nid'))
    (hpos : 0 < nid)
    (hal : isIndex = true → ∀ s ∈ X', s.minTie = 0 ∧ s.maxTie = 2 ^ 32 - 1) :
    WF isIndex nid' (A ++ (X' ++ B)) where
  ok := by
    refine segsOK_replace h.ok hne hne' ht hel hties hin ?_
    have := h.ok.segIDs
    rw [List.map_append, List.map_append] at this ⊢
    refine nodup_replace this hX' ?_
    intro v hv
    obtain ⟨s, hs, rfl⟩ := List.mem_map.1 hv
    rcases hids s hs with ⟨t, h1, h2⟩ | ⟨h1, h2⟩
    · left; exact List.mem_map.2 ⟨t, h1, h2⟩
    · right
      rw [← List.map_append, ← List.map_append]
      intro hm
      obtain ⟨t, h3, h4⟩ := List.mem_map.1 hm
      have := (h.ids t h3).2
      omega
  counted := by
    intro s hs
    simp only [List.mem_append] at hs
    rcases hs with hs | hs | hs
    · exact h.counted s (by simp [hs])
    · exact hc s hs
    · exact h.counted s (by simp [hs])
  ids := by
    intro s hs
    simp only [List.mem_append] at hs
    rcases hs with hs | hs | hs
    · have := h.ids s (by simp [hs]); omega
    · rcases hids s hs with ⟨t, h1, h2⟩ | ⟨h1, h2⟩
      · have := h.ids t (by simp [h1]); omega
      · omega
    · have := h.ids s (by simp [hs]); omega
  index := by
    intro hi
    obtain ⟨h1, h2⟩ := h.index hi
    refine ⟨?_, ?_⟩
    · have : allElems (A ++ (X' ++ B)) = allElems (A ++ (X ++ B)) := by
        simp only [allElems_append, hel]
      rw [this]; exact h1
    · intro s hs
      simp only [List.mem_append] at hs
      rcases hs with hs | hs | hs
      · exact h2 s (by simp [hs])
      · exact hal hi s hs
      · exact h2 s (by simp [hs])

/-- What is known after the split loop. -/
structure LoopDone (isIndex : Bool) (nid : Nat) (todo cur : List Seg) (r : List Seg × Nat × List IndexUpdate) : Prop where
  wf : WF isIndex r.2.1 r.1
  elems : allElems r.1 = allElems cur
  placed : placement r.1 = (placement cur).map (over r.2.2)
  sub : (r.2.2.map (·.1)).Sublist ((allElems todo).map (·.id))
  next : nid ≤ r.2.1 ∧ r.2.1 ≤ nid + todo.length
  news : ∀ u ∈ r.2.2, u.2 < r.2.1

theorem LoopDone.pass {isIndex : Bool} {nid : Nat} {s : Seg} {ss cur : List Seg} {r}
    (h : LoopDone isIndex nid ss cur r) : LoopDone isIndex nid (s :: ss) cur r where
  wf := h.wf
  elems := h.elems
  placed := h.placed
  sub := by
    have : (allElems (s :: ss)).map (·.id) = s.elems.map (·.id) ++ (allElems ss).map (·.id) := by
      simp [allElems]
    rw [this]
    exact h.sub.trans (List.sublist_append_right _ _)
  next := by have := h.next; simp only [List.length_cons]; omega
  news := h.news

/-- A step of the loop followed by the rest of it. -/
theorem LoopDone.step {isIndex : Bool} {nid nid' : Nat} {s : Seg} {ss cur cur' : List Seg} {U : List IndexUpdate}
    {r : List Seg × Nat × List IndexUpdate} (h : LoopDone isIndex nid' ss cur' r)
    (hn : nid ≤ nid' ∧ nid' ≤ nid + 1) (hel : allElems cur' = allElems cur)
    (hpl : placement cur' = (placement cur).map (over U))
    (hU : (U.map (·.1)).Sublist (s.elems.map (·.id))) (hnew : ∀ u ∈ U, u.2 < nid') :
    LoopDone isIndex nid (s :: ss) cur (r.1, r.2.1, U ++ r.2.2) where
  wf := h.wf
  elems := h.elems.trans hel
  placed := by
    rw [h.placed, hpl, List.map_map]
    apply List.map_congr_left
    intro p _
    exact (over_append U r.2.2 p).symm
  sub := by
    have : (allElems (s :: ss)).map (·.id) = s.elems.map (·.id) ++ (allElems ss).map (·.id) := by
      simp [allElems]
    rw [this, List.map_append]
    exact hU.append h.sub
  next := by have := h.next; simp only [List.length_cons] at *; omega
  news := by
    intro u hu
    rcases List.mem_append.1 hu with hu | hu
    · have := hnew u hu; have := h.next; simp only []; omega
    · exact h.news u hu

theorem map_over_nil (l : List (Nat × Nat)) : l.map (over []) = l := by
  have : over [] = id := rfl
  rw [this, List.map_id]

theorem splitLoop_spec {now splitSize mergeSize : Nat} {merge isIndex : Bool} {skipUnsplit : Nat} :
    ∀ {ss done : List Seg} {nid skip : Nat}, WF isIndex nid (done.reverse ++ ss) → 0 < nid →
    LoopDone isIndex nid ss (done.reverse ++ ss)
      (splitLoop now splitSize mergeSize merge isIndex skipUnsplit nid skip done ss)
  | [], done, nid, skip, h, _ => by
    unfold splitLoop
    rw [List.append_nil] at h ⊢
    exact ⟨h, rfl, (map_over_nil _).symm, by simp, by simp, by simp⟩
  | s :: ss, done, nid, skip, h, hpos => by
    have hmove : done.reverse ++ s :: ss = (s :: done).reverse ++ ss := by simp
    have hnone : ∀ k, LoopDone isIndex nid (s :: ss) (done.reverse ++ s :: ss)
        (splitLoop now splitSize mergeSize merge isIndex skipUnsplit nid k (s :: done) ss) := by
      intro k
      rw [hmove] at h ⊢
      exact (splitLoop_spec h hpos).pass
    cases skip with
    | succ k => unfold splitLoop; exact hnone k
    | zero =>
      unfold splitLoop
      split
      · split
        · rename_i p done'
          split
          · exact hnone 0
          · -- merge
            have hcur : (p :: done').reverse ++ s :: ss = done'.reverse ++ ([p, s] ++ ss) := by simp
            rw [hcur] at h ⊢
            have hsp : ∀ t ∈ [p, s], t ∈ done'.reverse ++ ([p, s] ++ ss) := by
              intro t ht; simp only [List.mem_append]; exact Or.inr (Or.inl ht)
            have hpm := hsp p (by simp)
            have hsm := hsp s (by simp)
            have hdis := distinct_sub h.ok
            have hm : (mergeWithNext now p s).1.elems = p.elems ++ s.elems := rfl
            have hlohi : hi (mergeWithNext now p s).1 = hi p ∧ lo (mergeWithNext now p s).1 = lo s := ⟨rfl, rfl⟩
            have hps : hi s < lo p := by
              have := tiles_pairwise h.ok.tiles
              rw [List.pairwise_append, List.pairwise_append] at this
              have := this.2.1.1
              rw [List.pairwise_cons] at this
              exact this.1 s (by simp)
            have hple := (tiles_le h.ok.tiles p hpm).1
            have hsle := (tiles_le h.ok.tiles s hsm).1
            have hwf : WF isIndex nid (done'.reverse ++ ([(mergeWithNext now p s).1] ++ ss)) := by
              refine h.replace (Nat.le_refl _) (by simp) (by simp) ?_ ?_ ?_ ?_ ?_ (by simp) ?_ hpos ?_
              · intro h' ht
                exact tiles_merge (p := p) (s := s) hlohi.1 hlohi.2 ht
              · simp [allElems, hm]
              · intro t ht
                simp only [List.mem_singleton] at ht; subst ht
                exact ⟨(h.ok.ties s hsm).1, (h.ok.ties p hpm).2⟩
              · intro t ht e he
                simp only [List.mem_singleton] at ht; subst ht
                rw [hm] at he
                unfold InRange
                rw [hlohi.1, hlohi.2]
                rcases List.mem_append.1 he with he | he
                · have := h.ok.inRange p hpm e he
                  unfold InRange at this; omega
                · have := h.ok.inRange s hsm e he
                  unfold InRange at this; omega
              · intro t ht
                simp only [List.mem_singleton] at ht; subst ht; rfl
              · intro t ht
                simp only [List.mem_singleton] at ht; subst ht
                exact Or.inl ⟨p, by simp, rfl⟩
              · intro hix t ht
                simp only [List.mem_singleton] at ht; subst ht
                exact ⟨((h.index hix).2 s hsm).1, ((h.index hix).2 p hpm).2⟩
            have hcur' : done'.reverse ++ ([(mergeWithNext now p s).1] ++ ss) =
                ((mergeWithNext now p s).1 :: done').reverse ++ ss := by simp
            rw [hcur'] at hwf
            have hrec := splitLoop_spec (now := now) (splitSize := splitSize) (mergeSize := mergeSize) (merge := true)
              (skipUnsplit := skipUnsplit) (skip := 2) hwf hpos
            refine LoopDone.step hrec ⟨Nat.le_refl _, by omega⟩ ?_ ?_ ?_ ?_
            · rw [← hcur']; simp [allElems, hm]
            · rw [← hcur']
              apply placement_replace h.ok.distinct
              · intro u hu
                simp only [mergeWithNext, List.mem_map] at hu
                obtain ⟨e, he, rfl⟩ := hu
                exact List.mem_map.2 ⟨e, by simp [allElems, he], rfl⟩
              · have e1 : placement [p, s] = p.elems.map (fun e => (e.id, p.id)) ++ s.elems.map (fun e => (e.id, s.id)) := by
                  simp [placement]
                have e2 : placement [(mergeWithNext now p s).1] =
                    p.elems.map (fun e => (e.id, p.id)) ++ s.elems.map (fun e => (e.id, p.id)) := by
                  simp [placement, mergeWithNext, Segment.replace]
                rw [e1, e2, List.map_append, List.map_map, List.map_map]
                unfold DistinctIDs at hdis
                have e3 : allElems [p, s] = p.elems ++ s.elems := by simp [allElems]
                rw [e3, List.map_append, List.nodup_append] at hdis
                congr 1
                · apply List.map_congr_left
                  intro e he
                  simp only [Function.comp_apply, mergeWithNext]
                  rw [over_map, if_neg]
                  intro hm
                  exact hdis.2.2 e.id (List.mem_map.2 ⟨e, he, rfl⟩) e.id hm rfl
                · apply List.map_congr_left
                  intro e he
                  simp only [Function.comp_apply, mergeWithNext]
                  rw [over_map, if_pos (List.mem_map.2 ⟨e, he, rfl⟩)]
            · simp [mergeWithNext, Function.comp_def]
            · intro u hu
              simp only [mergeWithNext, List.mem_map] at hu
              obtain ⟨e, he, rfl⟩ := hu
              exact (h.ids p hpm).2
        · exact hnone 0
      · have hcur : done.reverse ++ s :: ss = done.reverse ++ ([s] ++ ss) := by simp
        have hsm : s ∈ done.reverse ++ s :: ss := by simp
        split
        · -- not split
          have hs : ({ s with n := s.elems.length } : Seg) = s := by
            rw [← h.counted s hsm]
          rw [hs]
          exact hnone _
        · -- split
          rename_i s1 s2 ch hsp
          rw [hcur] at h ⊢
          have hsm : s ∈ done.reverse ++ ([s] ++ ss) := by simp
          have hdis := distinct_sub h.ok
          have e3 : allElems [s] = s.elems := by simp [allElems]
          rw [e3] at hdis
          obtain ⟨q1, q2, q3, q4, q5, q6, q7, q8, q9, q10, q11, q12, q13, q14, q15, q16⟩ :=
            splitIdx_spec hsp (h.ok.ranked s hsm) hdis
              (fun e he => h.ok.storable e (mem_allElems.2 ⟨s, hsm, he⟩)) (h.ok.inRange s hsm) (h.ok.ties s hsm)
              (fun hix => ⟨fun e he => (h.index hix).1 e (mem_allElems.2 ⟨s, hsm, he⟩), (h.index hix).2 s hsm⟩)
          have hid := h.ids s hsm
          have hwf : WF isIndex (nid + 1) (done.reverse ++ ([s1, s2] ++ ss)) := by
            refine h.replace (by omega) (by simp) (by simp) ?_ ?_ ?_ ?_ ?_ ?_ ?_ hpos ?_
            · intro h' ht
              exact tiles_split q7 q8 q9 q10 q11 ht
            · simp [allElems, q1]
            · intro t ht
              simp only [List.mem_cons, List.not_mem_nil, or_false] at ht
              rcases ht with rfl | rfl
              · exact q12
              · exact q13
            · intro t ht
              simp only [List.mem_cons, List.not_mem_nil, or_false] at ht
              rcases ht with rfl | rfl
              · exact q14
              · exact q15
            · intro t ht
              simp only [List.mem_cons, List.not_mem_nil, or_false] at ht
              rcases ht with rfl | rfl
              · exact q5
              · exact q6
            · simp only [List.map_cons, List.map_nil, q2, q3, List.nodup_cons, List.mem_singleton, List.not_mem_nil,
                not_false_eq_true, List.nodup_nil, and_self, and_true]
              omega
            · intro t ht
              simp only [List.mem_cons, List.not_mem_nil, or_false] at ht
              rcases ht with rfl | rfl
              · exact Or.inl ⟨s, by simp, q2.symm⟩
              · exact Or.inr ⟨q3, by omega⟩
            · intro hix t ht
              simp only [List.mem_cons, List.not_mem_nil, or_false] at ht
              rcases ht with rfl | rfl
              · exact (q16 hix).1
              · exact (q16 hix).2
          have hcur' : done.reverse ++ ([s1, s2] ++ ss) = (s2 :: s1 :: done).reverse ++ ss := by simp
          rw [hcur'] at hwf
          have hrec := splitLoop_spec (now := now) (splitSize := splitSize) (mergeSize := mergeSize) (merge := merge)
            (skipUnsplit := skipUnsplit) (skip := 0) hwf (by omega)
          refine LoopDone.step hrec ⟨by omega, Nat.le_refl _⟩ ?_ ?_ ?_ ?_
          · rw [← hcur', allElems_append, allElems_append, allElems_append, allElems_append,
              show allElems [s1, s2] = allElems [s] by simp [allElems, q1]]
          · rw [← hcur']
            apply placement_replace h.ok.distinct
            · intro u hu
              rw [q4] at hu
              obtain ⟨e, he, rfl⟩ := List.mem_map.1 hu
              exact List.mem_map.2 ⟨e, by rw [e3, ← q1]; simp [he], rfl⟩
            · have e1 : placement [s] = s1.elems.map (fun e => (e.id, s.id)) ++ s2.elems.map (fun e => (e.id, s.id)) := by
                rw [← List.map_append, q1]; simp [placement]
              have e2 : placement [s1, s2] =
                  s1.elems.map (fun e => (e.id, s.id)) ++ s2.elems.map (fun e => (e.id, nid)) := by
                simp [placement, q2, q3]
              rw [e1, e2, List.map_append, List.map_map, List.map_map, q4]
              unfold DistinctIDs at hdis
              rw [← q1, List.map_append, List.nodup_append] at hdis
              congr 1
              · apply List.map_congr_left
                intro e he
                simp only [Function.comp_apply]
                rw [over_map, if_neg]
                intro hm
                exact hdis.2.2 e.id (List.mem_map.2 ⟨e, he, rfl⟩) e.id hm rfl
              · apply List.map_congr_left
                intro e he
                simp only [Function.comp_apply]
                rw [over_map, if_pos (List.mem_map.2 ⟨e, he, rfl⟩)]
          · rw [q4, ← q1]
            simp [Function.comp_def]
          · intro u hu
            rw [q4] at hu
            obtain ⟨e, he, rfl⟩ := List.mem_map.1 hu
            simp only []; omega

/-! ### Updating the index -/

/-- Routing covers all scores, in descending order. -/
theorem splitScores_flatten {segs : List Seg} {l : List Nat} (ht : Tiles top segs)
    (ha : ∀ s ∈ segs, s.minTie = 0 ∧ s.maxTie = 2 ^ 32 - 1) (hl : ∀ v ∈ l, v < 2 ^ 64) :
    (splitScores segs l).flatMap (·.2) = ElementIDs.sort l := by
  have hsorted := ElementIDs.sort_sorted l
  have hmem : ∀ v ∈ ElementIDs.sort l, v < 2 ^ 64 := fun v hv => hl v ((ElementIDs.sort_perm l).mem_iff.1 hv)
  obtain ⟨f, hf1, hf2⟩ : ∃ f : Nat → Element, (∀ v, (f v).score = v) ∧ ∀ v, (f v).tie = 0 :=
    ⟨fun v => { score := v, id := v }, fun _ => rfl, fun _ => rfl⟩
  have hfall : Falling ((ElementIDs.sort l).map f) := by
    unfold Falling
    rw [List.pairwise_map]
    exact hsorted.imp fun h => by unfold epos pos; rw [hf1, hf1, hf2, hf2]; omega
  have hs := sel_flatMap ht hfall (by
    intro e he
    obtain ⟨v, hv, rfl⟩ := List.mem_map.1 he
    exact pos_le_top (by rw [hf1]; exact hmem v hv) (by rw [hf2]; decide))
  have hsel : ∀ s ∈ segs, (sel s ((ElementIDs.sort l).map f)).map (·.score) = selScores s (ElementIDs.sort l) := by
    intro s hs
    unfold sel selScores
    rw [List.filter_map, List.map_map]
    have : (fun x => x.score) ∘ f = id := funext hf1
    rw [this, List.map_id]
    apply List.filter_congr
    intro v hv
    have := inRange_aligned (ha s hs) (e := f v) (by rw [hf2]; decide)
    rw [hf1] at this
    rw [Bool.eq_iff_iff, decide_eq_true_eq, Function.comp_apply, decide_eq_true_eq]
    exact this
  have hs2 := congrArg (List.map (·.score)) hs
  rw [List.map_flatMap, List.map_map] at hs2
  have : ((fun x : Element => x.score) ∘ f) = id := funext hf1
  rw [this, List.map_id] at hs2
  rw [flatMap_congr' (g := fun s => selScores s (ElementIDs.sort l)) hsel] at hs2
  rw [splitScores_eq ht ha hl, filterMap_flatMap_eq]
  refine Eq.trans ?_ hs2
  rw [← zipIdx_flatMap _ segs 0]
  apply flatMap_congr'
  rintro ⟨s, i⟩ _
  split
  · rename_i h0; simp only [] at h0; simp [h0]
  · simp

theorem assign_spec : ∀ {ms : List (Nat × List Nat)} {L : List IndexUpdate}, ms.flatMap (·.2) = L.map (·.1) →
    (assignUpdates ms L).map (·.1) = ms.map (·.1) ∧ (assignUpdates ms L).flatMap (·.2) = L ∧
    ∀ a ∈ assignUpdates ms L, ∃ m ∈ ms, a.1 = m.1 ∧ a.2.map (·.1) = m.2
  | [], L, h => by
    have : L = [] := by simpa using h.symm
    subst this
    simp [assignUpdates]
  | m :: ms, L, h => by
    rw [List.flatMap_cons] at h
    have hlen : m.2.length ≤ L.length := by
      have := congrArg List.length h
      simp at this; omega
    have h1 : (L.take m.2.length).map (·.1) = m.2 := by
      rw [List.map_take, ← h]; simp
    have h2 : ms.flatMap (·.2) = (L.drop m.2.length).map (·.1) := by
      rw [List.map_drop, ← h]; simp
    obtain ⟨i1, i2, i3⟩ := assign_spec h2
    unfold assignUpdates
    refine ⟨by simp [i1], by rw [List.flatMap_cons, i2]; simp, ?_⟩
    intro a ha
    rcases List.mem_cons.1 ha with rfl | ha
    · exact ⟨m, by simp, rfl, h1⟩
    · obtain ⟨m', h3, h4⟩ := i3 a ha
      exact ⟨m', by simp [h3], h4⟩

/-- One update of an index element. -/
def setE (now : Nat) (u : IndexUpdate) (e : Element) : Element :=
  if e.score = u.1 then { e with tie := u.2 % 2 ^ 32, updated := now } else e

theorem setE_score (now : Nat) (u : IndexUpdate) (e : Element) : (setE now u e).score = e.score := by
  unfold setE; split <;> rfl
theorem setE_id (now : Nat) (u : IndexUpdate) (e : Element) : (setE now u e).id = e.id := by
  unfold setE; split <;> rfl

/-- All updates of an index element. -/
def setAll (now : Nat) (U : List IndexUpdate) (e : Element) : Element := U.foldl (fun e u => setE now u e) e

theorem setAll_score (now : Nat) (U : List IndexUpdate) : ∀ e, (setAll now U e).score = e.score := by
  induction U with
  | nil => intro e; rfl
  | cons u U ih => intro e; show (setAll now U (setE now u e)).score = _; rw [ih, setE_score]
theorem setAll_id (now : Nat) (U : List IndexUpdate) : ∀ e, (setAll now U e).id = e.id := by
  induction U with
  | nil => intro e; rfl
  | cons u U ih => intro e; show (setAll now U (setE now u e)).id = _; rw [ih, setE_id]

theorem setAll_absent {now : Nat} {U : List IndexUpdate} : ∀ {e : Element}, (∀ u ∈ U, u.1 ≠ e.score) →
    setAll now U e = e := by
  induction U with
  | nil => intro e _; rfl
  | cons u U ih =>
    intro e h
    show setAll now U (setE now u e) = e
    have : setE now u e = e := by
      unfold setE
      rw [if_neg fun he => h u (by simp) he.symm]
    rw [this]
    exact ih fun v hv => h v (by simp [hv])

/-- With at most one update for every element the result is determined by membership. -/
theorem setAll_mem {now : Nat} {U : List IndexUpdate} (hU : (U.map (·.1)).Nodup) {u : IndexUpdate} (hu : u ∈ U)
    {e : Element} (he : e.score = u.1) : setAll now U e = { e with tie := u.2 % 2 ^ 32, updated := now } := by
  induction U generalizing e with
  | nil => simp at hu
  | cons v U ih =>
    rw [List.map_cons, List.nodup_cons] at hU
    show setAll now U (setE now v e) = _
    rcases List.mem_cons.1 hu with rfl | hu
    · have : setE now u e = { e with tie := u.2 % 2 ^ 32, updated := now } := by unfold setE; rw [if_pos he]
      rw [this]
      apply setAll_absent
      intro w hw hws
      simp only [] at hws
      exact hU.1 (List.mem_map.2 ⟨w, hw, by rw [hws, he]⟩)
    · have : setE now v e = e := by
        unfold setE
        rw [if_neg]
        intro hev
        exact hU.1 (List.mem_map.2 ⟨u, hu, by rw [← he, hev]⟩)
      rw [this]
      exact ih hU.2 hu he

theorem setAll_congr {now : Nat} {U V : List IndexUpdate} (hU : (U.map (·.1)).Nodup) (hV : (V.map (·.1)).Nodup)
    {e : Element} (h : ∀ t, (e.score, t) ∈ U ↔ (e.score, t) ∈ V) : setAll now U e = setAll now V e := by
  by_cases hx : ∃ t, (e.score, t) ∈ U
  · obtain ⟨t, ht⟩ := hx
    rw [setAll_mem hU ht rfl, setAll_mem hV ((h t).1 ht) rfl]
  · rw [setAll_absent, setAll_absent]
    · intro u hu he
      exact hx ⟨u.2, (h u.2).2 (by rw [← he]; exact hu)⟩
    · intro u hu he
      exact hx ⟨u.2, by rw [← he]; exact hu⟩

theorem setSegment_eq {now : Nat} {u : IndexUpdate} : ∀ {l : List Element}, (l.map (·.score)).Nodup →
    setSegment now u l = l.map (setE now u)
  | [], _ => rfl
  | e :: l, h => by
    rw [List.map_cons, List.nodup_cons] at h
    unfold setSegment
    rw [List.map_cons]
    by_cases he : e.score = u.1
    · rw [if_pos (by simpa using he)]
      have h1 : setE now u e = { e with tie := u.2 % 2 ^ 32, updated := now } := by unfold setE; rw [if_pos he]
      rw [h1]
      congr 1
      conv => lhs; rw [← List.map_id l]
      apply List.map_congr_left
      intro x hx
      unfold setE
      rw [if_neg]
      · rfl
      · intro hxe
        exact h.1 (List.mem_map.2 ⟨x, hx, by rw [hxe, he]⟩)
    · rw [if_neg (by simpa using he)]
      have h1 : setE now u e = e := by unfold setE; rw [if_neg he]
      rw [h1, setSegment_eq h.2]

theorem setSegments_eq {now : Nat} : ∀ {U : List IndexUpdate} {l : List Element}, (l.map (·.score)).Nodup →
    U.foldl (fun l u => setSegment now u l) l = l.map (setAll now U)
  | [], l, _ => by
    have : setAll now [] = id := rfl
    rw [this, List.map_id]; rfl
  | u :: U, l, h => by
    rw [List.foldl_cons, setSegment_eq h, setSegments_eq]
    · rw [List.map_map]; rfl
    · rw [List.map_map]
      have : (fun x => x.score) ∘ setE now u = fun x : Element => x.score := funext (setE_score now u)
      rw [this]; exact h

theorem foldl_modifyAt {f : List IndexUpdate → Seg → Seg} : ∀ {es : List (Nat × List IndexUpdate)} {segs : List Seg},
    (es.map (·.1)).Nodup → ∀ j, (es.foldl (fun segs m => if m.2.isEmpty then segs else modifyAt (f m.2) m.1 segs) segs)[j]? =
      (segs[j]?).map fun s => match es.find? (fun m => m.1 == j) with
        | some m => if m.2.isEmpty then s else f m.2 s
        | none => s
  | [], segs, _, j => by simp
  | m :: es, segs, h, j => by
    rw [List.map_cons, List.nodup_cons] at h
    rw [List.foldl_cons, foldl_modifyAt h.2 j, List.find?_cons]
    by_cases hj : m.1 = j
    · have hn : es.find? (fun m => m.1 == j) = none := by
        rw [List.find?_eq_none]
        intro x hx hxj
        exact h.1 (List.mem_map.2 ⟨x, hx, by rw [hj]; simpa using hxj⟩)
      rw [hn]
      simp only [hj, beq_self_eq_true]
      split
      · rfl
      · rw [modifyAt_getElem?]
        simp [Function.comp_def]
    · have : (m.1 == j) = false := by simpa using hj
      simp only [this]
      have hg : (if m.2.isEmpty then segs else modifyAt (f m.2) m.1 segs)[j]? = segs[j]? := by
        split
        · rfl
        · rw [modifyAt_getElem?]
          simp [Ne.symm hj]
      rw [hg]

theorem sorted_eq {l : List Nat} (h : l.Pairwise fun a b => b ≤ a) : ElementIDs.sort l = l :=
  List.Perm.eq_of_pairwise (le := fun a b => b ≤ a) (fun _ _ _ _ h1 h2 => Nat.le_antisymm h2 h1)
    (ElementIDs.sort_sorted l) h (ElementIDs.sort_perm l)

/-- `updateIndexElements` sets the segment of all entries that are updated. -/
theorem updateIndexElements_spec {now : Nat} {I : List Seg} {U : List IndexUpdate} (h : IsIndex I)
    (hU : (U.map (·.1)).Nodup) (h64 : ∀ u ∈ U, u.1 < 2 ^ 64) (hnow : now < 2 ^ 32 - 1) (hc : Counted I) :
    let I' := updateIndexElements now I U
    SameRanges I' I ∧ allElems I' = (allElems I).map (setAll now U) ∧ Counted I' ∧ IsIndex I' := by
  unfold updateIndexElements
  split
  · rename_i he
    have : U = [] := List.isEmpty_iff.1 he
    subst this
    have h1 : setAll now [] = id := rfl
    refine ⟨SameRanges.refl _, ?_, hc, h⟩
    rw [h1, List.map_id]
  · unfold splitIndexUpdates
    simp only []
    generalize hL : goSort (fun a b : IndexUpdate => decide (b.1 ≤ a.1)) U = L
    have hLp : L.Perm U := hL ▸ goSort_perm _ U
    have hLs : L.Pairwise (fun a b => b.1 ≤ a.1) := by
      have := goSort_sorted (le := fun a b : IndexUpdate => decide (b.1 ≤ a.1))
        (by intro a b c; simp; omega) (by intro a b; simp; omega) U
      rw [hL] at this
      exact this.imp fun h => by simpa using h
    have hsort : ElementIDs.sort (L.map (·.1)) = L.map (·.1) := sorted_eq (by rw [List.pairwise_map]; exact hLs)
    have hL64 : ∀ v ∈ L.map (·.1), v < 2 ^ 64 := by
      intro v hv
      obtain ⟨u, hu, rfl⟩ := List.mem_map.1 hv
      exact h64 u (hLp.mem_iff.1 hu)
    have hLn : (L.map (·.1)).Nodup := (hLp.map _).nodup_iff.2 hU
    have hfl := splitScores_flatten h.ok.tiles h.aligned hL64
    rw [hsort] at hfl
    obtain ⟨a1, a2, a3⟩ := assign_spec hfl
    have hms := splitScores_eq h.ok.tiles h.aligned hL64
    rw [hsort] at hms
    generalize splitScores I (L.map (·.1)) = ms at *
    -- the routes have different positions
    have hidx : (ms.map (·.1)).Nodup := by
      rw [hms]
      have : ∀ (segs : List Seg) (k : Nat), (((segs.zipIdx k).filterMap fun p =>
          if selScores p.1 (L.map (·.1)) = [] then none
          else some (p.2, selScores p.1 (L.map (·.1)))).map (·.1)).Nodup ∧
          ∀ i ∈ (((segs.zipIdx k).filterMap fun p =>
            if selScores p.1 (L.map (·.1)) = [] then none
            else some (p.2, selScores p.1 (L.map (·.1)))).map (·.1)), k ≤ i := by
        intro segs
        induction segs with
        | nil => intro k; simp
        | cons s ss ih =>
          intro k
          obtain ⟨i1, i2⟩ := ih (k + 1)
          rw [List.zipIdx_cons, List.filterMap_cons]
          simp only []
          split
          · exact ⟨i1, fun i hi => by have := i2 i hi; omega⟩
          · rename_i b hb
            split at hb
            · simp at hb
            · simp only [Option.some.injEq] at hb
              subst hb
              rw [List.map_cons, List.nodup_cons]
              refine ⟨⟨fun hm => by have := i2 _ hm; simp only [] at this; omega, i1⟩, ?_⟩
              intro i hi
              rcases List.mem_cons.1 hi with rfl | hi
              · exact Nat.le_refl _
              · have := i2 i hi; omega
      exact (this _ _).1
    have hsel : ∀ m ∈ ms, ∃ s, I[m.1]? = some s ∧ m.2 = selScores s (L.map (·.1)) := by
      intro m hm
      rw [hms] at hm
      obtain ⟨⟨s, i⟩, hsi, heq⟩ := List.mem_filterMap.1 hm
      split at heq
      · simp at heq
      · simp only [Option.some.injEq] at heq
        subst heq
        exact ⟨s, (elemsAt_zipIdx hsi).1, rfl⟩
    generalize hes : assignUpdates ms L = es at *
    let g : Nat → Seg → Seg := fun j s => match es.find? (fun m => m.1 == j) with
      | some m => if m.2.isEmpty then s else applyUpdates now m.2 s
      | none => s
    have hI' : es.foldl (fun segs m => if m.2.isEmpty then segs else modifyAt (applyUpdates now m.2) m.1 segs) I =
        mapFrom g 0 I := by
      apply List.ext_getElem?
      intro j
      rw [foldl_modifyAt (f := applyUpdates now) (by rw [a1]; exact hidx), mapFrom_getElem?, Nat.zero_add]
    rw [hI']
    have hsame : SameRanges (mapFrom g 0 I) I := by
      apply mapFrom_same
      intro i s
      simp only [g]
      split
      · split
        · exact SameRange.refl s
        · exact ⟨rfl, rfl, rfl, rfl, rfl⟩
      · exact SameRange.refl s
    have hel : ∀ j s, I[j]? = some s → (g j s).elems = s.elems.map (setAll now U) ∧
        ((g j s).n = (g j s).elems.length) := by
      intro j s hj
      have hs := List.mem_of_getElem? hj
      have hnd := h.nodup_scores hs
      -- all updates for this segment are the ones assigned to it
      have hmem : ∀ e ∈ s.elems, ∀ t, (e.score, t) ∈ U → ∃ m ∈ es, m.1 = j ∧ (e.score, t) ∈ m.2 := by
        intro e he t ht
        have ht' := hLp.mem_iff.2 ht
        rw [← a2] at ht'
        obtain ⟨m, hm, htm⟩ := List.mem_flatMap.1 ht'
        obtain ⟨r, hr, r1, r2⟩ := a3 m hm
        obtain ⟨s', hs', r3⟩ := hsel r hr
        have : e.score ∈ r.2 := by rw [← r2]; exact List.mem_map.2 ⟨_, htm, rfl⟩
        rw [r3, mem_selScores] at this
        have hs'm := List.mem_of_getElem? hs'
        have hst := h.ok.storable e (mem_allElems.2 ⟨s, hs, he⟩)
        have hin' := (inRange_aligned (h.aligned s' hs'm) hst.tie).2 this.2
        have heq := tiles_unique h.ok.tiles hs'm hs hin' (h.ok.inRange s hs e he)
        subst heq
        refine ⟨m, hm, ?_, htm⟩
        rw [r1]
        exact Lists.getElem?_unique h.ok hs' hj rfl
      have hback : ∀ m ∈ es, ∀ u ∈ m.2, u ∈ U := by
        intro m hm u hu
        refine hLp.mem_iff.1 ?_
        rw [← a2]; exact List.mem_flatMap.2 ⟨m, hm, hu⟩
      simp only [g]
      cases hf : es.find? (fun m => m.1 == j) with
      | none =>
        simp only []
        have hnone : ∀ e ∈ s.elems, ∀ u ∈ U, u.1 ≠ e.score := by
          intro e he u hu heq
          obtain ⟨m, hm, hmj, -⟩ := hmem e he u.2 (by rw [← heq]; exact hu)
          rw [List.find?_eq_none] at hf
          exact hf m hm (by simpa using hmj)
        refine ⟨?_, hc s hs⟩
        conv => lhs; rw [← List.map_id s.elems]
        apply List.map_congr_left
        intro e he
        exact (setAll_absent (hnone e he)).symm
      | some m =>
        have hm := List.mem_of_find?_eq_some hf
        have hmj : m.1 = j := by simpa using List.find?_some hf
        have huniq : ∀ m' ∈ es, m'.1 = j → m' = m := by
          intro m' hm' hj'
          have hn : (es.map (·.1)).Nodup := by rw [a1]; exact hidx
          by_cases hmm : m' = m
          · exact hmm
          · exfalso
            obtain ⟨i1, hi1⟩ := List.mem_iff_getElem?.1 hm
            obtain ⟨i2, hi2⟩ := List.mem_iff_getElem?.1 hm'
            have h1 : (es.map (·.1))[i1]? = some j := by simp [hi1, hmj]
            have h2 : (es.map (·.1))[i2]? = some j := by simp [hi2, hj']
            have := (List.getElem?_inj (by
              rw [List.getElem?_eq_some_iff] at h1; exact h1.1) hn).1 (h1.trans h2.symm)
            subst this
            rw [hi1] at hi2; simp at hi2; exact hmm hi2.symm
        simp only []
        have hiff : ∀ e ∈ s.elems, ∀ t, (e.score, t) ∈ m.2 ↔ (e.score, t) ∈ U := by
          intro e he t
          constructor
          · exact hback m hm _
          · intro ht
            obtain ⟨m', hm', hj', ht'⟩ := hmem e he t ht
            rw [huniq m' hm' hj'] at ht'
            exact ht'
        split
        · rename_i hem
          have hem : m.2 = [] := List.isEmpty_iff.1 hem
          refine ⟨?_, hc s hs⟩
          conv => lhs; rw [← List.map_id s.elems]
          apply List.map_congr_left
          intro e he
          refine (setAll_absent ?_).symm
          intro u hu heq
          have heq : u.1 = e.score := heq
          have := (hiff e he u.2).2 (by rw [← heq]; exact hu)
          rw [hem] at this; simp at this
        · refine ⟨?_, rfl⟩
          unfold applyUpdates Segment.replace
          simp only []
          rw [setSegments_eq hnd]
          apply List.map_congr_left
          intro e he
          refine setAll_congr ?_ hU (hiff e he)
          obtain ⟨r, hr, r1, r2⟩ := a3 m hm
          obtain ⟨s', hs', r3⟩ := hsel r hr
          rw [r2, r3]
          exact hLn.sublist List.filter_sublist
    have hmap : ∀ (l : List Seg) (k : Nat), (∀ j s, l[j]? = some s → (g (k + j) s).elems = s.elems.map (setAll now U)) →
        allElems (mapFrom g k l) = (allElems l).map (setAll now U) := by
      intro l
      induction l with
      | nil => intro k _; rfl
      | cons s ss ih =>
        intro k hk
        unfold mapFrom
        have h0 := hk 0 s rfl
        rw [Nat.add_zero] at h0
        have := ih (k + 1) fun j s hj => by
          have := hk (j + 1) s (by simpa using hj)
          rw [show k + 1 + j = k + (j + 1) by omega]; exact this
        unfold allElems at this ⊢
        rw [List.flatMap_cons, List.flatMap_cons, List.map_append, this, h0]
    have hall := hmap I 0 fun j s hj => by rw [Nat.zero_add]; exact (hel j s hj).1
    have hmemI : ∀ s' ∈ mapFrom g 0 I, ∃ s ∈ I, SameRange s' s ∧ s'.elems = s.elems.map (setAll now U) ∧
        s'.n = s'.elems.length := by
      intro s' hs'
      obtain ⟨j, hj⟩ := List.mem_iff_getElem?.1 hs'
      rw [mapFrom_getElem?, Nat.zero_add] at hj
      cases ht : I[j]? with
      | none => simp [ht] at hj
      | some t =>
        simp only [ht, Option.map_some, Option.some.injEq] at hj
        subst hj
        refine ⟨t, List.mem_of_getElem? ht, ?_, (hel j t ht).1, (hel j t ht).2⟩
        rcases Lists.sameRanges_getElem? hsame j with ⟨e1, -⟩ | ⟨a, b, e1, e2, e3⟩
        · rw [mapFrom_getElem?, ht] at e1; simp at e1
        · rw [mapFrom_getElem?, ht] at e1
          rw [ht] at e2
          simp only [Option.map_some, Option.some.injEq, Nat.zero_add] at e1 e2
          rw [e1, e2]; exact e3
    have hid : (setAll now U · |>.id) = fun e : Element => e.id := funext (setAll_id now U)
    have hstor : ∀ e, Storable e → Storable (setAll now U e) := by
      intro e he
      by_cases hx : ∃ t, (e.score, t) ∈ U
      · obtain ⟨t, ht⟩ := hx
        rw [setAll_mem hU ht rfl]
        exact ⟨he.score, he.id, Nat.mod_lt _ (by decide), hnow⟩
      · rw [setAll_absent]
        · exact he
        · intro u hu heq
          exact hx ⟨u.2, by rw [← heq]; exact hu⟩
    have hal := aligned_of_same hsame h.aligned
    refine ⟨hsame, hall, fun s hs => (hmemI s hs).choose_spec.2.2.2, ?_, ?_, hal⟩
    · refine segsOK_of_same h.ok hsame ?_ ?_ ?_ ?_
      · intro s' hs' e' he'
        obtain ⟨s, hs, r1, r2, -⟩ := hmemI s' hs'
        rw [r2] at he'
        obtain ⟨e, he, rfl⟩ := List.mem_map.1 he'
        have hst := h.ok.storable e (mem_allElems.2 ⟨s, hs, he⟩)
        rw [r1.inRange, inRange_aligned (h.aligned s hs) (hstor e hst).tie, setAll_score,
          ← inRange_aligned (h.aligned s hs) hst.tie]
        exact h.ok.inRange s hs e he
      · intro s' hs'
        obtain ⟨s, hs, r1, r2, -⟩ := hmemI s' hs'
        rw [r2]
        unfold Spec.Ranked
        rw [List.pairwise_map]
        have hnd := h.nodup_scores hs
        have hnd' : s.elems.Pairwise fun a b => a.score ≠ b.score := List.Pairwise.of_map _ (fun _ _ h => h) hnd
        refine (hnd'.and (h.ok.ranked s hs)).imp ?_
        rintro a b ⟨h1, h2⟩ h3
        apply h2
        unfold RanksAbove at h3 ⊢
        rw [setAll_score, setAll_score] at h3
        omega
      · have := h.ok.distinct
        unfold DistinctIDs at this ⊢
        rw [hall, List.map_map]
        have hid' : (fun x : Element => x.id) ∘ setAll now U = fun x => x.id := hid
        rw [hid']; exact this
      · rw [hall]
        intro e' he'
        obtain ⟨e, he, rfl⟩ := List.mem_map.1 he'
        exact hstor e (h.ok.storable e he)
    · rw [hall]
      intro e' he'
      obtain ⟨e, he, rfl⟩ := List.mem_map.1 he'
      rw [setAll_score, setAll_id]
      exact h.byID e he

end Segments
end RankDB

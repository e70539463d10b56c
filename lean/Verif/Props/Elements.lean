import Verif.Proofs.Sort
/-
Properties C01-C09, C13 and C48: rankings and slices of elements.
The specification used here is `Verif/Spec/Ranking.lean`.
-/
namespace RankDB.Props
open Spec

/-! ### C01 Ranking order is a strict total order -/

/-- The comparison in the code is the documented order. -/
theorem C01_above_is_documented_order (a b : Element) : a.above b = true ↔ RanksAbove a b :=
  above_iff a b

/-- The order is irreflexive, transitive, and decides all elements with different IDs. -/
theorem C01_strict_total_order :
    (∀ a : Element, a.above a = false) ∧
    (∀ a b c : Element, a.above b = true → b.above c = true → a.above c = true) ∧
    (∀ a b : Element, a.id ≠ b.id → (a.above b = true ∨ b.above a = true)) ∧
    (∀ a b : Element, a.above b = true → b.above a = false) := by
  refine ⟨fun a => (above_false_iff a a).2 (ranksAbove_irrefl a), ?_, ?_, ?_⟩
  · intro a b c h1 h2
    rw [above_iff] at *
    exact ranksAbove_trans h1 h2
  · intro a b h
    rw [above_iff, above_iff]
    exact ranksAbove_total h
  · intro a b h
    rw [above_iff] at h
    rw [above_false_iff]
    exact ranksAbove_asymm h

/-- Elements with distinct IDs have exactly one ranking: every two ranked arrangements agree. -/
theorem C01_ranking_unique (l l₁ l₂ : List Element) (hd : DistinctIDs l)
    (h₁ : l₁.Perm l) (h₂ : l₂.Perm l) (r₁ : Ranked l₁) (r₂ : Ranked l₂) : l₁ = l₂ :=
  ranked_perm_eq (Spec.DistinctIDs.perm h₁.symm hd) r₁ r₂ (h₁.trans h₂.symm)

/-- A ranking exists for every collection, computed by the reference algorithm. -/
theorem C01_ranking_exists (l : List Element) : (ranking l).Perm l ∧ Ranked (ranking l) :=
  ⟨ranking_perm l, ranking_ranked l⟩

example : DistinctIDs [⟨5, 1, [], 0, 7⟩, ⟨5, 2, [], 0, 7⟩, ⟨5, 3, [], 1, 9⟩] ∧
    ranking [⟨5, 1, [], 0, 7⟩, ⟨5, 2, [], 0, 7⟩, ⟨5, 3, [], 1, 9⟩] =
      [⟨5, 3, [], 1, 9⟩, ⟨5, 1, [], 0, 7⟩, ⟨5, 2, [], 0, 7⟩] := by decide

/-! ### C02 Single insert -/

theorem C02_insert (l : List Element) (e : Element) (h : Ranked l) :
    Ranked (Elements.insert l e).1 ∧ (Elements.insert l e).1.Perm (e :: l) ∧
    (Elements.insert l e).1[(Elements.insert l e).2]? = some e :=
  ⟨Elements.insert_ranked l e h, Elements.insert_perm l e, Elements.insert_idx l e⟩

example : Ranked [⟨9, 1, [], 0, 7⟩, ⟨5, 2, [], 0, 7⟩] ∧
    Elements.insert [⟨9, 1, [], 0, 7⟩, ⟨5, 2, [], 0, 7⟩] ⟨7, 3, [], 0, 7⟩ =
      ([⟨9, 1, [], 0, 7⟩, ⟨7, 3, [], 0, 7⟩, ⟨5, 2, [], 0, 7⟩], 1) := by decide

/-! ### C03 Merge -/

theorem C03_merge (cap : Nat) (sliced : Bool) (l ins : List Element) (hl : Ranked l)
    (hi : Ranked ins) :
    Ranked (Elements.merge cap sliced l ins) ∧ (Elements.merge cap sliced l ins).Perm (l ++ ins) :=
  ⟨Elements.merge_ranked cap sliced l ins hl hi, Elements.merge_perm cap sliced l ins⟩

/-- Capacity and the sliced flag are not observable. -/
theorem C03_merge_path_independent (cap cap' : Nat) (sliced sliced' : Bool) (l ins : List Element)
    (hi : Ranked ins) (hd : DistinctIDs ins) :
    Elements.merge cap sliced l ins = Elements.merge cap' sliced' l ins := by
  rw [Elements.merge_eq_mergeAlloc _ _ _ _ (ranked_strict hd hi),
    Elements.merge_eq_mergeAlloc _ _ _ _ (ranked_strict hd hi)]

example : let l : List Element := [⟨9, 1, [], 0, 7⟩, ⟨5, 2, [], 0, 7⟩]
    let ins : List Element := [⟨7, 3, [], 0, 7⟩, ⟨6, 4, [], 0, 7⟩, ⟨1, 5, [], 0, 7⟩]
    Ranked l ∧ Ranked ins ∧ DistinctIDs ins ∧ Elements.merge 16 false l ins =
      [⟨9, 1, [], 0, 7⟩, ⟨7, 3, [], 0, 7⟩, ⟨6, 4, [], 0, 7⟩, ⟨5, 2, [], 0, 7⟩, ⟨1, 5, [], 0, 7⟩] := by
  decide

/-! ### C04 Deduplicate

The documentation says that of duplicates with the same update time the one with the highest
score is kept. The code keeps the one with the *lowest* score. The partial theorem states what
the code does; the negation gives a witness against the documented rule. -/

/-- One element per ID, the latest one, ranked, independent of the unstable sort.
Partial: among equally late duplicates the documented choice (highest score) is not made; the
element with the lowest score is kept instead. -/
theorem C04_deduplicate_partial (l byID : List Element) (hp : byID.Perm l)
    (hs : byID.Pairwise fun a b => a.id ≤ b.id) :
    let r := Elements.deduplicateFrom byID
    Ranked r.1 ∧ DistinctIDs r.1 ∧ (∀ e ∈ r.1, e ∈ l) ∧
    (∀ e ∈ l, ∃ k ∈ r.1, k.id = e.id ∧
      (e.updated < k.updated ∨ (e.updated = k.updated ∧ k.score ≤ e.score))) ∧
    (r.2 = false ↔ DistinctIDs l) :=
  Elements.deduplicateFrom_spec hp hs

/-- The documented rule "highest score is kept" fails. -/
theorem C04_deduplicate_keeps_lowest_score :
    ¬ ∀ l : List Element, ∀ e ∈ l, ∃ k ∈ (Elements.deduplicate l).1, k.id = e.id ∧
      (e.updated < k.updated ∨ (e.updated = k.updated ∧ e.score ≤ k.score)) := by
  intro h
  have hk := Elements.deduplicate_spec [⟨5, 1, [], 0, 7⟩, ⟨6, 1, [], 0, 7⟩]
  obtain ⟨k, hk1, hk2, hk3⟩ := h [⟨5, 1, [], 0, 7⟩, ⟨6, 1, [], 0, 7⟩] ⟨6, 1, [], 0, 7⟩ (by simp)
  obtain ⟨k', hk1', hk2', hk3'⟩ := hk.2.2.2.1 ⟨5, 1, [], 0, 7⟩ (by simp)
  have heq : k = k' := Spec.DistinctIDs.eq_of_id hk.2.1 hk1 hk1' (by rw [hk2, hk2'])
  subst heq
  have hm := hk.2.2.1 k hk1
  simp only [List.mem_cons, List.not_mem_nil, or_false] at hm
  rcases hm with rfl | rfl <;> simp at hk3 hk3'

/-- The set of (ID, update time, score) that survives does not depend on the unstable sort. -/
theorem C04_deduplicate_sort_independent (l b₁ b₂ : List Element) (h₁ : b₁.Perm l)
    (h₂ : b₂.Perm l) (s₁ : b₁.Pairwise fun a b => a.id ≤ b.id)
    (s₂ : b₂.Pairwise fun a b => a.id ≤ b.id) :
    ∀ e ∈ (Elements.deduplicateFrom b₁).1, ∃ k ∈ (Elements.deduplicateFrom b₂).1,
      k.id = e.id ∧ k.updated = e.updated ∧ k.score = e.score := by
  intro e he
  have r₁ := Elements.deduplicateFrom_spec h₁ s₁
  have r₂ := Elements.deduplicateFrom_spec h₂ s₂
  obtain ⟨k, hk, hk1, hk2⟩ := r₂.2.2.2.1 e (r₁.2.2.1 e he)
  obtain ⟨e', he', he1, he2⟩ := r₁.2.2.2.1 k (r₂.2.2.1 k hk)
  have : e' = e := Spec.DistinctIDs.eq_of_id r₁.2.1 he' he (by omega)
  subst this
  exact ⟨k, hk, by omega, by omega, by omega⟩

/-- C04: the check for duplicates finds them, and nothing else. -/
theorem C04_hasDuplicates (l : List Element) : Elements.hasDuplicates l = true ↔ ¬ DistinctIDs l := by
  have hn : (uniq (Elements.ids l)).length = l.length ↔ DistinctIDs l := by
    have hl : (Elements.ids l).length = l.length := List.length_map _
    rw [← hl]
    exact ⟨fun h => nodup_of_uniq_length h, fun h => congrArg List.length (uniq_eq_self h)⟩
  unfold Elements.hasDuplicates
  rw [bne_iff_ne, Ne, hn]

example : Elements.hasDuplicates [⟨5, 1, [], 0, 0⟩, ⟨4, 2, [], 0, 0⟩, ⟨3, 1, [], 0, 0⟩] = true ∧
    Elements.hasDuplicates [⟨5, 1, [], 0, 0⟩, ⟨5, 2, [], 0, 0⟩] = false := by decide +kernel

/-- Deduplicating elements with distinct IDs only ranks them. -/
theorem C04_deduplicate_distinct (l : List Element) (hd : DistinctIDs l) :
    (Elements.deduplicate l).1 = ranking l := by
  have h := Elements.deduplicate_spec l
  refine eq_ranking hd h.1 ?_
  refine (List.perm_ext_iff_of_nodup (Spec.DistinctIDs.nodup h.2.1) (Spec.DistinctIDs.nodup hd)).2 ?_
  intro e
  refine ⟨h.2.2.1 e, fun he => ?_⟩
  obtain ⟨k, hk, hid, -⟩ := h.2.2.2.1 e he
  rwa [← Spec.DistinctIDs.eq_of_id hd (h.2.2.1 k hk) he hid]

example : ([⟨6, 1, [], 0, 7⟩, ⟨5, 1, [], 0, 8⟩, ⟨6, 2, [], 0, 7⟩] : List Element).Pairwise
      (fun a b => a.id ≤ b.id) ∧
    (Elements.deduplicateFrom [⟨6, 1, [], 0, 7⟩, ⟨5, 1, [], 0, 8⟩, ⟨6, 2, [], 0, 7⟩]).2 = true := by
  decide

/-! ### C05 MergeDeduplicate -/

theorem C05_mergeDeduplicate (l ins : List Element) (hl : DistinctIDs l) (hi : DistinctIDs ins)
    (hr : Ranked l) :
    let r := Elements.mergeDeduplicate l ins
    Ranked r ∧ DistinctIDs r ∧
    ∀ e, e ∈ r ↔ e ∈ ins ∨ (e ∈ l ∧ ∀ a ∈ ins, a.id ≠ e.id) := by
  simp only [Elements.mergeDeduplicate]
  split
  · rename_i h
    simp only [beq_iff_eq, List.length_eq_zero_iff] at h
    subst h
    exact ⟨hr, hl, by simp⟩
  · have hp := sortSlice_perm (ins ++ l.filter fun e => !(ins.any (·.id == e.id)))
    refine ⟨sortSlice_ranked _, ?_, ?_⟩
    · refine Spec.DistinctIDs.perm hp.symm ?_
      unfold DistinctIDs at *
      rw [List.map_append, List.nodup_append]
      refine ⟨hi, List.Nodup.sublist (List.filter_sublist.map _) hl, ?_⟩
      intro a ha b hb hab
      simp only [List.mem_map, List.mem_filter, Bool.not_eq_true', List.any_eq_false, beq_iff_eq] at ha hb
      obtain ⟨x, hx, rfl⟩ := ha
      obtain ⟨y, ⟨hy, hy2⟩, rfl⟩ := hb
      exact hy2 x hx hab
    · intro e
      rw [hp.mem_iff]
      simp only [List.mem_append, List.mem_filter, Bool.not_eq_true', List.any_eq_false, beq_iff_eq]

example : DistinctIDs [⟨6, 1, [], 0, 7⟩, ⟨5, 2, [], 0, 8⟩] ∧ DistinctIDs [⟨1, 2, [], 0, 9⟩] ∧
    Ranked [⟨6, 1, [], 0, 7⟩, ⟨5, 2, [], 0, 8⟩] := by decide

/-! ### C06 Add, Update, Delete -/

/-- `Delete` removes exactly the ID, or reports not-found and there is nothing to remove. -/
theorem C06_delete (l : List Element) (id : Nat) (hd : DistinctIDs l) (hr : Ranked l) :
    match Elements.delete l id with
    | none => ∀ e ∈ l, e.id ≠ id
    | some l' => (∃ e ∈ l, e.id = id) ∧ Ranked l' ∧ DistinctIDs l' ∧
        ∀ e, e ∈ l' ↔ e ∈ l ∧ e.id ≠ id := by
  split
  · rename_i h
    exact Elements.delete_none.1 h
  · rename_i l' h
    have h1 := Elements.delete_some hd h
    subst h1
    refine ⟨Elements.delete_isSome.1 (by simp [h]), List.Pairwise.filter _ hr,
      List.Nodup.sublist (List.filter_sublist.map _) hd, by simp⟩

/-- The stored element is the given one, with the clock filled in if the update time is zero. -/
def stored (now : Nat) (e : Element) : Element :=
  { e with updated := if e.updated = 0 then now else e.updated }

theorem touch_eq_stored (now : Nat) (e : Element) : Elements.touch now e = stored now e := by
  unfold Elements.touch stored
  split <;> simp_all

theorem insert_filter_spec (now : Nat) (l : List Element) (e : Element) (hd : DistinctIDs l)
    (hr : Ranked l) :
    let r := Elements.insert (l.filter fun a => a.id != e.id) (Elements.touch now e)
    Ranked r.1 ∧ DistinctIDs r.1 ∧
    (∀ a, a ∈ r.1 ↔ a = stored now e ∨ (a ∈ l ∧ a.id ≠ e.id)) ∧
    r.2 = rankFromTop r.1 (stored now e) ∧
    r.1.length - r.2 - 1 = rankFromBottom r.1 (stored now e) := by
  intro r
  have hf : Ranked (l.filter fun a => a.id != e.id) := List.Pairwise.filter _ hr
  have hp := Elements.insert_perm (l.filter fun a => a.id != e.id) (Elements.touch now e)
  have hrk : Ranked r.1 := Elements.insert_ranked _ _ hf
  have hdi : DistinctIDs r.1 := by
    refine Spec.DistinctIDs.perm hp.symm ?_
    unfold DistinctIDs at *
    rw [List.map_cons, List.nodup_cons, Elements.touch_id]
    refine ⟨?_, List.Nodup.sublist (List.filter_sublist.map _) hd⟩
    simp only [List.mem_map, List.mem_filter, not_exists, not_and, bne_iff_ne]
    rintro x ⟨-, h⟩
    exact h
  have hidx := Elements.rank_of_getElem (ranked_strict hdi hrk) (Elements.insert_idx _ _)
  rw [show rankFromTop r.1 (Elements.touch now e) = rankFromTop r.1 (stored now e) by
        rw [touch_eq_stored],
      show rankFromBottom r.1 (Elements.touch now e) = rankFromBottom r.1 (stored now e) by
        rw [touch_eq_stored]] at hidx
  refine ⟨hrk, hdi, ?_, ?_, ?_⟩
  · intro a
    rw [hp.mem_iff, touch_eq_stored]
    simp
  · exact hidx.1.symm
  · exact hidx.2.symm

/-- `Update` replaces the element with the same ID and returns its rank, or reports not-found. -/
theorem C06_update (now : Nat) (l : List Element) (e : Element) (hd : DistinctIDs l)
    (hr : Ranked l) :
    match Elements.update now l e with
    | none => ∀ a ∈ l, a.id ≠ e.id
    | some (l', rank) => (∃ a ∈ l, a.id = e.id) ∧ Ranked l' ∧ DistinctIDs l' ∧
        (∀ a, a ∈ l' ↔ a = stored now e ∨ (a ∈ l ∧ a.id ≠ e.id)) ∧
        rank = some ⟨rankFromTop l' (stored now e), rankFromBottom l' (stored now e)⟩ := by
  rw [Elements.update_eq now l e hd]
  by_cases h : ∃ a ∈ l, a.id = e.id
  · rw [if_pos h]
    have ⟨h1, h2, h3, h4, h5⟩ := insert_filter_spec now l e hd hr
    simp only
    refine ⟨h, h1, h2, h3, ?_⟩
    rw [← h4, ← h5]
  · rw [if_neg h]
    intro a ha hid
    exact h ⟨a, ha, hid⟩

/-- `Add` inserts or replaces the element and returns its rank. -/
theorem C06_add (now : Nat) (l : List Element) (e : Element) (hd : DistinctIDs l)
    (hr : Ranked l) :
    let r := Elements.add now l e
    Ranked r.1 ∧ DistinctIDs r.1 ∧
    (∀ a, a ∈ r.1 ↔ a = stored now e ∨ (a ∈ l ∧ a.id ≠ e.id)) ∧
    r.2 = some ⟨rankFromTop r.1 (stored now e), rankFromBottom r.1 (stored now e)⟩ := by
  rw [Elements.add_eq now l e hd]
  have ⟨h1, h2, h3, h4, h5⟩ := insert_filter_spec now l e hd hr
  simp only
  refine ⟨h1, h2, h3, ?_⟩
  rw [← h4, ← h5]

example : DistinctIDs [⟨6, 1, [], 0, 7⟩, ⟨5, 2, [], 0, 8⟩] ∧
    Ranked [⟨6, 1, [], 0, 7⟩, ⟨5, 2, [], 0, 8⟩] ∧
    Elements.add 9 [⟨6, 1, [], 0, 7⟩, ⟨5, 2, [], 0, 8⟩] ⟨3, 1, [], 0, 0⟩ =
      ([⟨5, 2, [], 0, 8⟩, ⟨3, 1, [], 0, 9⟩], some ⟨1, 0⟩) := by decide

/-! ### C07 Sort

The full statement "sorting always terminates" is false: see `C07_sort_diverges`. -/

/-- Whenever `Sort` returns, it returns the ranked permutation and the right change flag. -/
theorem C07_sort_correct (fuel : Nat) (l : List Element) (r : List Element × Bool)
    (h : Elements.sort fuel l = some r) :
    r.1.Perm l ∧ Ranked r.1 ∧ (r.2 = true ↔ ¬ Ranked l) := by
  have := Elements.sort_spec fuel l r h
  refine ⟨this.1, this.2.1, ?_⟩
  rw [← this.2.2]; simp

/-- `Sort` terminates if fewer than 22500 elements share a score and tie-breaker.
Partial: termination fails for larger groups of ties. -/
theorem C07_sort_terminates_partial (l : List Element)
    (h : ∀ s t, l.countP (fun e => e.score = s ∧ e.tie = t) < 22500) :
    ∃ fuel r, Elements.sort fuel l = some r :=
  ⟨2, Elements.sort_terminates h 0⟩

/-- `Sort` does not terminate on 25000 or more unranked elements that all have the same score and
tie-breaker. -/
theorem C07_sort_diverges (l : List Element) (hl : 25000 ≤ l.length) (hs : ¬ Ranked l)
    (h : ∀ a ∈ l, ∀ b ∈ l, a.score = b.score ∧ a.tie = b.tie) :
    ∀ fuel, Elements.sort fuel l = none :=
  Elements.sort_diverges hl hs h

/-- Such slices exist, so the statement "sorting always terminates" is false. -/
theorem C07_sort_not_total : ¬ ∀ l : List Element, ∃ fuel r, Elements.sort fuel l = some r := by
  intro h
  obtain ⟨n, hn⟩ : ∃ n, n = 25000 := ⟨_, rfl⟩
  obtain ⟨fuel, r, hr⟩ := h (⟨5, 1, [], 0, 8⟩ :: List.replicate n ⟨5, 2, [], 0, 7⟩)
  rw [C07_sort_diverges _ (by simp; omega) ?_ ?_ fuel] at hr
  · simp at hr
  · intro hs
    exact (List.pairwise_cons.1 hs).1 ⟨5, 2, [], 0, 7⟩ (by simp; omega) (by decide)
  · intro a ha b hb
    simp only [List.mem_cons, List.mem_replicate] at ha hb
    rcases ha with rfl | ⟨-, rfl⟩ <;> rcases hb with rfl | ⟨-, rfl⟩ <;> simp

/-! ### C08 SplitSize -/

/-- Pieces are non-empty, concatenate to the slice and are never cut between two elements with the
same score and tie-breaker. -/
theorem C08_splitSize (l : List Element) (k : Nat) (hk : 0 < k) (hl : l ≠ []) :
    ∃ ps, Elements.splitSize l k = some ps ∧ ps.flatten = l ∧ (∀ p ∈ ps, p ≠ []) ∧
      (∀ pre p q post a b, ps = pre ++ p :: q :: post → p.getLast? = some a → q.head? = some b →
        ¬ (a.score = b.score ∧ a.tie = b.tie)) := by
  obtain ⟨ps, hps⟩ := Elements.splitSize_some (l := l) hk
  refine ⟨ps, hps, Elements.splitSize_flatten hps, Elements.splitSize_ne_nil hl hps, ?_⟩
  intro pre p q post a b h ha hb
  exact Elements.splitSize_cuts hps p q pre post h a (by simp [ha]) b (by simp [hb])

/-- Without ties no piece is longer than requested. -/
theorem C08_splitSize_bound (l : List Element) (k : Nat) (ps : List (List Element))
    (h : Elements.splitSize l k = some ps)
    (hd : l.Pairwise fun a b => ¬ (a.score = b.score ∧ a.tie = b.tie)) :
    ∀ p ∈ ps, p.length ≤ k := by
  intro p hp
  obtain ⟨s, t, rfl, hs, ht⟩ := Elements.splitSize_piece h p hp
  cases t with
  | nil => simpa using hs
  | cons b t =>
    obtain ⟨a, ha, hk⟩ := ht b (by simp)
    have hsub := Elements.mem_flatten_sublist hp
    rw [Elements.splitSize_flatten h] at hsub
    have := hd.sublist hsub
    have ha' : a ∈ s := List.mem_of_getLast? ha
    have := (List.pairwise_append.1 this).2.2 a ha' b (by simp)
    unfold Elements.sameKey at hk
    simp only [Bool.and_eq_true, beq_iff_eq] at hk
    exact absurd hk this

/-- A piece size of zero crashes on every non-empty slice. -/
theorem C08_splitSize_zero_panics (l : List Element) (hl : l ≠ []) :
    Elements.splitSize l 0 = none := by
  cases l with
  | nil => exact absurd rfl hl
  | cons a l => simp [Elements.splitSize]

example : (Elements.splitSize [⟨9, 1, [], 0, 7⟩, ⟨5, 2, [], 0, 7⟩, ⟨5, 3, [], 0, 7⟩,
      ⟨4, 4, [], 0, 7⟩] 2).map (·.map (·.length)) = some [3, 1] := by decide

/-! ### C09 Boundary arithmetic -/

/-- Order on (score, tie-breaker) pairs, lower first. -/
def PairLt (a b : Nat × Nat) : Prop := a.1 < b.1 ∨ (a.1 = b.1 ∧ a.2 < b.2)
/-- Valid pair of a 64-bit score and a 32-bit tie-breaker. -/
def PairWF (a : Nat × Nat) : Prop := a.1 ≤ 2 ^ 64 - 1 ∧ a.2 ≤ 2 ^ 32 - 1

/-- `PrevMax` gives the greatest pair below, `AboveThis` the least pair above, and both stay in
range. -/
theorem C09_neighbours (s t : Nat) (h : PairWF (s, t)) :
    PairWF (prevMax s t) ∧ PairWF (aboveThis s t) ∧
    ((s, t) ≠ (0, 0) → PairLt (prevMax s t) (s, t) ∧
      ∀ p, PairWF p → PairLt p (s, t) → p = prevMax s t ∨ PairLt p (prevMax s t)) ∧
    ((s, t) ≠ (2 ^ 64 - 1, 2 ^ 32 - 1) → PairLt (s, t) (aboveThis s t) ∧
      ∀ p, PairWF p → PairLt (s, t) p → p = aboveThis s t ∨ PairLt (aboveThis s t) p) := by
  obtain ⟨p1, q1, hpq⟩ : ∃ p q, prevMax s t = (p, q) := ⟨_, _, rfl⟩
  obtain ⟨p2, q2, haq⟩ : ∃ p q, aboveThis s t = (p, q) := ⟨_, _, rfl⟩
  have hp := prevMax_cases hpq
  have ha := aboveThis_cases haq
  rw [hpq, haq]
  unfold PairWF PairLt at *
  simp only [ne_eq, Prod.mk.injEq, Prod.forall] at *
  refine ⟨by omega, by omega, fun h0 => ⟨by omega, ?_⟩, fun h0 => ⟨by omega, ?_⟩⟩
  · intro a b _ _; omega
  · intro a b _ _; omega

/-- Inverse to each other away from the ends, saturating at the ends. -/
theorem C09_inverse (s t : Nat) (h : PairWF (s, t)) :
    ((s, t) ≠ (0, 0) → aboveThis (prevMax s t).1 (prevMax s t).2 = (s, t)) ∧
    ((s, t) ≠ (2 ^ 64 - 1, 2 ^ 32 - 1) → prevMax (aboveThis s t).1 (aboveThis s t).2 = (s, t)) ∧
    prevMax 0 0 = (0, 0) ∧
    aboveThis (2 ^ 64 - 1) (2 ^ 32 - 1) = (2 ^ 64 - 1, 2 ^ 32 - 1) := by
  unfold PairWF at h
  simp only [ne_eq, Prod.mk.injEq] at *
  obtain ⟨p1, q1, hpq⟩ : ∃ p q, prevMax s t = (p, q) := ⟨_, _, rfl⟩
  obtain ⟨p2, q2, haq⟩ : ∃ p q, aboveThis s t = (p, q) := ⟨_, _, rfl⟩
  obtain ⟨p3, q3, hpa⟩ : ∃ p q, aboveThis p1 q1 = (p, q) := ⟨_, _, rfl⟩
  obtain ⟨p4, q4, hap⟩ : ∃ p q, prevMax p2 q2 = (p, q) := ⟨_, _, rfl⟩
  rw [hpq, haq]
  simp only [hpa, hap, Prod.mk.injEq]
  have h1 := prevMax_cases hpq
  have h2 := aboveThis_cases haq
  have h3 := prevMax_cases hap
  have h4 := aboveThis_cases hpa
  refine ⟨by omega, by omega, by decide, by decide⟩

example : PairWF (5, 0) ∧ prevMax 5 0 = (4, 2 ^ 32 - 1) ∧ aboveThis 4 (2 ^ 32 - 1) = (5, 0) := by
  refine ⟨⟨by decide, by decide⟩, by decide, by decide⟩

/-! ### C13 Looking up scores

The documentation says that for a score that does not occur "the element below is returned".
That part is false: see `C13_element_below_not_returned`. -/

/-- For every requested score that occurs, the first element with this score is in the result;
the result consists of elements of the slice in order, at most one per requested score.
Partial: nothing is claimed for scores that do not occur. -/
theorem C13_firstWithScore_partial (l : List Element) (scores : List Nat) (hl : Ranked l)
    (hs : scores.Pairwise fun a b => b < a) :
    (∀ s ∈ scores, ∀ x, l.find? (fun e => e.score = s) = some x →
      x ∈ Elements.firstWithScore l scores) ∧
    (Elements.firstWithScore l scores).Sublist l ∧
    (Elements.firstWithScore l scores).length ≤ scores.length :=
  ⟨fun s hm x hx => Elements.firstWithScore_mem l scores (hs.imp Nat.le_of_lt)
      (Elements.ranked_scores hl) s hm x hx,
    Elements.firstWithScore_sublist l scores, Elements.firstWithScore_length l scores⟩

/-- The n-th result is not "the first element at or below the n-th score": asking for 10 and 9 in
a slice with scores 8 and 7 returns 8 and 7 although 8 is the first element at or below 9. -/
theorem C13_element_below_not_returned :
    ¬ ∀ (l : List Element) (scores : List Nat), Ranked l → scores.Pairwise (fun a b => b < a) →
      ∀ (i s : Nat) (x r : Element), scores[i]? = some s → l.find? (fun e => e.score ≤ s) = some x →
        (Elements.firstWithScore l scores)[i]? = some r → r = x := by
  intro h
  have := h [⟨8, 1, [], 0, 7⟩, ⟨7, 2, [], 0, 7⟩] [10, 9] (by decide) (by decide) 1 9
    ⟨8, 1, [], 0, 7⟩ ⟨7, 2, [], 0, 7⟩ (by decide) (by decide) (by decide)
  simp at this

example : Ranked [⟨9, 1, [], 0, 7⟩, ⟨7, 2, [], 0, 7⟩, ⟨5, 3, [], 0, 7⟩] ∧
    ([8, 7, 5] : List Nat).Pairwise (fun a b => b < a) ∧
    Elements.firstWithScore [⟨9, 1, [], 0, 7⟩, ⟨7, 2, [], 0, 7⟩, ⟨5, 3, [], 0, 7⟩] [8, 7, 5] =
      [⟨7, 2, [], 0, 7⟩, ⟨5, 3, [], 0, 7⟩] := by decide

/-! ### C48 Set operations on IDs -/

/-- Each ID once, in descending order, for every map iteration order. -/
theorem C48_deduplicate (shuffle : List Nat → List Nat) (hsh : ∀ l, (shuffle l).Perm l)
    (l : List Nat) :
    (ElementIDs.deduplicate shuffle l).Pairwise (fun a b => b < a) ∧
    ∀ x, x ∈ ElementIDs.deduplicate shuffle l ↔ x ∈ l := by
  have hp : (ElementIDs.deduplicate shuffle l).Perm (uniq l) :=
    (ElementIDs.sort_perm _).trans (hsh _)
  refine ⟨?_, fun x => by rw [hp.mem_iff, mem_uniq]⟩
  have hn : (ElementIDs.deduplicate shuffle l).Nodup := hp.nodup_iff.2 (nodup_uniq l)
  have hs : (ElementIDs.deduplicate shuffle l).Pairwise fun a b => b ≤ a := ElementIDs.sort_sorted _
  exact (hs.and hn).imp fun ⟨h1, h2⟩ => by omega

/-- `NotIn` returns exactly the IDs not in the other set, each once. -/
theorem C48_notIn (shuffle : List Nat → List Nat) (hsh : ∀ l, (shuffle l).Perm l)
    (e b : List Nat) :
    (ElementIDs.notIn shuffle e b).Nodup ∧
    ∀ x, x ∈ ElementIDs.notIn shuffle e b ↔ x ∈ e ∧ x ∉ b := by
  unfold ElementIDs.notIn
  refine ⟨(hsh _).nodup_iff.2 ((nodup_uniq e).filter _), fun x => ?_⟩
  rw [(hsh _).mem_iff, List.mem_filter, mem_uniq]
  simp

/-- `Overlap` returns the common IDs in the order of the argument. -/
theorem C48_overlap (e b : List Nat) :
    (ElementIDs.overlap e b).Sublist b ∧ ∀ x, x ∈ ElementIDs.overlap e b ↔ x ∈ b ∧ x ∈ e := by
  unfold ElementIDs.overlap
  exact ⟨List.filter_sublist, by simp⟩

example : ElementIDs.deduplicate List.reverse [3, 1, 3, 2] = [3, 2, 1] ∧
    ElementIDs.notIn id [3, 1, 3, 2] [1] = [3, 2] := by decide

end RankDB.Props

import Verif.Proofs.Disk
/-
Lemmas about the writes of Reindex and Populate.
-/
namespace RankDB.Disk
open Spec

/-- Writes under other names do not matter. -/
theorem writes_other {p : Str} {ws : List Write} (d : Store) (h : ∀ w ∈ ws, w.parent ≠ p) :
    (writes d ws).heads p = d.heads p ∧ ∀ i, (writes d ws).elems p i = d.elems p i := by
  constructor
  · rcases writes_heads_cases p ws d with h1 | ⟨s, h1, -⟩ | ⟨h1, -⟩
    · exact h1
    · exact absurd rfl (h _ h1)
    · exact absurd rfl (h _ h1)
  · intro i
    rcases writes_elems_cases p i ws d with h1 | ⟨s, h1, -⟩ | ⟨h1, -⟩
    · exact h1
    · exact absurd rfl (h _ h1)
    · exact absurd rfl (h _ h1)

theorem parent_newSegs {p : Str} {segs : List Seg} : ∀ w ∈ newSegs p segs, w.parent = p := by
  intro w hw
  obtain ⟨g, -, rfl⟩ := List.mem_map.1 hw
  rfl

theorem parent_deleteSegs {sch : Sched} {p : Str} {segs : List Seg} : ∀ w ∈ deleteSegs sch p segs, w.parent = p := by
  intro w hw
  rcases List.mem_append.1 hw with h | h
  · obtain ⟨g, -, rfl⟩ := List.mem_map.1 ((sch.perm _).mem_iff.1 h)
    rfl
  · simp only [List.mem_cons, List.not_mem_nil, or_false] at h
    subst h; rfl

theorem parent_replaceAt {sch : Sched} {p : Str} {ps : List Nat} {segs : List Seg} :
    ∀ w ∈ sch.order (replaceAt p ps segs), w.parent = p := by
  intro w hw
  obtain ⟨g, -, rfl⟩ := replaceAt_of p ps segs sch w hw
  rfl

theorem parent_save {ent : Entry} {st : ListState} : ∀ w ∈ saveSegments ent st, w.parent = ent.scores ∨ w.parent = ent.index := by
  intro w hw
  simp only [saveSegments, List.mem_cons, List.not_mem_nil, or_false] at hw
  rcases hw with rfl | rfl
  · exact .inl rfl
  · exact .inr rfl

theorem parent_insertChunks {now : Nat} {sch : Sched} {ent : Entry} : ∀ {cs : List (List Element)} {st : ListState},
    ∀ w ∈ insertChunks now sch ent st cs, w.parent = ent.scores ∨ w.parent = ent.index
  | [], st => parent_save
  | c :: cs, st => by
    intro w hw
    unfold insertChunks at hw
    rcases List.mem_append.1 hw with h | h
    · unfold insertChunk at h
      rcases List.mem_append.1 h with h | h
      · exact .inl (parent_replaceAt w h)
      · exact .inr (parent_replaceAt w h)
    · exact parent_insertChunks w h

theorem parent_insert {now : Nat} {sch : Sched} {ent : Entry} {st : ListState} {l : List Element} :
    ∀ w ∈ insert now sch ent st l, w.parent = ent.scores ∨ w.parent = ent.index := by
  intro w hw
  unfold insert at hw
  split at hw
  · simp at hw
  · exact parent_insertChunks w hw

theorem parent_populateNew {now : Nat} {sch shuffle : Sched} {reduce : Nat → Nat} {new : Entry} {l : List Element} :
    ∀ w ∈ populateNew now sch shuffle reduce new l, w.parent = new.scores ∨ w.parent = new.index := by
  intro w hw
  unfold populateNew at hw
  split at hw
  · simp only [List.mem_append] at hw
    rcases hw with hw | hw | hw
    · exact .inl (parent_newSegs w hw)
    · exact .inr (parent_newSegs w hw)
    · exact parent_save w hw
  · split at hw
    · simp only [] at hw
      split at hw
      · simp at hw
      · simp only [List.mem_append] at hw
        rcases hw with hw | hw | hw
        · exact .inl (parent_newSegs w hw)
        · exact .inr (parent_newSegs w hw)
        · exact parent_insert w hw
    · split at hw
      · simp at hw
      · simp only [List.mem_append] at hw
        rcases hw with hw | hw | hw
        · exact .inl (parent_newSegs w hw)
        · exact .inr (parent_newSegs w hw)
        · exact parent_save w hw

/-- After `Segments.Delete` the segments are gone. -/
theorem deleteSegs_gone (sch : Sched) (p : Str) (segs : List Seg) (d : Store) :
    (writes d (deleteSegs sch p segs)).heads p = none := by
  unfold deleteSegs
  rw [writes_append]
  simp [writes, write]

theorem newSegs_stored {p : Str} {segs : List Seg} (d : Store) (h : (segs.map (·.id)).Nodup) :
    ∀ g ∈ segs, (writes d (newSegs p segs)).elems p g.id = some g.elems := by
  intro g hg
  apply writes_elems_of_mem
  · exact List.mem_map.2 ⟨g, hg, rfl⟩
  · intro l' hl'
    obtain ⟨x, hx, he⟩ := List.mem_map.1 hl'
    simp only [Write.elems.injEq, true_and] at he
    rw [← he.2, eq_of_seg_id h hx hg he.1]
  · intro h'
    obtain ⟨x, hx, he⟩ := List.mem_map.1 h'
    simp at he

/-- A new list is stored by `NewSegmentsElements`. -/
theorem new_stored {ent : Entry} {st : ListState} (d : Store) (hne : ent.scores ≠ ent.index) (h : ListOK st) :
    Stored (writes d (newSegs ent.scores st.scores.segs ++ newSegs ent.index st.index.segs)) ent st := by
  rw [writes_append]
  constructor
  · intro g hg
    rw [(writes_other _ (p := ent.scores) (fun w hw => by rw [parent_newSegs w hw]; exact Ne.symm hne)).2]
    exact newSegs_stored d h.scores.segIDs g hg
  · exact newSegs_stored _ h.index.segIDs

/-- What a populated list leaves in the storage. -/
theorem populateNew_reload {now : Nat} {sch shuffle : Sched} {reduce : Nat → Nat} {new : Entry} {st' : ListState}
    {l : List Element} (d' : Store) (hne : new.scores ≠ new.index)
    (h : Lists.populate now sch shuffle reduce new.mergeSize new.splitSize l = some st') (hd : DistinctIDs l)
    (hst : ∀ e ∈ l, Storable e) (hlen : l.length + 2 ≤ 2 ^ 32) :
    reload (writes d' (populateNew now sch shuffle reduce new l)) new = some st' := by
  unfold populateNew
  unfold Lists.populate at h
  split at h
  · rename_i he
    rw [if_pos he]
    simp only [Option.some.injEq] at h
    subst h
    rw [← List.append_assoc, writes_append]
    exact ready_save hne (new_stored d' hne (Lists.initEmpty_spec _ _ _)) rfl rfl
  · rename_i he
    rw [if_neg he]
    have hp := sortSlice_perm
    split at h
    · rename_i h1
      rw [if_pos h1]
      simp only [] at h ⊢
      split at h
      · simp at h
      · rename_i st1 hb
        rw [hb]
        simp only []
        have hsp := shuffle.perm l
        have htd : (shuffle.order l).take 100000 ++ (shuffle.order l).drop 100000 = shuffle.order l := List.take_append_drop _ _
        have hd0 : DistinctIDs (shuffle.order l) := hd.perm hsp.symm
        have hd1 : DistinctIDs (Elements.sortSlice ((shuffle.order l).take 100000)) := by
          have : DistinctIDs ((shuffle.order l).take 100000) := by
            unfold DistinctIDs at *
            exact List.Pairwise.sublist ((List.take_sublist _ _).map _) hd0
          exact this.perm (hp _).symm
        have hmem : ∀ e ∈ (shuffle.order l).take 100000, Storable e :=
          fun e he => hst e (hsp.mem_iff.1 (List.mem_of_mem_take he))
        have hlen1 : (Elements.sortSlice ((shuffle.order l).take 100000)).length + 2 ≤ 2 ^ 32 := by
          rw [(hp _).length_eq, List.length_take]; omega
        obtain ⟨b1, b2, b3, b4⟩ := Lists.build_spec hb (sortSlice_ranked _) hd1
          (fun e he => hmem e ((hp _).mem_iff.1 he)) hlen1
        unfold Lists.insert at h
        unfold insert
        cases hc : Lists.chunks (Lists.insertLimit st1) ((shuffle.order l).drop 100000).length ((shuffle.order l).drop 100000) with
        | none => rw [hc] at h; cases h
        | some cs =>
          simp only [hc, Option.map_some, Option.some.injEq] at h
          have hfl := Lists.chunks_flatten hc
          subst h
          rw [← List.append_assoc, writes_append]
          refine insertChunks_reload hne b1 (new_stored d' hne b1) ?_ ?_ (by rw [b3]) (by rw [b4])
          · intro e he
            rw [hfl] at he
            exact hst e (hsp.mem_iff.1 (List.mem_of_mem_drop he))
          · rw [hfl, b2]
            rw [← htd] at hd0
            exact hd0.perm ((hp _).symm.append_right _)
    · rename_i h1
      rw [if_neg h1, h]
      simp only []
      obtain ⟨b1, b2, b3, b4⟩ := Lists.build_spec h (sortSlice_ranked _) (hd.perm (hp _).symm)
        (fun e he => hst e ((hp _).mem_iff.1 he)) (by rw [(hp _).length_eq]; exact hlen)
      rw [← List.append_assoc, writes_append]
      exact ready_save hne (new_stored d' hne b1) (by rw [b3]) (by rw [b4])

/-- The same for a list that has content. -/
theorem populate_reload {now : Nat} {sch shuffle : Sched} {reduce : Nat → Nat} {ent new : Entry} {st st' : ListState}
    {l : List Element} (d : Store) (hne : new.scores ≠ new.index)
    (hm : new.mergeSize = ent.mergeSize) (hs : new.splitSize = ent.splitSize)
    (h : Lists.populate now sch shuffle reduce ent.mergeSize ent.splitSize l = some st') (hd : DistinctIDs l)
    (hst : ∀ e ∈ l, Storable e) (hlen : l.length + 2 ≤ 2 ^ 32) :
    reload (writes d (populate now sch shuffle reduce ent new st l)) new = some st' := by
  unfold populate
  rw [writes_append, writes_append]
  rw [← hm, ← hs] at h
  exact populateNew_reload _ hne h hd hst hlen

/-- What `reindex` leaves in the storage. -/
theorem reindex_reload {now : Nat} {sch : Sched} {ent new : Entry} {st st' : ListState} {d : Store}
    (hr : reload d ent = some st) (hsc : new.scores = ent.scores) (h1 : new.scores ≠ new.index) (h2 : new.index ≠ ent.index)
    (h3 : ent.scores ≠ ent.index) (hm : new.mergeSize = ent.mergeSize) (hs : new.splitSize = ent.splitSize)
    (h : Lists.reindex now sch st = some st') (hok : ListOK st') (hst : st'.scores = st.scores)
    (hm' : st'.mergeSize = st.mergeSize) (hs' : st'.splitSize = st.splitSize) :
    reload (writes d (reindex now sch ent new st)) new = some st' := by
  obtain ⟨e1, -, e3, e4⟩ := reload_iff.1 hr
  unfold reindex
  rw [h]
  simp only [writes_append]
  refine ready_save h1 ⟨?_, ?_⟩ (by omega) (by omega)
  · intro g hg
    rw [(writes_other _ (p := new.scores) (fun w hw => by rw [parent_deleteSegs w hw, hsc]; exact Ne.symm h3)).2,
      (writes_other _ (p := new.scores) (fun w hw => by
        simp only [List.mem_cons, List.not_mem_nil, or_false] at hw
        subst hw; exact Ne.symm h1)).2,
      (writes_other _ (p := new.scores) (fun w hw => by rw [parent_newSegs w hw]; exact Ne.symm h1)).2, hsc]
    rw [hst] at hg
    exact e1.elems g hg
  · intro g hg
    rw [(writes_other _ (p := new.index) (fun w hw => by rw [parent_deleteSegs w hw]; exact Ne.symm h2)).2]
    exact newSegs_stored d hok.index.segIDs g hg

/-- Lists with the same elements have the same content. -/
theorem content_ext {a b : ListState} (ha : ListOK a) (hb : ListOK b) (h : ∀ e, e ∈ a.content ↔ e ∈ b.content) :
    a.content = b.content := by
  have hp : a.content.Perm b.content := (List.perm_ext_iff_of_nodup
    (Spec.DistinctIDs.nodup ha.scores.distinct) (Spec.DistinctIDs.nodup hb.scores.distinct)).2 h
  rw [Props.content_eq_ranking ha hp, ← Props.content_eq_ranking hb (.refl _)]

/-- Repairing a list whose score segments can all be read. -/
theorem repair_complete {now : Nat} {sch shuffle : Sched} {reduce : Nat → Nat} {d : Store} {ent : Entry}
    {st : ListState} {i0 : Segs} (h : ListOK st) (hh : Holds d ent.scores st.scores) (h2 : d.heads ent.index = some i0)
    (hlen : st.content.length + 2 ≤ 2 ^ 32) (hred : ∀ n, 0 < n → 0 < reduce n) (hs : 4 ≤ ent.splitSize) :
    ∃ r, repair now sch shuffle reduce d ent = some r ∧ ListOK r ∧ r.content = st.content := by
  have := hh.heads
  cases hd : d.heads ent.scores with
  | none => rw [hd] at this; simp at this
  | some s0 =>
    rw [hd] at this
    simp only [Option.map_some, Option.some.injEq, head, Segs.mk.injEq] at this
    have hids := map_clear_ids this.1
    have hf : ∀ g ∈ s0.segs, ∀ l, d.elems ent.scores g.id = some l → ∀ e ∈ l, e ∈ st.content := by
      intro g hg l hl e he
      have : g.id ∈ st.scores.segs.map (·.id) := by rw [← hids]; exact List.mem_map.2 ⟨g, hg, rfl⟩
      obtain ⟨o, ho, hid⟩ := List.mem_map.1 this
      rw [← hid, hh.elems o ho, Option.some.injEq] at hl
      exact mem_allElems.2 ⟨o, ho, hl ▸ he⟩
    obtain ⟨r, hr, r1, r2, r3⟩ := repair_any (now := now) (sch := sch) (shuffle := shuffle) (reduce := reduce) hd h2
      h.scores.storable hlen hf hred hs
    refine ⟨r, hr, r1, content_ext r1 h fun e => ⟨?_, ?_⟩⟩
    · intro he
      obtain ⟨g, hg, l, hl, hel⟩ := r2 e he
      exact hf g hg l hl e hel
    · intro he
      obtain ⟨o, ho, heo⟩ := mem_allElems.1 he
      have : o.id ∈ s0.segs.map (·.id) := by rw [hids]; exact List.mem_map.2 ⟨o, ho, rfl⟩
      obtain ⟨g, hg, hgid⟩ := List.mem_map.1 this
      obtain ⟨k, hk, hkid⟩ := r3 g hg o.elems (by rw [hgid]; exact hh.elems o ho) e heo
      obtain ⟨g2, hg2, l2, hl2, hel2⟩ := r2 k hk
      rw [← DistinctIDs.eq_of_id h.scores.distinct (hf g2 hg2 l2 hl2 k hel2) he hkid]; exact hk

end RankDB.Disk

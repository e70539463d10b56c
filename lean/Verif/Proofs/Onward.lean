import Verif.Proofs.Repeat
import Verif.Proofs.Disk
import Verif.Proofs.Server
/-
Lemmas about lists that are used after a crash without a repair.
-/
namespace RankDB.Onward
open Segments Spec Lists Faults Disk

/-- Every segment of `mid` has the range of the one in `old`, and its elements or those of the one in `new`. -/
structure Torn (old new mid : List Seg) : Prop where
  same : SameRanges mid old
  elems : ∀ (i : Nat) (a b c : Seg), old[i]? = some a → new[i]? = some b → mid[i]? = some c → c.elems = a.elems ∨ c.elems = b.elems

theorem sameRanges_of_clear : ∀ {a b : List Seg},
    a.map (fun g => ({ g with elems := [] } : Seg)) = b.map (fun g => { g with elems := [] }) → SameRanges a b
  | [], [], _ => .nil
  | [], _ :: _, h => by simp at h
  | _ :: _, [], h => by simp at h
  | x :: xs, y :: ys, h => by
    simp only [List.map_cons, List.cons.injEq, Seg.mk.injEq] at h
    obtain ⟨⟨a1, a2, a3, a4, a5, -⟩, h2⟩ := h
    exact .cons ⟨a1, a2, a3, a4, a5⟩ (sameRanges_of_clear h2)

theorem sameRanges_head (s : Segs) : SameRanges (head s).segs s.segs :=
  forall₂_map_left _ fun _ _ => ⟨rfl, rfl, rfl, rfl, rfl⟩

theorem get_of_length {a b : List Seg} (h : b.length = a.length) {i : Nat} {c : Seg} (hc : b[i]? = some c) : ∃ x, a[i]? = some x :=
  ⟨a[i]'(h ▸ (List.getElem?_eq_some_iff.1 hc).1), List.getElem?_eq_getElem _⟩

/-- The storage has the elements of the segments, and a table with their ranges. -/
structure Kept (d : Store) (p : Str) (old : List Seg) : Prop where
  heads : ∃ s, d.heads p = some s ∧ SameRanges s.segs old
  elems : ∀ g ∈ old, d.elems p g.id = some g.elems

theorem kept_of_holds {d : Store} {p : Str} {s : Segs} (h : Disk.Holds d p s) : Kept d p s.segs := by
  refine ⟨?_, h.elems⟩
  have h1 := h.heads
  cases hd : d.heads p with
  | none => rw [hd] at h1; simp at h1
  | some s0 =>
    rw [hd] at h1
    simp only [Option.map_some, Option.some.injEq, head, Segs.mk.injEq] at h1
    exact ⟨s0, rfl, sameRanges_of_clear h1.1⟩

/-- Segments that were partly overwritten can be loaded. -/
theorem torn_load {d d' : Store} {p : Str} {old new : Segs} (h : Kept d p old.segs) (hn : SegsOK new.segs)
    (hs : SameRanges new.segs old.segs) (hh : d'.heads p = d.heads p ∨ d'.heads p = some (head new))
    (he : ∀ o ∈ old.segs, d'.elems p o.id = some o.elems ∨ ∃ g ∈ new.segs, g.id = o.id ∧ d'.elems p o.id = some g.elems) :
    ∃ s, loadSegs d' p = some s ∧ Torn old.segs new.segs s.segs := by
  obtain ⟨s0, h0, hr⟩ : ∃ s0, d'.heads p = some s0 ∧ SameRanges s0.segs old.segs := by
    rcases hh with hh | hh
    · obtain ⟨s0, h1, h2⟩ := h.heads
      exact ⟨s0, hh.trans h1, h2⟩
    · exact ⟨_, hh, (sameRanges_head new).trans hs⟩
  have hat : ∀ (i : Nat) (g a : Seg), s0.segs[i]? = some g → old.segs[i]? = some a → g.id = a.id := fun i g a hg ha =>
    (sameRanges_get hr hg ha).1
  have hcomp : complete d' p s0 = true := by
    unfold complete
    rw [List.all_eq_true]
    intro g hg
    obtain ⟨i, hi⟩ := List.mem_iff_getElem?.1 hg
    obtain ⟨a, ha⟩ := get_of_length (sameRanges_length hr) hi
    rw [hat i g a hi ha]
    rcases he a (List.mem_of_getElem? ha) with h1 | ⟨_, -, -, h1⟩ <;> rw [h1] <;> rfl
  refine ⟨{ s0 with segs := s0.segs.map (fill d' p) }, ?_, ?_, ?_⟩
  · unfold loadSegs
    rw [h0]
    simp only [hcomp, if_true]
  · exact SameRanges.trans (forall₂_map_left _ fun _ _ => ⟨rfl, rfl, rfl, rfl, rfl⟩) hr
  · intro i a b c ha hb hc
    simp only [List.getElem?_map] at hc
    obtain ⟨g, hg, rfl⟩ := Option.map_eq_some_iff.1 hc
    have hid := hat i g a hg ha
    show (d'.elems p g.id).getD [] = _ ∨ (d'.elems p g.id).getD [] = _
    rw [hid]
    rcases he a (List.mem_of_getElem? ha) with h1 | ⟨x, hx, hxid, h1⟩
    · rw [h1]; exact .inl rfl
    · rw [h1]
      obtain ⟨j, hj⟩ := List.mem_iff_getElem?.1 hx
      have := getElem?_unique hn hj hb (hxid.trans (sameRanges_get hs hb ha).1.symm)
      subst this
      rw [hj] at hb
      cases hb
      exact .inr rfl

/-- Writes of segments and their elements leave them torn. -/
theorem torn_writes {d : Store} {p : Str} {old new : Segs} {ws : List Write} (h : Kept d p old.segs) (hn : SegsOK new.segs)
    (hs : SameRanges new.segs old.segs)
    (hw : ∀ w ∈ ws, w.parent = p → (∃ g ∈ new.segs, w = .elems p g.id g.elems) ∨ w = .head p (head new)) :
    ∃ s, loadSegs (writes d ws) p = some s ∧ Torn old.segs new.segs s.segs := by
  refine torn_load h hn hs ?_ ?_
  · rcases writes_heads_cases p ws d with h1 | ⟨s, h1, h2⟩ | ⟨h1, -⟩
    · exact .inl h1
    · rcases hw _ h1 rfl with ⟨g, -, h3⟩ | h3
      · nomatch h3
      · cases h3; exact .inr h2
    · rcases hw _ h1 rfl with ⟨g, -, h3⟩ | h3 <;> nomatch h3
  · intro o ho
    rcases writes_elems_cases p o.id ws d with h1 | ⟨l, h1, h2⟩ | ⟨h1, -⟩
    · exact .inl (by rw [h1]; exact h.elems o ho)
    · rcases hw _ h1 rfl with ⟨g, hg, h3⟩ | h3
      · simp only [Write.elems.injEq, true_and] at h3
        exact .inr ⟨g, hg, h3.1.symm, by rw [h2, h3.2]⟩
      · nomatch h3
    · rcases hw _ h1 rfl with ⟨g, -, h3⟩ | h3 <;> nomatch h3

/-- If all new elements were written, the torn segments have them. -/
theorem torn_done {d' : Store} {p : Str} {old new : List Seg} {s : Segs} (hl : loadSegs d' p = some s)
    (ht : Torn old new s.segs) (hs : SameRanges new old) (he : ∀ g ∈ new, d'.elems p g.id = some g.elems) :
    Each (fun a b => b.elems = a.elems) new s.segs := by
  have hh := holds_of_loadSegs hl
  refine ⟨(sameRanges_length ht.same).trans (sameRanges_length hs).symm, fun i b c hb hc => ?_⟩
  obtain ⟨a, ha⟩ := get_of_length (sameRanges_length hs) hb
  have hid : c.id = b.id := (sameRanges_get ht.same hc ha).1.trans (sameRanges_get hs hb ha).1.symm
  have h1 := he b (List.mem_of_getElem? hb)
  have h2 := hh.elems c (List.mem_of_getElem? hc)
  rw [hid, h1] at h2
  exact (Option.some.inj h2).symm

/-- A relation of old and new elements holds of torn segments. -/
theorem torn_each {R : List Element → List Element → Prop} (hr : ∀ a, R a a) {old new mid : List Seg} (ht : Torn old new mid)
    (hs : SameRanges new old) (h : Each (fun a b => R a.elems b.elems) old new) : Each (fun a b => R a.elems b.elems) old mid := by
  refine ⟨sameRanges_length ht.same, fun i a c ha hc => ?_⟩
  obtain ⟨b, hb⟩ := get_of_length (sameRanges_length hs).symm ha
  rcases ht.elems i a b c ha hb hc with h1 | h1
  · rw [h1]; exact hr _
  · rw [h1]; exact h.2 i a b ha hb

/-- What a crash leaves of a list. -/
theorem crash_torn {d : Store} {ent : Entry} {st st' : ListState} {ws : List Write} (hne : ent.scores ≠ ent.index)
    (h1 : Kept d ent.scores st.scores.segs) (h2 : Kept d ent.index st.index.segs) (hok : ListOK st') (hss : SameRanges st'.scores.segs st.scores.segs)
    (hsi : SameRanges st'.index.segs st.index.segs) (hw : ∀ w ∈ ws, Allowed ent st' w) :
    ∃ st1, reload (writes d ws) ent = some st1 ∧ Torn st.scores.segs st'.scores.segs st1.scores.segs ∧
      Torn st.index.segs st'.index.segs st1.index.segs := by
  obtain ⟨s, s1, s2⟩ := torn_writes (ws := ws) h1 hok.scores hss fun w hw' hp => by
    rcases hw w hw' with h | ⟨g, -, rfl⟩ | rfl | rfl
    · exact .inl h
    · exact absurd hp.symm hne
    · exact .inr rfl
    · exact absurd hp.symm hne
  obtain ⟨i, i1, i2⟩ := torn_writes (ws := ws) h2 hok.index hsi fun w hw' hp => by
    rcases hw w hw' with ⟨g, -, rfl⟩ | h | rfl | rfl
    · exact absurd hp hne
    · exact .inl h
    · exact absurd hp hne
    · exact .inr rfl
  exact ⟨_, by unfold reload; rw [s1, i1], s2, i2⟩

/-! ### Deletions -/

theorem cover_first {p : Str} {old new : List Seg} {a b : List Write} (h : Cover p old new (a ++ b))
    (hb : ∀ i l, Write.elems p i l ∉ b) : Cover p old new a := fun g hg =>
  (h g hg).imp_left fun hm => (List.mem_append.1 hm).elim id fun hm => absurd hm (hb _ _)

theorem replaceAt_parent {p : Str} {ps : List Nat} {segs : List Seg} {sch : Sched} :
    ∀ w ∈ sch.order (replaceAt p ps segs), w.parent = p := by
  intro w hw
  obtain ⟨i, -, hi⟩ := List.mem_filterMap.1 ((sch.perm _).mem_iff.1 hw)
  obtain ⟨s, -, rfl⟩ := Option.map_eq_some_iff.1 hi
  rfl

/-- All elements that change are stored after the writes. -/
theorem stored_allowed {d : Store} {ent : Entry} {st st' : ListState} {ws : List Write} (hne : ent.scores ≠ ent.index)
    (hok : ListOK st') (hw : ∀ w ∈ ws, Allowed ent st' w) :
    (Cover ent.scores st.scores.segs st'.scores.segs ws → (∀ g ∈ st.scores.segs, d.elems ent.scores g.id = some g.elems) →
      ∀ g ∈ st'.scores.segs, (writes d ws).elems ent.scores g.id = some g.elems) ∧
    (Cover ent.index st.index.segs st'.index.segs ws → (∀ g ∈ st.index.segs, d.elems ent.index g.id = some g.elems) →
      ∀ g ∈ st'.index.segs, (writes d ws).elems ent.index g.id = some g.elems) := by
  constructor
  · intro hc ho
    refine cover_stored hok.scores.segIDs (fun w hw' => ?_) hc ho
    rcases hw w hw' with h | ⟨g, -, rfl⟩ | rfl | rfl
    · exact .inl h
    · refine .inr fun i l => ⟨fun h => ?_, nofun⟩
      simp only [Write.elems.injEq] at h
      exact hne h.1.symm
    · exact .inr fun i l => ⟨nofun, nofun⟩
    · exact .inr fun i l => ⟨nofun, nofun⟩
  · intro hc ho
    refine cover_stored hok.index.segIDs (fun w hw' => ?_) hc ho
    rcases hw w hw' with ⟨g, -, rfl⟩ | h | rfl | rfl
    · refine .inr fun i l => ⟨fun h => ?_, nofun⟩
      simp only [Write.elems.injEq] at h
      exact hne h.1
    · exact .inl h
    · exact .inr fun i l => ⟨nofun, nofun⟩
    · exact .inr fun i l => ⟨nofun, nofun⟩

theorem left_torn {st st' st1 : ListState} {ids : List Nat} (h : Left st ids st')
    (hss : SameRanges st'.scores.segs st.scores.segs) (hsi : SameRanges st'.index.segs st.index.segs)
    (ts : Torn st.scores.segs st'.scores.segs st1.scores.segs) (ti : Torn st.index.segs st'.index.segs st1.index.segs)
    (hi : (∀ x ∈ st1.content, x.id ∉ ids) ∨ st1.index = st.index) : Left st ids st1 := by
  refine ⟨ts.same.ids, torn_each (R := fun a b => b.filter (fun e => decide (e.id ∉ ids)) = a.filter fun e => decide (e.id ∉ ids))
    (fun _ => rfl) ts hss h.kept, torn_each (R := fun a b => ∀ x ∈ b, x ∈ a) (fun _ _ h => h) ts hss h.sub, ?_, hi⟩
  intro x hx
  obtain ⟨c, hc, hxc⟩ := mem_allElems.1 hx
  obtain ⟨i, hi⟩ := List.mem_iff_getElem?.1 hc
  obtain ⟨a, ha⟩ := get_of_length (sameRanges_length ti.same) hi
  obtain ⟨b, hb⟩ := get_of_length (sameRanges_length hsi).symm ha
  rcases ti.elems i a b c ha hb hi with he | he
  · exact mem_allElems.2 ⟨a, List.mem_of_getElem? ha, he ▸ hxc⟩
  · exact h.entries x (mem_allElems.2 ⟨b, List.mem_of_getElem? hb, he ▸ hxc⟩)

/-- Torn segments are in order, and have no other elements than the old and the new ones. -/
theorem torn_strict {old new mid : List Seg} (ho : SegsOK old) (hn : SegsOK new) (hs : SameRanges new old) (ht : Torn old new mid) :
    (allElems mid).Pairwise RanksAbove ∧ ∀ x ∈ allElems mid, x ∈ allElems old ∨ x ∈ allElems new := by
  have hc : ∀ c ∈ mid, ∃ g, (g ∈ old ∨ g ∈ new) ∧ c.elems = g.elems ∧ (∀ x, InRange g x → InRange c x) := by
    intro c hc
    obtain ⟨i, hi⟩ := List.mem_iff_getElem?.1 hc
    obtain ⟨a, ha⟩ := get_of_length (sameRanges_length ht.same) hi
    obtain ⟨b, hb⟩ := get_of_length (sameRanges_length hs).symm ha
    have h1 := sameRanges_get ht.same hi ha
    have h2 := sameRanges_get hs hb ha
    rcases ht.elems i a b c ha hb hi with h | h
    · exact ⟨a, .inl (List.mem_of_getElem? ha), h, fun x hx => (h1.inRange x).2 hx⟩
    · exact ⟨b, .inr (List.mem_of_getElem? hb), h, fun x hx => (h1.inRange x).2 ((h2.inRange x).1 hx)⟩
  have hm : ∀ x ∈ allElems mid, x ∈ allElems old ∨ x ∈ allElems new := by
    intro x hx
    obtain ⟨c, hcm, hxc⟩ := mem_allElems.1 hx
    obtain ⟨g, hg, he, -⟩ := hc c hcm
    rw [he] at hxc
    exact hg.imp (fun h => mem_allElems.2 ⟨g, h, hxc⟩) fun h => mem_allElems.2 ⟨g, h, hxc⟩
  refine ⟨allElems_strict (ht.same.tiles ho.tiles) ?_ ?_ ?_, hm⟩
  · intro x hx
    exact (hm x hx).elim (fun h => (ho.storable x h).tie) fun h => (hn.storable x h).tie
  · intro c hcm x hx
    obtain ⟨g, hg, he, hr⟩ := hc c hcm
    rw [he] at hx
    exact hr x (hg.elim (fun h => ho.inRange g h x hx) fun h => hn.inRange g h x hx)
  · intro c hcm
    obtain ⟨g, hg, he, -⟩ := hc c hcm
    rw [he]
    exact hg.elim (ho.strictSeg g) (hn.strictSeg g)

/-- How many writes of a deletion are of score segments. -/
def deleteScoreWrites (now : Nat) (sch : Sched) (ent : Entry) (st : ListState) (ids : List Nat) : List Write :=
  sch.order (replaceAt ent.scores (touchedIdx st.scores.segs (getIndexElements sch st ids))
    (Lists.deleteElements now sch st ids).scores.segs)

theorem delete_crash_left {d : Store} {ent : Entry} {st : ListState} (hne : ent.scores ≠ ent.index)
    (h : reload d ent = some st) (hok : ListOK st) {ids : List Nat} (hid : ∀ v ∈ ids, v < 2 ^ 64) (now : Nat) (sch : Sched) (k : Nat) :
    ∃ st1, reload (crash k d (Disk.deleteElements now sch ent st ids)) ent = some st1 ∧ Left st ids st1 ∧
      SameRanges st1.scores.segs st.scores.segs ∧
      (k ≤ (deleteScoreWrites now sch ent st ids).length → st1.index = st.index) ∧
      ((deleteScoreWrites now sch ent st ids).length ≤ k → ∀ x ∈ st1.content, x.id ∉ ids) ∧
      st1.content.Pairwise RanksAbove := by
  obtain ⟨hok', -⟩ := Lists.deleteElements_spec (now := now) (sch := sch) hok hid
  obtain ⟨ws, hws, hstep⟩ := deleteElements_step now sch ent st ids
  have hallow : ∀ w ∈ Disk.deleteElements now sch ent st ids, Allowed ent (Lists.deleteElements now sch st ids) w := by
    intro w hw
    rw [hws] at hw
    exact (List.mem_append.1 hw).elim (hstep.allowed w) (allowed_save _ _ w)
  obtain ⟨hs, hi, -⟩ := reload_iff.1 h
  obtain ⟨st1, h1, ts, ti⟩ := crash_torn (ws := (Disk.deleteElements now sch ent st ids).take k) hne (kept_of_holds hs)
    (kept_of_holds hi) hok' hstep.scores hstep.index
    fun w hw => hallow w (List.mem_of_mem_take hw)
  obtain ⟨hl, hclear⟩ := left_delete hok hid (Left.refl st ids) noFaults now sch
  rw [delete_noFaults] at hl hclear
  obtain ⟨R, hR, hRs⟩ : ∃ R, Disk.deleteElements now sch ent st ids = deleteScoreWrites now sch ent st ids ++ R ∧
      ∀ i l, Write.elems ent.scores i l ∉ R := by
    refine ⟨_, by unfold Disk.deleteElements; rfl, fun i l hm => ?_⟩
    rcases List.mem_append.1 hm with hm | hm
    · exact hne (replaceAt_parent _ hm)
    · simp [saveSegments] at hm
  have hsame : k ≤ (deleteScoreWrites now sch ent st ids).length → st1.index = st.index := by
    intro hk
    have hother := Server.loadSegs_other (d := d) (p := ent.index) (ws := (deleteScoreWrites now sch ent st ids).take k) fun w hw => by
      rw [replaceAt_parent w (List.mem_of_mem_take hw)]; exact hne
    obtain ⟨-, h2, -⟩ := reload_iff.1 h1
    rw [hR, List.take_append_of_le_length hk] at h2
    have := loadSegs_of_holds h2
    rw [hother, loadSegs_of_holds hi] at this
    exact (Option.some.inj this).symm
  have hgone : (deleteScoreWrites now sch ent st ids).length ≤ k → ∀ x ∈ st1.content, x.id ∉ ids := by
    intro hk
    have hcov : Cover ent.scores st.scores.segs (Lists.deleteElements now sch st ids).scores.segs
        ((Disk.deleteElements now sch ent st ids).take k) := by
      have : Cover ent.scores st.scores.segs (Lists.deleteElements now sch st ids).scores.segs
          (Disk.deleteElements now sch ent st ids) :=
        cover_mono hstep.coverScores fun w hw => by rw [hws]; exact List.mem_append_left _ hw
      rw [hR] at this ⊢
      refine cover_mono (cover_first this hRs) fun w hw => ?_
      rw [List.take_append]
      rw [List.take_of_length_le hk]
      exact List.mem_append_left _ hw
    have hst := (stored_allowed (d := d) hne hok' fun w hw => hallow w (List.mem_of_mem_take hw)).1 hcov hs.elems
    obtain ⟨h2, -⟩ := reload_iff.1 h1
    have := each_content (torn_done (loadSegs_of_holds h2) ts hstep.scores hst)
    intro x hx
    refine hclear rfl x ?_
    show x ∈ allElems _
    rw [← this]
    exact hx
  refine ⟨st1, h1, left_torn hl hstep.scores hstep.index ts ti ?_, ts.same, hsame, hgone,
    (torn_strict hok.scores hok'.scores hstep.scores ts).1⟩
  by_cases hk : k ≤ (deleteScoreWrites now sch ent st ids).length
  · exact .inr (hsame hk)
  · exact .inl (hgone (by omega))

/-! ### Insertions -/

/-- Segments with more elements. -/
theorem sub_each {a b : List Seg} (ha : SegsOK a) (hb : SegsOK b) (hs : SameRanges b a)
    (h : ∀ x ∈ allElems a, x ∈ allElems b) : Each (fun x y => x.elems.Sublist y.elems) a b := by
  refine ⟨sameRanges_length hs, fun i x y hx hy => ?_⟩
  have hxm := List.mem_of_getElem? hx
  have hym := List.mem_of_getElem? hy
  have hsub : ∀ e ∈ x.elems, e ∈ y.elems := by
    intro e he
    obtain ⟨t, ht, het⟩ := mem_allElems.1 (h e (mem_allElems.2 ⟨x, hxm, he⟩))
    have h1 : InRange y e := ((sameRanges_get hs hy hx).inRange e).2 (ha.inRange x hxm e he)
    rw [tiles_unique hb.tiles hym ht h1 (hb.inRange t ht e het)]
    exact het
  have hdx : DistinctIDs x.elems := distinct_seg ha hxm
  have hdy : DistinctIDs y.elems := distinct_seg hb hym
  have hf : DistinctIDs (y.elems.filter fun e => decide (e ∈ x.elems)) :=
    List.Pairwise.sublist (List.filter_sublist.map _) hdy
  have heq := ranked_perm_eq hdx (ha.ranked x hxm) (List.Pairwise.sublist List.filter_sublist (hb.ranked y hym))
    ((List.perm_ext_iff_of_nodup hdx.nodup hf.nodup).2 fun e => by
      rw [List.mem_filter]
      exact ⟨fun he => ⟨hsub e he, decide_eq_true he⟩, fun he => of_decide_eq_true he.2⟩)
  show x.elems.Sublist y.elems
  rw [heq]
  exact List.filter_sublist

/-- Torn segments of which the new ones have more elements are in order. -/
theorem torn_ok {old new mid : List Seg} (ho : SegsOK old) (hn : SegsOK new) (hs : SameRanges new old) (ht : Torn old new mid)
    (h : ∀ x ∈ allElems old, x ∈ allElems new) :
    SegsOK mid ∧ (∀ x ∈ allElems old, x ∈ allElems mid) ∧ ∀ x ∈ allElems mid, x ∈ allElems new := by
  have hsub := sub_each ho hn hs h
  have hmn : Each (fun a b => b.elems.Sublist a.elems) new mid := by
    refine ⟨(sameRanges_length ht.same).trans (sameRanges_length hs).symm, fun i b c hb hc => ?_⟩
    obtain ⟨a, ha⟩ := get_of_length (sameRanges_length hs) hb
    rcases ht.elems i a b c ha hb hc with h1 | h1 <;> rw [h1]
    · exact hsub.2 i a b ha hb
    · exact .refl _
  refine ⟨segsOK_sublist hn (ht.same.trans (Concurrent.sameRanges_symm hs)) hmn, ?_, ?_⟩
  · exact each_subset (torn_each (R := fun a b => ∀ x ∈ a, x ∈ b) (fun _ _ h => h) ht hs
      ⟨hsub.1, fun i a b ha hb x hx => (hsub.2 i a b ha hb).subset hx⟩)
  · exact (allElems_sublist (forall₂_of_each hmn)).subset

theorem kept_step {d : Store} {ent : Entry} {st st' : ListState} {ws : List Write} (hne : ent.scores ≠ ent.index)
    (h1 : Kept d ent.scores st.scores.segs) (h2 : Kept d ent.index st.index.segs) (hok : ListOK st') (hstep : Step ent st st' ws)
    (hh : ∀ p s, Write.head p s ∉ ws) :
    Kept (writes d ws) ent.scores st'.scores.segs ∧ Kept (writes d ws) ent.index st'.index.segs := by
  have hst := stored_allowed (d := d) (st := st) hne hok hstep.allowed
  have hheads : ∀ p, (writes d ws).heads p = d.heads p := by
    intro p
    rcases writes_heads_cases p ws d with h | ⟨s, h, -⟩ | ⟨h, -⟩
    · exact h
    · exact absurd h (hh _ _)
    · rcases hstep.allowed _ h with ⟨g, -, h3⟩ | ⟨g, -, h3⟩ | h3 | h3 <;> nomatch h3
  refine ⟨⟨?_, hst.1 hstep.coverScores h1.elems⟩, ⟨?_, hst.2 hstep.coverIndex h2.elems⟩⟩
  · obtain ⟨s, s1, s2⟩ := h1.heads
    exact ⟨s, (hheads _).trans s1, s2.trans (Concurrent.sameRanges_symm hstep.scores)⟩
  · obtain ⟨s, s1, s2⟩ := h2.heads
    exact ⟨s, (hheads _).trans s1, s2.trans (Concurrent.sameRanges_symm hstep.index)⟩

theorem insertChunks_torn {now : Nat} {sch : Sched} {ent : Entry} (hne : ent.scores ≠ ent.index) :
    ∀ {cs : List (List Element)} {st : ListState} {d : Store} (k : Nat), ListOK st → Kept d ent.scores st.scores.segs →
    Kept d ent.index st.index.segs → (∀ e ∈ cs.flatten, Storable e) → DistinctIDs (st.content ++ cs.flatten) →
    ∃ st1, reload (crash k d (insertChunks now sch ent st cs)) ent = some st1 ∧ SegsOK st1.scores.segs ∧
      (∀ e ∈ st.content, e ∈ st1.content) ∧ ∀ e ∈ st1.content, e ∈ st.content ∨ e ∈ cs.flatten
  | [], st, d, k, h, h1, h2, _, _ => by
    obtain ⟨st1, r, ts, -⟩ := crash_torn (st := st) (ws := (insertChunks now sch ent st []).take k) hne h1 h2 h (SameRanges.refl _)
      (SameRanges.refl _) fun w hw => allowed_save ent st w (List.mem_of_mem_take hw)
    obtain ⟨a, b, c⟩ := torn_ok h.scores h.scores (SameRanges.refl _) ts fun _ hx => hx
    exact ⟨st1, r, a, b, fun e he => .inl (c e he)⟩
  | c :: cs, st, d, k, h, h1, h2, hl, hd => by
    rw [List.flatten_cons, ← List.append_assoc] at hd
    have hd1 : DistinctIDs (st.content ++ c) := by
      unfold DistinctIDs at *
      exact List.Pairwise.sublist ((List.sublist_append_left _ _).map _) hd
    obtain ⟨g1, g2⟩ := Lists.insertChunk_spec (now := now) (sch := sch) h (fun e he => hl e (by simp [he])) hd1
    have hstep := insertChunk_step now sch ent st c
    by_cases hk : k ≤ (Disk.insertChunk now sch ent st c).length
    · obtain ⟨st1, r, ts, -⟩ := crash_torn (ws := (Disk.insertChunk now sch ent st c).take k) hne h1 h2 g1 hstep.scores
        hstep.index fun w hw => hstep.allowed w (List.mem_of_mem_take hw)
      obtain ⟨a, b, e⟩ := torn_ok h.scores g1.scores hstep.scores ts fun x hx => g2.mem_iff.2 (List.mem_append_left _ hx)
      refine ⟨st1, ?_, a, b, fun x hx => ?_⟩
      · unfold crash Disk.insertChunks
        rw [List.take_append_of_le_length hk]
        exact r
      · rcases List.mem_append.1 (g2.mem_iff.1 (e x hx)) with h3 | h3
        · exact .inl h3
        · exact .inr (by rw [List.flatten_cons]; exact List.mem_append_left _ h3)
    · obtain ⟨k1, k2⟩ := kept_step hne h1 h2 g1 hstep fun p s hm => by
        unfold Disk.insertChunk at hm
        rcases List.mem_append.1 hm with hm | hm <;>
        · obtain ⟨i, -, hi⟩ := List.mem_filterMap.1 ((sch.perm _).mem_iff.1 hm)
          obtain ⟨s, -, h4⟩ := Option.map_eq_some_iff.1 hi
          nomatch h4
      obtain ⟨st1, r, a, b, e⟩ := insertChunks_torn (now := now) (sch := sch) hne (cs := cs)
        (k - (Disk.insertChunk now sch ent st c).length) g1 k1 k2
        (fun e he => hl e (by rw [List.flatten_cons]; exact List.mem_append_right _ he))
        (hd.perm (g2.symm.append_right _))
      refine ⟨st1, ?_, a, fun x hx => b x (g2.mem_iff.2 (List.mem_append_left _ hx)), fun x hx => ?_⟩
      · unfold crash Disk.insertChunks
        rw [List.take_append, List.take_of_length_le (by omega), writes_append]
        exact r
      · rcases e x hx with h3 | h3
        · rcases List.mem_append.1 (g2.mem_iff.1 h3) with h4 | h4
          · exact .inl h4
          · exact .inr (by rw [List.flatten_cons]; exact List.mem_append_left _ h4)
        · exact .inr (by rw [List.flatten_cons]; exact List.mem_append_right _ h3)

/-! ### Updates -/

theorem updateElements_filter (now : Nat) (sch : Sched) (st : ListState) (es : List Element) :
    Each (fun a b => b.elems.filter (fun y => decide (y.id ∉ es.map (·.id))) = a.elems.filter fun y => decide (y.id ∉ es.map (·.id)))
      st.scores.segs (Lists.updateElements now sch st es).scores.segs := by
  have := update_each (R := fun a b => b.filter (fun y => decide (y.id ∉ es.map (·.id))) =
      a.filter fun y => decide (y.id ∉ es.map (·.id)))
    (fun _ => rfl) (fun a b c h1 h2 => h2.trans h1) noFaults now sch st es (by
      intro y hy
      have hP : ∀ z : Element, z.id = y.id → decide (z.id ∉ es.map (·.id)) = false := fun z hz => by
        simp only [decide_eq_false_iff_not, Classical.not_not, hz]
        exact List.mem_map.2 ⟨y, hy, rfl⟩
      exact ⟨fun l => (addTo_cases now y l).1 _ hP, fun l => (updateIn_cases now y l).1 _ hP,
        fun l => (deleteIn_cases y.id l).1 _ hP⟩)
  rcases update_either (f := noFaults) (fun _ _ => rfl) (fun _ => rfl) (fun _ => rfl) now sch st es with hc | hc
  · unfold update at hc
    rw [if_neg (by simp [noFaults])] at hc
    simp only [noFaults, Prod.mk.injEq] at hc
    exact absurd hc.1 (by decide)
  · rw [hc] at this; exact this

/-- The writes of the index of an update come first. -/
def updateIndexWrites (now : Nat) (sch : Sched) (ent : Entry) (st : ListState) (es : List Element) : List Write :=
  sch.order (replaceAt ent.index (Lists.loadedIndex st es).eraseDups (Lists.updateElements now sch st es).index.segs)

theorem update_crash {d : Store} {ent : Entry} {st : ListState} (hne : ent.scores ≠ ent.index)
    (h : reload d ent = some st) (hok : ListOK st) {es : List Element} (hes : ∀ e ∈ es, Storable e) (hd : DistinctIDs es)
    {now : Nat} (hnow : now < 2 ^ 32 - 1) (sch : Sched) (k : Nat) :
    ∃ st1, reload (crash k d (Disk.updateElements now sch ent st es)) ent = some st1 ∧
      Torn st.scores.segs (Lists.updateElements now sch st es).scores.segs st1.scores.segs ∧
      (k = (updateIndexWrites now sch ent st es).length → st1.scores = st.scores ∧
        SameRanges st1.index.segs st.index.segs ∧
        Each (fun a b => b.elems = a.elems) (Lists.updateElements now sch st es).index.segs st1.index.segs) := by
  obtain ⟨hok', -⟩ := Lists.updateElements_full (now := now) (sch := sch) hok hes hd hnow
  obtain ⟨ws, hws, hstep⟩ := updateElements_step (now := now) (sch := sch) (ent := ent) hok hes hd hnow
  have hallow : ∀ w ∈ Disk.updateElements now sch ent st es, Allowed ent (Lists.updateElements now sch st es) w := by
    intro w hw
    rw [hws] at hw
    exact (List.mem_append.1 hw).elim (hstep.allowed w) (allowed_save _ _ w)
  obtain ⟨hs, hi, -⟩ := reload_iff.1 h
  obtain ⟨st1, h1, ts, ti⟩ := crash_torn (ws := (Disk.updateElements now sch ent st es).take k) hne (kept_of_holds hs)
    (kept_of_holds hi) hok' hstep.scores hstep.index fun w hw => hallow w (List.mem_of_mem_take hw)
  refine ⟨st1, h1, ts, fun hk => ?_⟩
  obtain ⟨R, hR, hRi⟩ : ∃ R, Disk.updateElements now sch ent st es = updateIndexWrites now sch ent st es ++ R ∧
      ∀ i l, Write.elems ent.index i l ∉ R := by
    refine ⟨_, by unfold Disk.updateElements; rfl, fun i l hm => ?_⟩
    rcases List.mem_append.1 hm with hm | hm
    · exact hne (replaceAt_parent _ hm).symm
    · simp [saveSegments] at hm
  have htake : (Disk.updateElements now sch ent st es).take k = updateIndexWrites now sch ent st es := by
    rw [hR, hk, List.take_left]
  have h1' := h1
  rw [htake] at h1'
  obtain ⟨h2, h3, -⟩ := reload_iff.1 h1'
  refine ⟨?_, ti.same, ?_⟩
  · have hother := Server.loadSegs_other (d := d) (p := ent.scores) (ws := updateIndexWrites now sch ent st es) fun w hw => by
      rw [replaceAt_parent w hw]; exact Ne.symm hne
    have := loadSegs_of_holds h2
    rw [hother, loadSegs_of_holds hs] at this
    exact (Option.some.inj this).symm
  · have hcov : Cover ent.index st.index.segs (Lists.updateElements now sch st es).index.segs
        (updateIndexWrites now sch ent st es) := by
      have : Cover ent.index st.index.segs (Lists.updateElements now sch st es).index.segs
          (Disk.updateElements now sch ent st es) :=
        cover_mono hstep.coverIndex fun w hw => by rw [hws]; exact List.mem_append_left _ hw
      rw [hR] at this
      exact cover_first this hRi
    have hst := (stored_allowed (d := d) (st := st) hne hok' (ws := updateIndexWrites now sch ent st es) fun w hw =>
      hallow w (by rw [hR]; exact List.mem_append_left _ hw)).2 hcov hi.elems
    exact torn_done (loadSegs_of_holds h3) ti hstep.index hst

/-- After a crash between the writes of the index and those of the scores a new element cannot be put any more. -/
theorem blocked_crash {d : Store} {ent : Entry} {st : ListState} (hne : ent.scores ≠ ent.index)
    (h : reload d ent = some st) (hok : ListOK st) {e : Element} (he : Storable e) (hnew : ∀ x ∈ st.content, x.id ≠ e.id)
    {now : Nat} (hnow : now < 2 ^ 32 - 1) (sch : Sched) :
    ∃ st1 p, reload (crash (updateIndexWrites now sch ent st [e]).length d (Disk.updateElements now sch ent st [e])) ent = some st1 ∧
      st1.content = st.content ∧ Blocked st1 e p := by
  have hes : ∀ y ∈ [e], Storable y := fun y hy => by cases List.mem_singleton.1 hy; exact he
  obtain ⟨st1, h1, -, h2⟩ := update_crash hne h hok hes (by simp [DistinctIDs]) hnow sch
    (updateIndexWrites now sch ent st [e]).length
  obtain ⟨h3, h4, h5⟩ := h2 rfl
  obtain ⟨hok', hperm, -, -, hsr, hir, -⟩ := updateElements_full (now := now) (sch := sch) hok hes (by simp [DistinctIDs]) hnow
  have hsid : (stamp now e).id = e.id := by unfold stamp; split <;> rfl
  have hspos : ∀ s : Seg, InRange s (stamp now e) ↔ InRange s e := fun s => by unfold stamp; split <;> rfl
  have hin : stamp now e ∈ (Lists.updateElements now sch st [e]).content := hperm.mem_iff.2 (by simp [upsert])
  obtain ⟨s, hs, hms⟩ := mem_allElems.1 hin
  obtain ⟨p, hp⟩ := List.mem_iff_getElem?.1 hs
  obtain ⟨g, hg⟩ := get_of_length (sameRanges_length hsr) hp
  have hsame := sameRanges_get hsr hp hg
  obtain ⟨ex, hex, hexe⟩ := List.mem_map.1 (hok'.link.complete.mem_iff.2
    (List.mem_flatMap.2 ⟨s, hs, List.mem_map.2 ⟨_, hms, rfl⟩⟩))
  simp only [Prod.mk.injEq] at hexe
  have hcont := each_content h5
  have hsub : Each (fun a b => b.elems.Sublist a.elems) (Lists.updateElements now sch st [e]).index.segs st1.index.segs :=
    ⟨h5.1, fun i a b ha hb => by
      show b.elems.Sublist a.elems
      rw [h5.2 i a b ha hb]; exact .refl _⟩
  have hsm : SameRanges st1.index.segs (Lists.updateElements now sch st [e]).index.segs :=
    h4.trans (Concurrent.sameRanges_symm hir)
  have hc : st1.content = st.content := by
    show allElems st1.scores.segs = _
    rw [h3]; rfl
  refine ⟨st1, p, h1, hc, ⟨by rw [h3]; exact hok.scores, ⟨segsOK_sublist hok'.index hsm hsub, ?_, ?_⟩, ?_, ?_⟩⟩
  · rw [hcont]; exact hok'.isIndex.byID
  · intro t ht
    obtain ⟨t', ht', hr⟩ := forall₂_mem hsm t ht
    obtain ⟨-, -, -, r4, r5⟩ := hr
    rw [r4, r5]
    exact hok'.isIndex.aligned t' ht'
  · refine ⟨ex, g, by rw [hcont]; exact hex, hexe.1.trans hsid, by rw [h3]; exact hg,
      (hsame.inRange e).1 ((hspos s).1 (hok'.scores.inRange s hs _ hms)),
      Nat.lt_of_lt_of_le (hok.scoresIDs.1 g (List.mem_of_getElem? hg)).2 hok.scoresIDs.2, ?_⟩
    rw [hexe.2, hsame.1]
  · rw [hc]; exact hnew

/-- After a crash between the writes of the scores and those of the index a deleted element cannot be put any more. -/
theorem blocked_deleted {d : Store} {ent : Entry} {st : ListState} (hne : ent.scores ≠ ent.index)
    (h : reload d ent = some st) (hok : ListOK st) {x e : Element} (hx : x ∈ st.content) (hid : x.id = e.id) {p : Nat} {g : Seg}
    (hg : st.scores.segs[p]? = some g) (hgx : InRange g x) (hge : InRange g e) (now : Nat) (sch : Sched) :
    ∃ st1, reload (crash (deleteScoreWrites now sch ent st [e.id]).length d (Disk.deleteElements now sch ent st [e.id])) ent = some st1 ∧
      st1.content = st.content.filter (fun y => decide (y.id ≠ e.id)) ∧ Blocked st1 e p := by
  have hv : ∀ v ∈ [e.id], v < 2 ^ 64 := fun v hv => by
    cases List.mem_singleton.1 hv
    rw [← hid]; exact (hok.scores.storable x hx).id
  obtain ⟨st1, h1, hl, hsame, hi, hc, -⟩ := delete_crash_left hne h hok hv now sch (deleteScoreWrites now sch ent st [e.id]).length
  replace hi := hi (Nat.le_refl _)
  replace hc := hc (Nat.le_refl _)
  have hcont : st1.content = st.content.filter (fun y => decide (y.id ∉ [e.id])) := by
    have hk := each_filter hl.kept
    rw [← List.filter_eq_self.2 (fun x hx => decide_eq_true (hc x hx))]
    exact hk
  have hsub : ∀ y ∈ allElems st1.scores.segs, y ∈ allElems st.scores.segs := each_superset hl.sub
  have hgm := List.mem_of_getElem? hg
  have hxg : x ∈ g.elems := by
    obtain ⟨t, ht, hxt⟩ := mem_allElems.1 hx
    rw [tiles_unique hok.scores.tiles hgm ht hgx (hok.scores.inRange t ht x hxt)]
    exact hxt
  obtain ⟨ex, hex, hexe⟩ := List.mem_map.1 (hok.link.complete.mem_iff.2
    (List.mem_flatMap.2 ⟨g, hgm, List.mem_map.2 ⟨_, hxg, rfl⟩⟩))
  simp only [Prod.mk.injEq] at hexe
  obtain ⟨g', hg'⟩ := get_of_length (sameRanges_length hsame).symm hg
  have hgg := sameRanges_get hsame hg' hg
  refine ⟨st1, h1, by simpa using hcont, ⟨?_, by rw [hi]; exact hok.isIndex, ?_, fun y hy => by simpa using hc y hy⟩⟩
  · refine segsOK_sublist hok.scores hsame ⟨sameRanges_length hsame, fun i a b ha hb => ?_⟩
    have h2 := hl.kept.2 i a b ha hb
    have h3 : b.elems.filter (fun e_1 => decide (e_1.id ∉ [e.id])) = b.elems := List.filter_eq_self.2 fun y hy =>
      decide_eq_true (hc y (mem_allElems.2 ⟨b, List.mem_of_getElem? hb, hy⟩))
    show b.elems.Sublist a.elems
    rw [← h3, h2]
    exact List.filter_sublist
  · exact ⟨ex, g', by rw [hi]; exact hex, hexe.1.trans hid, hg', (hgg.inRange e).2 hge,
      hgg.1 ▸ Nat.lt_of_lt_of_le (hok.scoresIDs.1 g hgm).2 hok.scoresIDs.2, hexe.2.trans hgg.1.symm⟩

end RankDB.Onward

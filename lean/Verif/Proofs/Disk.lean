import Verif.Model.Disk
import Verif.Props.Maintenance
/-
Lemmas about the writes of list operations.
-/
namespace RankDB.Disk
open Spec

theorem writes_append (d : Store) (a b : List Write) : writes d (a ++ b) = writes (writes d a) b := by
  unfold writes; rw [List.foldl_append]

/-- A blob of elements is the old one or was written or deleted. -/
theorem writes_elems_cases (p : Str) (i : Nat) : ∀ (ws : List Write) (d : Store),
    (writes d ws).elems p i = d.elems p i ∨
    (∃ l, Write.elems p i l ∈ ws ∧ (writes d ws).elems p i = some l) ∨
    (Write.delElems p i ∈ ws ∧ (writes d ws).elems p i = none)
  | [], d => .inl rfl
  | w :: ws, d => by
    have ih := writes_elems_cases p i ws (write d w)
    show (writes (write d w) ws).elems p i = _ ∨ (∃ l, _ ∧ (writes (write d w) ws).elems p i = _) ∨
      (_ ∧ (writes (write d w) ws).elems p i = _)
    rcases ih with h | ⟨l, h1, h2⟩ | ⟨h1, h2⟩
    · rw [h]
      cases w with
      | head q s => exact .inl rfl
      | delHead q => exact .inl rfl
      | elems q j l =>
        by_cases hq : p = q ∧ i = j
        · obtain ⟨rfl, rfl⟩ := hq
          exact .inr (.inl ⟨l, by simp, by simp [write]⟩)
        · exact .inl (by simp [write, hq])
      | delElems q j =>
        by_cases hq : p = q ∧ i = j
        · obtain ⟨rfl, rfl⟩ := hq
          exact .inr (.inr ⟨by simp, by simp [write]⟩)
        · exact .inl (by simp [write, hq])
    · exact .inr (.inl ⟨l, by simp [h1], h2⟩)
    · exact .inr (.inr ⟨by simp [h1], h2⟩)

/-- A blob that is written, always with the same value, has this value. -/
theorem writes_elems_of_mem {p : Str} {i : Nat} {l : List Element} : ∀ {ws : List Write} {d : Store},
    Write.elems p i l ∈ ws → (∀ l', Write.elems p i l' ∈ ws → l' = l) → Write.delElems p i ∉ ws →
    (writes d ws).elems p i = some l
  | w :: ws, d, hm, hu, hn => by
    show (writes (write d w) ws).elems p i = some l
    by_cases h : Write.elems p i l ∈ ws
    · exact writes_elems_of_mem h (fun l' hl' => hu l' (by simp [hl'])) fun h' => hn (by simp [h'])
    · have hw : w = .elems p i l := by
        rcases List.mem_cons.1 hm with h' | h'
        · exact h'.symm
        · exact absurd h' h
      subst hw
      rcases writes_elems_cases p i ws (write d (.elems p i l)) with h1 | ⟨l', h1, h2⟩ | ⟨h1, h2⟩
      · rw [h1]; simp [write]
      · rw [h2, hu l' (by simp [h1])]
      · exact absurd (by simp [h1]) hn

/-- Segments are the old ones or were written or deleted. -/
theorem writes_heads_cases (p : Str) : ∀ (ws : List Write) (d : Store),
    (writes d ws).heads p = d.heads p ∨
    (∃ s, Write.head p s ∈ ws ∧ (writes d ws).heads p = some s) ∨
    (Write.delHead p ∈ ws ∧ (writes d ws).heads p = none)
  | [], d => .inl rfl
  | w :: ws, d => by
    have ih := writes_heads_cases p ws (write d w)
    show (writes (write d w) ws).heads p = _ ∨ (∃ l, _ ∧ (writes (write d w) ws).heads p = _) ∨
      (_ ∧ (writes (write d w) ws).heads p = _)
    rcases ih with h | ⟨l, h1, h2⟩ | ⟨h1, h2⟩
    · rw [h]
      cases w with
      | elems q j l => exact .inl rfl
      | delElems q j => exact .inl rfl
      | head q s =>
        by_cases hq : p = q
        · subst hq
          exact .inr (.inl ⟨s, by simp, by simp [write]⟩)
        · exact .inl (by simp [write, hq])
      | delHead q =>
        by_cases hq : p = q
        · subst hq
          exact .inr (.inr ⟨by simp, by simp [write]⟩)
        · exact .inl (by simp [write, hq])
    · exact .inr (.inl ⟨l, by simp [h1], h2⟩)
    · exact .inr (.inr ⟨by simp [h1], h2⟩)

/-- The storage has these segments under the ID `p`. -/
structure Holds (d : Store) (p : Str) (s : Segs) : Prop where
  heads : (d.heads p).map head = some (head s)
  elems : ∀ g ∈ s.segs, d.elems p g.id = some g.elems

theorem map_clear_eq {a b : List Seg} (h : a.map (fun g => ({ g with elems := [] } : Seg)) = b.map fun g => { g with elems := [] })
    {f : Seg → List Element} (hf : ∀ g g' : Seg, g.id = g'.id → f g = f g') :
    a.map (fun g => ({ g with elems := f g } : Seg)) = b.map fun g => { g with elems := f g } := by
  induction a generalizing b with
  | nil =>
    cases b with
    | nil => rfl
    | cons y ys => simp at h
  | cons x xs ih =>
    cases b with
    | nil => simp at h
    | cons y ys =>
      simp only [List.map_cons, List.cons.injEq] at h ⊢
      refine ⟨?_, ih h.2⟩
      have h1 := h.1
      simp only [Seg.mk.injEq] at h1
      obtain ⟨a1, a2, a3, a4, a5, a6, a7, -⟩ := h1
      simp only [Seg.mk.injEq]
      exact ⟨a1, a2, a3, a4, a5, a6, a7, hf x y a1⟩

theorem map_clear_ids {a b : List Seg} (h : a.map (fun g => ({ g with elems := [] } : Seg)) = b.map fun g => { g with elems := [] }) :
    a.map (·.id) = b.map (·.id) := by
  have := congrArg (List.map (·.id)) h
  simpa [List.map_map, Function.comp_def] using this

theorem loadSegs_of_holds {d : Store} {p : Str} {s : Segs} (h : Holds d p s) : loadSegs d p = some s := by
  have h1 := h.heads
  unfold loadSegs
  cases hd : d.heads p with
  | none => rw [hd] at h1; simp at h1
  | some s0 =>
    rw [hd] at h1
    simp only [Option.map_some, Option.some.injEq, head, Segs.mk.injEq] at h1
    obtain ⟨ha, hb, hc⟩ := h1
    have hids := map_clear_ids ha
    have hcomp : complete d p s0 = true := by
      unfold complete
      rw [List.all_eq_true]
      intro g hg
      have : g.id ∈ s.segs.map (·.id) := by rw [← hids]; exact List.mem_map.2 ⟨g, hg, rfl⟩
      obtain ⟨g', hg', hid⟩ := List.mem_map.1 this
      rw [← hid, h.elems g' hg']; rfl
    simp only [hcomp, if_true, Option.some.injEq]
    have hf : s0.segs.map (fill d p) = s.segs := by
      have := map_clear_eq ha (f := fun g => (d.elems p g.id).getD []) (fun g g' hg => by rw [hg])
      unfold fill
      rw [this]
      conv => rhs; rw [← List.map_id s.segs]
      apply List.map_congr_left
      intro g hg
      rw [h.elems g hg]; rfl
    rw [hf]
    cases s
    simp only [Segs.mk.injEq] at *
    exact ⟨trivial, hb, hc⟩

theorem holds_of_loadSegs {d : Store} {p : Str} {s : Segs} (h : loadSegs d p = some s) : Holds d p s := by
  unfold loadSegs at h
  cases hd : d.heads p with
  | none => rw [hd] at h; simp at h
  | some s0 =>
    rw [hd] at h
    simp only [] at h
    split at h
    · rename_i hc
      simp only [Option.some.injEq] at h
      subst h
      refine ⟨?_, ?_⟩
      · simp only [hd, Option.map_some, head, List.map_map, Function.comp_def, fill]
      · intro g hg
        obtain ⟨g0, hg0, rfl⟩ := List.mem_map.1 hg
        unfold complete at hc
        rw [List.all_eq_true] at hc
        have := hc g0 hg0
        show d.elems p g0.id = some ((d.elems p g0.id).getD [])
        cases hx : d.elems p g0.id with
        | none => rw [hx] at this; simp at this
        | some l => rfl
    · simp at h

theorem reload_iff {d : Store} {ent : Entry} {st : ListState} : reload d ent = some st ↔
    Holds d ent.scores st.scores ∧ Holds d ent.index st.index ∧ ent.mergeSize = st.mergeSize ∧
      ent.splitSize = st.splitSize := by
  constructor
  · intro h
    unfold reload at h
    split at h
    · rename_i s i hs hi
      simp only [Option.some.injEq] at h
      subst h
      exact ⟨holds_of_loadSegs hs, holds_of_loadSegs hi, rfl, rfl⟩
    · simp at h
  · rintro ⟨h1, h2, h3, h4⟩
    unfold reload
    rw [loadSegs_of_holds h1, loadSegs_of_holds h2, h3, h4]

/-- Writes of elements of segments with the ID `p`, each of them an element list of one of the segments. -/
def Of (p : Str) (segs : List Seg) (ws : List Write) : Prop :=
  ∀ w ∈ ws, ∃ g ∈ segs, w = .elems p g.id g.elems

/-- The writes have all segments that changed. -/
def Cover (p : Str) (old new : List Seg) (ws : List Write) : Prop :=
  ∀ g ∈ new, Write.elems p g.id g.elems ∈ ws ∨ ∃ o ∈ old, o.id = g.id ∧ o.elems = g.elems

theorem replaceAt_of (p : Str) (ps : List Nat) (segs : List Seg) (sch : Sched) :
    Of p segs (sch.order (replaceAt p ps segs)) := by
  intro w hw
  obtain ⟨i, -, h⟩ := List.mem_filterMap.1 ((sch.perm _).mem_iff.1 hw)
  cases hs : segs[i]? with
  | none => rw [hs] at h; simp at h
  | some s =>
    rw [hs] at h
    simp only [Option.map_some, Option.some.injEq] at h
    exact ⟨s, List.mem_of_getElem? hs, h.symm⟩

theorem replaceAt_cover {p : Str} {ps : List Nat} {old new : List Seg} (sch : Sched)
    (h : ∀ j, j ∉ ps → (new[j]?).map (fun g => (g.id, g.elems)) = (old[j]?).map fun g => (g.id, g.elems)) :
    Cover p old new (sch.order (replaceAt p ps new)) := by
  intro g hg
  obtain ⟨j, hj⟩ := List.mem_iff_getElem?.1 hg
  by_cases hm : j ∈ ps
  · left
    rw [(sch.perm _).mem_iff]
    exact List.mem_filterMap.2 ⟨j, hm, by rw [hj]; rfl⟩
  · right
    have := h j hm
    rw [hj] at this
    cases ho : old[j]? with
    | none => rw [ho] at this; simp at this
    | some o =>
      rw [ho] at this
      simp only [Option.map_some, Option.some.injEq, Prod.mk.injEq] at this
      exact ⟨o, List.mem_of_getElem? ho, this.1.symm, this.2.symm⟩

theorem replaceAt_of_eraseDups (p : Str) (ps : List Nat) (segs : List Seg) (sch : Sched) :
    Of p segs (sch.order (replaceAt p ps.eraseDups segs)) := replaceAt_of p _ segs sch

theorem eq_of_seg_id {segs : List Seg} (h : (segs.map (·.id)).Nodup) {a b : Seg} (ha : a ∈ segs) (hb : b ∈ segs)
    (hid : a.id = b.id) : a = b := by
  induction segs with
  | nil => simp at ha
  | cons s ss ih =>
    simp only [List.map_cons, List.nodup_cons] at h
    rcases List.mem_cons.1 ha with h1 | h1
    · rcases List.mem_cons.1 hb with h2 | h2
      · rw [h1, h2]
      · subst h1
        exact absurd (List.mem_map.2 ⟨b, h2, hid.symm⟩) h.1
    · rcases List.mem_cons.1 hb with h2 | h2
      · subst h2
        exact absurd (List.mem_map.2 ⟨a, h1, hid⟩) h.1
      · exact ih h.2 h1 h2

/-- All writes of one group: the storage has the new elements. -/
theorem group_all {d : Store} {p : Str} {old new : List Seg} {ws : List Write} (hof : Of p new ws)
    (hcov : Cover p old new ws) (hids : (new.map (·.id)).Nodup) (ho : ∀ g ∈ old, d.elems p g.id = some g.elems) :
    ∀ g ∈ new, (writes d ws).elems p g.id = some g.elems := by
  intro g hg
  have hn : Write.delElems p g.id ∉ ws := by
    intro h
    obtain ⟨x, -, hx⟩ := hof _ h
    simp at hx
  have hu : ∀ l', Write.elems p g.id l' ∈ ws → l' = g.elems := by
    intro l' h
    obtain ⟨x, hx, he⟩ := hof _ h
    simp only [Write.elems.injEq, true_and] at he
    rw [he.2, eq_of_seg_id hids hx hg he.1.symm]
  rcases hcov g hg with h | ⟨o, ho1, ho2, ho3⟩
  · exact writes_elems_of_mem h hu hn
  · by_cases hm : Write.elems p g.id g.elems ∈ ws
    · exact writes_elems_of_mem hm hu hn
    · rcases writes_elems_cases p g.id ws d with h1 | ⟨l, h1, h2⟩ | ⟨h1, h2⟩
      · rw [h1, ← ho2, ho o ho1, ho3]
      · rw [h2, hu l h1]
      · exact absurd h1 hn

/-- Some writes of one group: the storage has old or new elements. -/
theorem group_some {d : Store} {p : Str} {old new : List Seg} {ws : List Write} (hof : Of p new ws)
    (ho : ∀ g ∈ old, d.elems p g.id = some g.elems) :
    ∀ o ∈ old, (writes d ws).elems p o.id = some o.elems ∨
      ∃ g ∈ new, g.id = o.id ∧ (writes d ws).elems p o.id = some g.elems := by
  intro o hoo
  rcases writes_elems_cases p o.id ws d with h1 | ⟨l, h1, h2⟩ | ⟨h1, h2⟩
  · exact .inl (by rw [h1, ho o hoo])
  · obtain ⟨x, hx, he⟩ := hof _ h1
    simp only [Write.elems.injEq, true_and] at he
    exact .inr ⟨x, hx, he.1.symm, by rw [h2, he.2]⟩
  · obtain ⟨x, hx, he⟩ := hof _ h1
    simp at he

theorem of_take {p : Str} {segs : List Seg} {ws : List Write} (h : Of p segs ws) (k : Nat) : Of p segs (ws.take k) :=
  fun w hw => h w (List.mem_of_mem_take hw)

/-- Other segments are not written. -/
theorem of_elems_other {d : Store} {p q : Str} {segs : List Seg} {ws : List Write} (h : Of p segs ws) (hq : q ≠ p)
    (i : Nat) : (writes d ws).elems q i = d.elems q i := by
  rcases writes_elems_cases q i ws d with h1 | ⟨l, h1, h2⟩ | ⟨h1, h2⟩
  · exact h1
  · obtain ⟨x, hx, he⟩ := h _ h1
    simp only [Write.elems.injEq] at he
    exact absurd he.1 hq
  · obtain ⟨x, hx, he⟩ := h _ h1
    simp at he

theorem of_heads {d : Store} {p q : Str} {segs : List Seg} {ws : List Write} (h : Of p segs ws) :
    (writes d ws).heads q = d.heads q := by
  rcases writes_heads_cases q ws d with h1 | ⟨l, h1, h2⟩ | ⟨h1, h2⟩
  · exact h1
  · obtain ⟨x, hx, he⟩ := h _ h1
    simp at he
  · obtain ⟨x, hx, he⟩ := h _ h1
    simp at he

/-! ### Operations that keep the ranges of the segments -/

/-- A write of an operation that leads to `st'`. -/
def Allowed (ent : Entry) (st' : ListState) (w : Write) : Prop :=
  (∃ g ∈ st'.scores.segs, w = .elems ent.scores g.id g.elems) ∨
  (∃ g ∈ st'.index.segs, w = .elems ent.index g.id g.elems) ∨
  w = .head ent.scores (head st'.scores) ∨ w = .head ent.index (head st'.index)

/-- The storage has all elements of the list. -/
structure Stored (d : Store) (ent : Entry) (st : ListState) : Prop where
  scores : ∀ g ∈ st.scores.segs, d.elems ent.scores g.id = some g.elems
  index : ∀ g ∈ st.index.segs, d.elems ent.index g.id = some g.elems

/-- The storage has all elements of the list, score segments with the same IDs and an index. -/
structure Ready (d : Store) (ent : Entry) (st : ListState) : Prop extends Stored d ent st where
  heads : ∃ s, d.heads ent.scores = some s ∧ s.segs.map (·.id) = st.scores.segs.map (·.id)
  hasIndex : ∃ s, d.heads ent.index = some s

/-- The storage has for every score segment the elements it has in `st` or those it has in `st'`. -/
structure Mixed (d : Store) (ent : Entry) (st st' : ListState) : Prop where
  heads : ∃ s, d.heads ent.scores = some s ∧ s.segs.map (·.id) = st.scores.segs.map (·.id)
  hasIndex : ∃ s, d.heads ent.index = some s
  scores : ∀ o ∈ st.scores.segs, d.elems ent.scores o.id = some o.elems ∨
    ∃ g ∈ st'.scores.segs, g.id = o.id ∧ d.elems ent.scores o.id = some g.elems

theorem ready_of_reload {d : Store} {ent : Entry} {st : ListState} (h : reload d ent = some st) : Ready d ent st := by
  obtain ⟨h1, h2, -⟩ := reload_iff.1 h
  refine ⟨⟨h1.elems, h2.elems⟩, ?_, ?_⟩
  · have := h1.heads
    cases hd : d.heads ent.scores with
    | none => rw [hd] at this; simp at this
    | some s =>
      rw [hd] at this
      simp only [Option.map_some, Option.some.injEq, head, Segs.mk.injEq] at this
      exact ⟨s, rfl, map_clear_ids this.1⟩
  · have := h2.heads
    cases hd : d.heads ent.index with
    | none => rw [hd] at this; simp at this
    | some s => exact ⟨s, rfl⟩

theorem mixed_of_allowed {d : Store} {ent : Entry} {st st' : ListState} {ws : List Write} (hne : ent.scores ≠ ent.index)
    (hr : Ready d ent st) (hsame : SameRanges st'.scores.segs st.scores.segs) (hw : ∀ w ∈ ws, Allowed ent st' w) :
    Mixed (writes d ws) ent st st' := by
  refine ⟨?_, ?_, ?_⟩
  · rcases writes_heads_cases ent.scores ws d with h | ⟨s, h1, h2⟩ | ⟨h1, -⟩
    · rw [h]; exact hr.heads
    · refine ⟨s, h2, ?_⟩
      rcases hw _ h1 with ⟨g, -, h⟩ | ⟨g, -, h⟩ | h | h
      · simp at h
      · simp at h
      · simp only [Write.head.injEq, true_and] at h
        rw [h, ← hsame.ids]
        simp [head, List.map_map, Function.comp_def]
      · simp only [Write.head.injEq] at h
        exact absurd h.1 hne
    · rcases hw _ h1 with ⟨g, -, h⟩ | ⟨g, -, h⟩ | h | h <;> simp at h
  · rcases writes_heads_cases ent.index ws d with h | ⟨s, h1, h2⟩ | ⟨h1, -⟩
    · rw [h]; exact hr.hasIndex
    · exact ⟨s, h2⟩
    · rcases hw _ h1 with ⟨g, -, h⟩ | ⟨g, -, h⟩ | h | h <;> simp at h
  · intro o ho
    rcases writes_elems_cases ent.scores o.id ws d with h | ⟨l, h1, h2⟩ | ⟨h1, -⟩
    · exact .inl (by rw [h, hr.scores o ho])
    · rcases hw _ h1 with ⟨g, hg, h⟩ | ⟨g, hg, h⟩ | h | h
      · simp only [Write.elems.injEq, true_and] at h
        exact .inr ⟨g, hg, h.1.symm, by rw [h2, h.2]⟩
      · simp only [Write.elems.injEq] at h
        exact absurd h.1 hne
      · simp at h
      · simp at h
    · rcases hw _ h1 with ⟨g, -, h⟩ | ⟨g, -, h⟩ | h | h <;> simp at h

/-- Repairing whatever the storage has. `S` are elements among which those found are. -/
theorem repair_any {now : Nat} {sch shuffle : Sched} {reduce : Nat → Nat} {d : Store} {ent : Entry} {s0 i0 : Segs}
    (h1 : d.heads ent.scores = some s0) (h2 : d.heads ent.index = some i0) {S : List Element}
    (hS : ∀ e ∈ S, Storable e) (hlen : S.length + 2 ≤ 2 ^ 32)
    (hf : ∀ g ∈ s0.segs, ∀ l, d.elems ent.scores g.id = some l → ∀ e ∈ l, e ∈ S)
    (hred : ∀ n, 0 < n → 0 < reduce n) (hs : 4 ≤ ent.splitSize) :
    ∃ r, repair now sch shuffle reduce d ent = some r ∧ ListOK r ∧
      (∀ e ∈ r.content, ∃ g ∈ s0.segs, ∃ l, d.elems ent.scores g.id = some l ∧ e ∈ l) ∧
      (∀ g ∈ s0.segs, ∀ l, d.elems ent.scores g.id = some l → ∀ e ∈ l, ∃ k ∈ r.content, k.id = e.id) := by
  have hfound : ∀ g ∈ s0.segs.map (fill d ent.scores), (d.elems ent.scores g.id).isNone = false →
      ∃ g0 ∈ s0.segs, g = fill d ent.scores g0 ∧ ∃ l, d.elems ent.scores g0.id = some l ∧ g.elems = l := by
    intro g hg hn
    obtain ⟨g0, hg0, rfl⟩ := List.mem_map.1 hg
    refine ⟨g0, hg0, rfl, ?_⟩
    unfold fill at hn ⊢
    simp only [] at hn ⊢
    cases hd : d.elems ent.scores g0.id with
    | none => rw [hd] at hn; simp at hn
    | some l => exact ⟨l, rfl, rfl⟩
  let found : ListState := { scores := { s0 with segs := s0.segs.map (fill d ent.scores) }, index := Segments.empty now true
                             mergeSize := ent.mergeSize, splitSize := ent.splitSize }
  have hfs : ∀ s ∈ found.scores.segs, (d.elems ent.scores s.id).isNone = false → ∀ e ∈ s.elems, e ∈ S := by
    intro s hs hn e he
    obtain ⟨g0, hg0, -, l, hl, hgl⟩ := hfound s hs hn
    exact hf g0 hg0 l hl e (hgl ▸ he)
  have hU : ∀ s ∈ found.scores.segs, (d.elems ent.scores s.id).isNone = false → ∀ e ∈ s.elems, e.id ∈ S.map (·.id) :=
    fun s hs hn e he => List.mem_map.2 ⟨e, hfs s hs hn e he, rfl⟩
  have hst : ∀ s ∈ found.scores.segs, (d.elems ent.scores s.id).isNone = false → ∀ e ∈ s.elems, Storable e :=
    fun s hs hn e he => hS e (hfs s hs hn e he)
  have hl : (S.map (·.id)).length + 2 ≤ 2 ^ 32 := by simpa using hlen
  obtain ⟨r, hr⟩ := Props.repair_found_returns (now := now) (sch := sch) (shuffle := shuffle) hst hU hl hred hs
  obtain ⟨r1, r2, r3⟩ := Props.repair_found hst hU hl hr
  refine ⟨r, by unfold repair; rw [h1, h2]; exact hr, r1, ?_, ?_⟩
  · intro e he
    obtain ⟨s, hs, hn, hes⟩ := r2 e he
    obtain ⟨g0, hg0, -, l, hl, hgl⟩ := hfound s hs hn
    exact ⟨g0, hg0, l, hl, hgl ▸ hes⟩
  · intro g hg l hl e he
    have hgl : (fill d ent.scores g).elems = l := by unfold fill; rw [hl]; rfl
    have hn : (d.elems ent.scores (fill d ent.scores g).id).isNone = false := by
      show (d.elems ent.scores g.id).isNone = false
      rw [hl]; rfl
    obtain ⟨k, hk, hkid, -⟩ := r3 (fill d ent.scores g) (List.mem_map.2 ⟨g, hg, rfl⟩) hn e (by rw [hgl]; exact he)
    exact ⟨k, hk, hkid⟩

/-- Repairing a mixture of two lists with the same ranges. -/
theorem mixed_repair {now : Nat} {sch shuffle : Sched} {reduce : Nat → Nat} {d : Store} {ent : Entry}
    {st st' : ListState} (h : ListOK st) (h' : ListOK st') (hm : Mixed d ent st st')
    (hlen : st.content.length + st'.content.length + 2 ≤ 2 ^ 32)
    (hred : ∀ n, 0 < n → 0 < reduce n) (hs : 4 ≤ ent.splitSize) :
    ∃ r, repair now sch shuffle reduce d ent = some r ∧ ListOK r ∧
      (∀ e ∈ r.content, e ∈ st.content ∨ e ∈ st'.content) ∧
      (∀ s ∈ st.scores.segs, ∀ s' ∈ st'.scores.segs, s.id = s'.id → ∀ e ∈ s.elems, ∀ e' ∈ s'.elems, e.id = e'.id →
        e ∈ r.content ∨ e' ∈ r.content) := by
  obtain ⟨⟨s0, h1, h2⟩, ⟨i0, h2'⟩, h3⟩ := hm
  -- every segment that is found is an old or a new one
  have hf : ∀ g ∈ s0.segs, ∀ l, d.elems ent.scores g.id = some l → ∀ e ∈ l, e ∈ st.content ++ st'.content := by
    intro g hg l hl e he
    have : g.id ∈ st.scores.segs.map (·.id) := by rw [← h2]; exact List.mem_map.2 ⟨g, hg, rfl⟩
    obtain ⟨o, ho, hid⟩ := List.mem_map.1 this
    rw [← hid] at hl
    rw [List.mem_append]
    rcases h3 o ho with hx | ⟨g', hg', hid', hx⟩
    · rw [hx, Option.some.injEq] at hl
      exact .inl (mem_allElems.2 ⟨o, ho, hl ▸ he⟩)
    · rw [hx, Option.some.injEq] at hl
      exact .inr (mem_allElems.2 ⟨g', hg', hl ▸ he⟩)
  have hstor : ∀ e ∈ st.content ++ st'.content, Storable e := by
    intro e he
    rcases List.mem_append.1 he with he | he
    · exact h.scores.storable e he
    · exact h'.scores.storable e he
  obtain ⟨r, hr, r1, r2, r3⟩ := repair_any (now := now) (sch := sch) (shuffle := shuffle) (reduce := reduce) h1 h2' hstor
    (by rw [List.length_append]; exact hlen) hf hred hs
  have hsub : ∀ e ∈ r.content, e ∈ st.content ∨ e ∈ st'.content := by
    intro e he
    obtain ⟨g, hg, l, hl, hel⟩ := r2 e he
    exact List.mem_append.1 (hf g hg l hl e hel)
  refine ⟨r, hr, r1, hsub, ?_⟩
  intro s hs s' hs' hid e he e' he' hee
  have hgo : ∀ k ∈ r.content, k.id = e.id → e ∈ r.content ∨ e' ∈ r.content := by
    intro k hk hkid
    rcases hsub k hk with h5 | h5
    · left
      rw [← DistinctIDs.eq_of_id h.scores.distinct h5 (mem_allElems.2 ⟨s, hs, he⟩) hkid]; exact hk
    · right
      rw [← DistinctIDs.eq_of_id h'.scores.distinct h5 (mem_allElems.2 ⟨s', hs', he'⟩) (hkid.trans hee)]; exact hk
  have : s.id ∈ s0.segs.map (·.id) := by rw [h2]; exact List.mem_map.2 ⟨s, hs, rfl⟩
  obtain ⟨g, hg, hgid⟩ := List.mem_map.1 this
  rcases h3 s hs with hx | ⟨g', hg', hid', hx⟩
  · obtain ⟨k, hk, hkid⟩ := r3 g hg s.elems (by rw [hgid]; exact hx) e he
    exact hgo k hk hkid
  · have : g' = s' := eq_of_seg_id h'.scores.segIDs hg' hs' (by rw [hid', hid])
    subst this
    obtain ⟨k, hk, hkid⟩ := r3 g hg g'.elems (by rw [hgid]; exact hx) e' he'
    exact hgo k hk (hkid.trans hee.symm)

/-- An element that is in two lists with the same ranges is in segments with the same ID. -/
theorem same_seg {a b : List Seg} (ha : SegsOK a) (hb : SegsOK b) (hs : SameRanges b a) {e e' : Element}
    (hp : pos e.score e.tie = pos e'.score e'.tie) (h1 : e ∈ allElems a)
    (h2 : e' ∈ allElems b) : ∃ s ∈ a, ∃ s' ∈ b, s.id = s'.id ∧ e ∈ s.elems ∧ e' ∈ s'.elems := by
  obtain ⟨s, hs1, he⟩ := mem_allElems.1 h1
  obtain ⟨s', hs2, he'⟩ := mem_allElems.1 h2
  obtain ⟨t, ht, hr⟩ := forall₂_mem hs s' hs2
  have h3 : InRange t e' := (hr.inRange e').1 (hb.inRange s' hs2 e' he')
  have h4 : InRange s e := ha.inRange s hs1 e he
  have h5 : InRange t e := by unfold InRange at *; rw [hp]; exact h3
  have := tiles_unique ha.tiles hs1 ht h4 h5
  subst this
  exact ⟨s, hs1, s', hs2, hr.1.symm, he, he'⟩

/-- An operation from `st` to `st'` that keeps the ranges of the segments, with its writes. -/
structure Step (ent : Entry) (st st' : ListState) (ws : List Write) : Prop where
  scores : SameRanges st'.scores.segs st.scores.segs
  index : SameRanges st'.index.segs st.index.segs
  allowed : ∀ w ∈ ws, Allowed ent st' w
  coverScores : Cover ent.scores st.scores.segs st'.scores.segs ws
  coverIndex : Cover ent.index st.index.segs st'.index.segs ws

/-- All elements are stored if those that change are written. -/
theorem cover_stored {d : Store} {ws : List Write} {p : Str} {old new : List Seg} (hids : (new.map (·.id)).Nodup)
    (hall : ∀ w ∈ ws, (∃ g ∈ new, w = .elems p g.id g.elems) ∨ ∀ i l, w ≠ .elems p i l ∧ w ≠ .delElems p i)
    (hcov : Cover p old new ws) (ho : ∀ g ∈ old, d.elems p g.id = some g.elems) :
    ∀ g ∈ new, (writes d ws).elems p g.id = some g.elems := by
  intro g hg
  have hn : Write.delElems p g.id ∉ ws := by
    intro h
    rcases hall _ h with ⟨x, -, hx⟩ | hx
    · simp at hx
    · exact (hx g.id []).2 rfl
  have hu : ∀ l', Write.elems p g.id l' ∈ ws → l' = g.elems := by
    intro l' h
    rcases hall _ h with ⟨x, hx, he⟩ | hx
    · simp only [Write.elems.injEq, true_and] at he
      rw [he.2, eq_of_seg_id hids hx hg he.1.symm]
    · exact absurd rfl (hx g.id l').1
  rcases writes_elems_cases p g.id ws d with h1 | ⟨l, h1, h2⟩ | ⟨h1, h2⟩
  · rcases hcov g hg with h | ⟨o, ho1, ho2, ho3⟩
    · exact writes_elems_of_mem h hu hn
    · rw [h1, ← ho2, ho o ho1, ho3]
  · rw [h2, hu l h1]
  · exact absurd h1 hn

theorem step_elems {d : Store} {ent : Entry} {st st' : ListState} {ws : List Write} (hne : ent.scores ≠ ent.index)
    (h' : ListOK st') (hr : Stored d ent st) (hs : Step ent st st' ws) : Stored (writes d ws) ent st' := by
  constructor
  · refine cover_stored h'.scores.segIDs ?_ hs.coverScores hr.scores
    intro w hw
    rcases hs.allowed w hw with h | ⟨g, hg, rfl⟩ | rfl | rfl
    · exact .inl h
    · right; intro i l; simp [Ne.symm hne]
    · right; intro i l; simp
    · right; intro i l; simp
  · refine cover_stored h'.index.segIDs ?_ hs.coverIndex hr.index
    intro w hw
    rcases hs.allowed w hw with ⟨g, hg, rfl⟩ | h | rfl | rfl
    · right; intro i l; simp [hne]
    · exact .inl h
    · right; intro i l; simp
    · right; intro i l; simp

theorem step_ready {d : Store} {ent : Entry} {st st' : ListState} {ws : List Write} (hne : ent.scores ≠ ent.index)
    (h' : ListOK st') (hr : Ready d ent st) (hs : Step ent st st' ws) : Ready (writes d ws) ent st' := by
  have hm := mixed_of_allowed hne hr hs.scores hs.allowed
  refine ⟨step_elems hne h' hr.toStored hs, ?_, hm.hasIndex⟩
  rw [hs.scores.ids]
  exact hm.heads

/-- After the tables have been saved the list can be read back. -/
theorem ready_save {d : Store} {ent : Entry} {st : ListState} (hne : ent.scores ≠ ent.index) (hr : Stored d ent st)
    (hm : ent.mergeSize = st.mergeSize) (hsp : ent.splitSize = st.splitSize) :
    reload (writes d (saveSegments ent st)) ent = some st := by
  rw [reload_iff]
  refine ⟨⟨?_, hr.scores⟩, ⟨?_, hr.index⟩, hm, hsp⟩
  · simp [writes, saveSegments, write, hne, head, List.map_map, Function.comp_def]
  · simp [writes, saveSegments, write, head, List.map_map, Function.comp_def]

theorem step_reload {d : Store} {ent : Entry} {st st' : ListState} {ws : List Write} (hne : ent.scores ≠ ent.index)
    (h' : ListOK st') (hr : Stored d ent st) (hs : Step ent st st' ws) (hm : ent.mergeSize = st'.mergeSize)
    (hsp : ent.splitSize = st'.splitSize) : reload (writes d (ws ++ saveSegments ent st')) ent = some st' := by
  rw [writes_append]
  exact ready_save hne (step_elems hne h' hr hs) hm hsp

theorem allowed_save (ent : Entry) (st : ListState) : ∀ w ∈ saveSegments ent st, Allowed ent st w := by
  intro w hw
  simp only [saveSegments, List.mem_cons, List.not_mem_nil, or_false] at hw
  rcases hw with rfl | rfl
  · exact .inr (.inr (.inl rfl))
  · exact .inr (.inr (.inr rfl))

/-- The storage after a crash. -/
theorem step_crash {d : Store} {ent : Entry} {st st' : ListState} {ws : List Write} (hne : ent.scores ≠ ent.index)
    (hr : Ready d ent st) (hs : Step ent st st' ws) (k : Nat) :
    Mixed (crash k d (ws ++ saveSegments ent st')) ent st st' := by
  unfold crash
  refine mixed_of_allowed hne hr hs.scores fun w hw => ?_
  rcases List.mem_append.1 (List.mem_of_mem_take hw) with h | h
  · exact hs.allowed w h
  · exact allowed_save ent st' w h

/-! ### Insert -/

theorem insertLoop_same (now : Nat) : ∀ (segs : List Seg) (inp : List Element),
    SameRanges (Segments.insertLoop now segs inp).1 segs
  | [], _ => .nil
  | s :: ss, inp => by
    unfold Segments.insertLoop
    simp only []
    split
    · exact .cons (SameRange.refl s) (insertLoop_same now ss inp)
    · exact .cons ⟨rfl, rfl, rfl, rfl, rfl⟩ (insertLoop_same now ss _)

theorem insertLoop_untouched (now : Nat) : ∀ (segs : List Seg) (k : Nat) (inp : List Element) (j : Nat),
    k + j ∉ touched k segs inp → (Segments.insertLoop now segs inp).1[j]? = segs[j]?
  | [], _, _, _, _ => rfl
  | s :: ss, k, inp, j, h => by
    unfold Segments.insertLoop
    unfold touched at h
    simp only [] at h ⊢
    split
    · rename_i hse
      rw [if_pos hse] at h
      cases j with
      | zero => rfl
      | succ j =>
        simp only [List.getElem?_cons_succ]
        exact insertLoop_untouched now ss (k + 1) inp j (by rw [Nat.add_right_comm]; exact h)
    · rename_i hse
      rw [if_neg hse] at h
      simp only [List.mem_cons, not_or] at h
      cases j with
      | zero => exact absurd rfl h.1
      | succ j =>
        simp only [List.getElem?_cons_succ]
        exact insertLoop_untouched now ss (k + 1) _ j (by rw [Nat.add_right_comm]; exact h.2)

theorem cover_mono {p : Str} {old new : List Seg} {a b : List Write} (h : Cover p old new a) (hab : ∀ w ∈ a, w ∈ b) :
    Cover p old new b := fun g hg => (h g hg).imp (hab _) id

theorem insertChunk_step (now : Nat) (sch : Sched) (ent : Entry) (st : ListState) (e : List Element) :
    Step ent st (Lists.insertChunk now sch st e) (insertChunk now sch ent st e) := by
  have hA := replaceAt_of ent.scores (touched 0 st.scores.segs (Elements.sortSlice (Elements.sortSlice e)))
    (Lists.insertChunk now sch st e).scores.segs sch
  have hB := replaceAt_of ent.index (touched 0 st.index.segs (Elements.sortSlice (Elements.sortSlice
    (Segments.insert now sch st.scores.segs (Elements.sortSlice e)).2)))
    (Lists.insertChunk now sch st e).index.segs sch
  refine ⟨?_, ?_, ?_, ?_, ?_⟩
  · exact insertLoop_same now _ _
  · exact insertLoop_same now _ _
  · intro w hw
    unfold insertChunk at hw
    rcases List.mem_append.1 hw with h | h
    · exact .inl (hA w h)
    · exact .inr (.inl (hB w h))
  · refine cover_mono (replaceAt_cover sch (ps := touched 0 st.scores.segs (Elements.sortSlice (Elements.sortSlice e))) ?_) fun w hw => List.mem_append_left _ hw
    intro j hj
    show ((Segments.insertLoop now st.scores.segs (Elements.sortSlice (Elements.sortSlice e))).1[j]?).map _ = _
    rw [insertLoop_untouched now st.scores.segs 0 _ j (by rw [Nat.zero_add]; exact hj)]
  · refine cover_mono (replaceAt_cover sch (ps := touched 0 st.index.segs (Elements.sortSlice (Elements.sortSlice
      (Segments.insert now sch st.scores.segs (Elements.sortSlice e)).2))) ?_) fun w hw => List.mem_append_right _ hw
    intro j hj
    show ((Segments.insertLoop now st.index.segs (Elements.sortSlice (Elements.sortSlice
      (Segments.insert now sch st.scores.segs (Elements.sortSlice e)).2))).1[j]?).map _ = _
    rw [insertLoop_untouched now st.index.segs 0 _ j (by rw [Nat.zero_add]; exact hj)]

theorem insertChunks_reload {now : Nat} {sch : Sched} {ent : Entry} (hne : ent.scores ≠ ent.index) :
    ∀ {cs : List (List Element)} {st : ListState} {d : Store}, ListOK st → Stored d ent st →
    (∀ e ∈ cs.flatten, Storable e) → DistinctIDs (st.content ++ cs.flatten) →
    ent.mergeSize = st.mergeSize → ent.splitSize = st.splitSize →
    reload (writes d (insertChunks now sch ent st cs)) ent = some (cs.foldl (Lists.insertChunk now sch) st)
  | [], st, d, _, hr, _, _, hm, hs => ready_save hne hr hm hs
  | c :: cs, st, d, h, hr, hl, hd, hm, hs => by
    rw [List.flatten_cons, ← List.append_assoc] at hd
    have hd1 : DistinctIDs (st.content ++ c) := by
      unfold DistinctIDs at *
      exact List.Pairwise.sublist ((List.sublist_append_left _ _).map _) hd
    obtain ⟨h1, h2⟩ := Lists.insertChunk_spec (now := now) (sch := sch) h (fun e he => hl e (by simp [he])) hd1
    unfold insertChunks
    rw [writes_append]
    exact insertChunks_reload hne h1 (step_elems hne h1 hr (insertChunk_step now sch ent st c))
      (fun e he => hl e (by rw [List.flatten_cons]; exact List.mem_append_right _ he))
      (hd.perm (h2.symm.append_right _)) hm hs

/-- A crash while inserting: two lists, both with the old elements, between which the storage is. -/
theorem insertChunks_crash {now : Nat} {sch : Sched} {ent : Entry} (hne : ent.scores ≠ ent.index) :
    ∀ {cs : List (List Element)} {st : ListState} {d : Store} (k : Nat), ListOK st → Ready d ent st →
    (∀ e ∈ cs.flatten, Storable e) → DistinctIDs (st.content ++ cs.flatten) →
    ∃ a b, ListOK a ∧ ListOK b ∧ SameRanges b.scores.segs a.scores.segs ∧
      Mixed (crash k d (insertChunks now sch ent st cs)) ent a b ∧
      (∀ e ∈ st.content, e ∈ a.content ∧ e ∈ b.content) ∧
      (∀ e, e ∈ a.content ∨ e ∈ b.content → e ∈ st.content ∨ e ∈ cs.flatten) ∧
      a.content.length ≤ st.content.length + cs.flatten.length ∧
      b.content.length ≤ st.content.length + cs.flatten.length
  | [], st, d, k, h, hr, _, _ => by
    refine ⟨st, st, h, h, SameRanges.refl _, ?_, fun e he => ⟨he, he⟩, fun e he => .inl (he.elim id id), by omega, by omega⟩
    unfold crash insertChunks
    exact mixed_of_allowed hne hr (SameRanges.refl _) fun w hw => allowed_save ent st w (List.mem_of_mem_take hw)
  | c :: cs, st, d, k, h, hr, hl, hd => by
    rw [List.flatten_cons, ← List.append_assoc] at hd
    have hd1 : DistinctIDs (st.content ++ c) := by
      unfold DistinctIDs at *
      exact List.Pairwise.sublist ((List.sublist_append_left _ _).map _) hd
    obtain ⟨h1, h2⟩ := Lists.insertChunk_spec (now := now) (sch := sch) h (fun e he => hl e (by simp [he])) hd1
    have hstep := insertChunk_step now sch ent st c
    have hlen := h2.length_eq
    rw [List.length_append] at hlen
    by_cases hk : k ≤ (insertChunk now sch ent st c).length
    · refine ⟨st, _, h, h1, hstep.scores, ?_, ?_, ?_, by omega, ?_⟩
      · unfold crash insertChunks
        rw [List.take_append_of_le_length hk]
        exact mixed_of_allowed hne hr hstep.scores fun w hw => hstep.allowed w (List.mem_of_mem_take hw)
      · intro e he
        exact ⟨he, h2.mem_iff.2 (List.mem_append_left _ he)⟩
      · rintro e (he | he)
        · exact .inl he
        · rcases List.mem_append.1 (h2.mem_iff.1 he) with he | he
          · exact .inl he
          · exact .inr (by simp [he])
      · rw [List.flatten_cons, List.length_append]; omega
    · obtain ⟨a, b, ha, hb, hab, hm, h3, h4, h5, h6⟩ := insertChunks_crash (now := now) (sch := sch) hne
        (cs := cs) (k - (insertChunk now sch ent st c).length) h1 (step_ready hne h1 hr hstep)
        (fun e he => hl e (by rw [List.flatten_cons]; exact List.mem_append_right _ he))
        (hd.perm (h2.symm.append_right _))
      refine ⟨a, b, ha, hb, hab, ?_, ?_, ?_, ?_, ?_⟩
      · unfold crash insertChunks
        rw [List.take_append, List.take_of_length_le (by omega), writes_append]
        exact hm
      · intro e he
        exact h3 e (h2.mem_iff.2 (List.mem_append_left _ he))
      · intro e he
        rcases h4 e he with h7 | h7
        · rcases List.mem_append.1 (h2.mem_iff.1 h7) with h8 | h8
          · exact .inl h8
          · exact .inr (by rw [List.flatten_cons]; exact List.mem_append_left _ h8)
        · exact .inr (by rw [List.flatten_cons]; exact List.mem_append_right _ h7)
      · rw [List.flatten_cons, List.length_append]; omega
      · rw [List.flatten_cons, List.length_append]; omega

/-! ### DeleteElements -/

theorem deleteLoop_same (now : Nat) : ∀ (segs : List Seg) (inp : List Element),
    SameRanges (Segments.deleteElements now segs inp) segs
  | [], _ => .nil
  | s :: ss, inp => by
    unfold Segments.deleteElements
    simp only []
    split
    · exact .cons (SameRange.refl s) (deleteLoop_same now ss inp)
    · exact .cons ⟨rfl, rfl, rfl, rfl, rfl⟩ (deleteLoop_same now ss _)

theorem deleteLoop_untouched (now : Nat) : ∀ (segs : List Seg) (k : Nat) (inp : List Element) (j : Nat),
    k + j ∉ touched k segs inp → (Segments.deleteElements now segs inp)[j]? = segs[j]?
  | [], _, _, _, _ => rfl
  | s :: ss, k, inp, j, h => by
    unfold Segments.deleteElements
    unfold touched at h
    simp only [] at h ⊢
    split
    · rename_i hse
      rw [if_pos hse] at h
      cases j with
      | zero => rfl
      | succ j =>
        simp only [List.getElem?_cons_succ]
        exact deleteLoop_untouched now ss (k + 1) inp j (by rw [Nat.add_right_comm]; exact h)
    · rename_i hse
      rw [if_neg hse] at h
      simp only [List.mem_cons, not_or] at h
      cases j with
      | zero => exact absurd rfl h.1
      | succ j =>
        simp only [List.getElem?_cons_succ]
        exact deleteLoop_untouched now ss (k + 1) _ j (by rw [Nat.add_right_comm]; exact h.2)

theorem deleteIdx_same (now : Nat) (sch : Sched) (segs : List Seg) (idx : List Element) :
    SameRanges (Segments.deleteElementsIdx now sch segs idx).1 segs := by
  unfold Segments.deleteElementsIdx
  apply mapFrom_same
  intro i s
  unfold Segments.deleteIdxAt
  simp only []
  split
  · exact SameRange.refl s
  · exact ⟨rfl, rfl, rfl, rfl, rfl⟩

theorem deleteIdx_untouched (now : Nat) (sch : Sched) (segs : List Seg) (idx : List Element) (j : Nat)
    (hj : j ∉ touchedIdx segs idx) : (Segments.deleteElementsIdx now sch segs idx).1[j]? = segs[j]? := by
  unfold Segments.deleteElementsIdx
  simp only []
  rw [mapFrom_getElem?, Nat.zero_add]
  cases hs : segs[j]? with
  | none => rfl
  | some s =>
    have hlt : j < segs.length := (List.getElem?_eq_some_iff.1 hs).1
    unfold touchedIdx at hj
    simp only [List.mem_filter, List.mem_range, not_and, Bool.not_eq_true', Bool.not_eq_false] at hj
    simp only [Option.map_some, Segments.deleteIdxAt]
    rw [if_pos (by simpa using hj hlt)]

theorem deleteElements_step (now : Nat) (sch : Sched) (ent : Entry) (st : ListState) (ids : List Nat) :
    ∃ ws, deleteElements now sch ent st ids = ws ++ saveSegments ent (Lists.deleteElements now sch st ids) ∧
      Step ent st (Lists.deleteElements now sch st ids) ws := by
  have hsc : (Lists.deleteElements now sch st ids).scores.segs =
      (Segments.deleteElementsIdx now sch st.scores.segs (Lists.getIndexElements sch st ids)).1 := by
    unfold Lists.deleteElements
    simp only []
    split <;> rfl
  have hix : (Lists.deleteElements now sch st ids).index.segs = Segments.deleteElements now st.index.segs
      (Segments.deleteElementsIdx now sch st.scores.segs (Lists.getIndexElements sch st ids)).2 := by
    unfold Lists.deleteElements
    simp only []
    split
    · rename_i he
      have : (Segments.deleteElementsIdx now sch st.scores.segs (Lists.getIndexElements sch st ids)).2 = [] := by
        simpa using he
      rw [this]
      have hnil : ∀ segs : List Seg, Segments.deleteElements now segs [] = segs := by
        intro segs
        induction segs with
        | nil => rfl
        | cons s ss ih =>
          unfold Segments.deleteElements
          simp [Segment.filterIdx, Segment.firstNotAbove, ih]
      rw [hnil]
    · rfl
  refine ⟨sch.order (replaceAt ent.scores (touchedIdx st.scores.segs (Lists.getIndexElements sch st ids))
      (Lists.deleteElements now sch st ids).scores.segs) ++
    sch.order (replaceAt ent.index (touched 0 st.index.segs
      (Segments.deleteElementsIdx now sch st.scores.segs (Lists.getIndexElements sch st ids)).2)
      (Lists.deleteElements now sch st ids).index.segs), ?_, ?_, ?_, ?_, ?_, ?_⟩
  · unfold deleteElements
    simp only [List.append_assoc]
  · rw [hsc]; exact deleteIdx_same now sch _ _
  · rw [hix]; exact deleteLoop_same now _ _
  · intro w hw
    rcases List.mem_append.1 hw with h | h
    · exact .inl (replaceAt_of _ _ _ sch w h)
    · exact .inr (.inl (replaceAt_of _ _ _ sch w h))
  · refine cover_mono (replaceAt_cover sch (ps := touchedIdx st.scores.segs (Lists.getIndexElements sch st ids)) ?_)
      fun w hw => List.mem_append_left _ hw
    intro j hj
    rw [hsc, deleteIdx_untouched now sch _ _ j hj]
  · refine cover_mono (replaceAt_cover sch (ps := touched 0 st.index.segs
      (Segments.deleteElementsIdx now sch st.scores.segs (Lists.getIndexElements sch st ids)).2) ?_)
      fun w hw => List.mem_append_right _ hw
    intro j hj
    rw [hix, deleteLoop_untouched now _ 0 _ j (by rw [Nat.zero_add]; exact hj)]

/-! ### UpdateElements -/

theorem updateElements_step {now : Nat} {sch : Sched} {ent : Entry} {st : ListState} {es : List Element} (h : ListOK st)
    (hes : ∀ e ∈ es, Storable e) (hd : DistinctIDs es) (hnow : now < 2 ^ 32 - 1) :
    ∃ ws, updateElements now sch ent st es = ws ++ saveSegments ent (Lists.updateElements now sch st es) ∧
      Step ent st (Lists.updateElements now sch st es) ws := by
  obtain ⟨-, -, -, -, f1, f2, -, -, f3, f4⟩ := Lists.updateElements_full (sch := sch) h hes hd hnow
  refine ⟨sch.order (replaceAt ent.index (Lists.loadedIndex st es).eraseDups
      (Lists.updateElements now sch st es).index.segs) ++
    sch.order (replaceAt ent.scores (Lists.loadedScores st es).eraseDups
      (Lists.updateElements now sch st es).scores.segs), ?_, f1, f2, ?_, ?_, ?_⟩
  · unfold updateElements
    simp only [List.append_assoc]
  · intro w hw
    rcases List.mem_append.1 hw with h | h
    · exact .inr (.inl (replaceAt_of _ _ _ sch w h))
    · exact .inl (replaceAt_of _ _ _ sch w h)
  · refine cover_mono (replaceAt_cover sch (ps := (Lists.loadedScores st es).eraseDups) ?_)
      fun w hw => List.mem_append_right _ hw
    intro j hj
    rw [f3 j (by simpa using hj)]
  · refine cover_mono (replaceAt_cover sch (ps := (Lists.loadedIndex st es).eraseDups) ?_)
      fun w hw => List.mem_append_left _ hw
    intro j hj
    rw [f4 j (by simpa using hj)]

end RankDB.Disk

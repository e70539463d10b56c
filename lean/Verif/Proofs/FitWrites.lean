import Verif.Proofs.Fit
import Verif.Proofs.Pool
/-
Everything that requests write fits its stored form: times are set, numbers have the size of their Go types, and
there is room for the number of elements.
-/
namespace RankDB.Disk
open Spec

/-- A time that is set and fits 32 bits. -/
def SetTime (u : Nat) : Prop := 0 < u ∧ u < 2 ^ 32

/-- An element as it is stored: all fields fit, the time is set, the payload is not too long. -/
structure Fine (e : Element) : Prop where
  storable : Storable e
  set : 0 < e.updated
  payload : e.payload.length < 2 ^ 32

theorem closed_fine {now : Nat} (h : 0 < now ∧ now < 2 ^ 32 - 1) : Closed now SetTime Fine := by
  refine ⟨⟨h.1, by omega⟩, ?_, ?_, ?_⟩
  · intro e s he
    obtain ⟨⟨a, b, c, d⟩, e2, e3⟩ := he
    refine ⟨⟨b, b, ?_, d⟩, e2, by simp [Element.asIndex]⟩
    simp only [Element.asIndex]
    exact Nat.mod_lt _ (by decide)
  · intro e he
    unfold Elements.touch
    split
    · exact ⟨⟨he.storable.score, he.storable.id, he.storable.tie, h.2⟩, h.1, he.payload⟩
    · exact he
  · intro e t he
    exact ⟨⟨he.storable.score, he.storable.id, Nat.mod_lt _ (by decide), h.2⟩, h.1, he.payload⟩

/-- A segment whose fields fit. -/
structure SegFits (g : Seg) : Prop where
  time : SetTime g.updated
  id : g.id < 2 ^ 32
  min : g.min < 2 ^ 64
  max : g.max < 2 ^ 64
  minTie : g.minTie < 2 ^ 32
  maxTie : g.maxTie < 2 ^ 32
  n : g.n < 2 ^ 32

/-- Segments that fit. -/
structure HeadFits (s : Segs) : Prop where
  next : s.nextID < 2 ^ 32
  count : s.segs.length < 2 ^ 32
  segs : ∀ g ∈ s.segs, SegFits g

/-- Elements of a segment that fit. -/
structure ElemsFit (l : List Element) : Prop where
  count : l.length < 2 ^ 32
  fine : ∀ e ∈ l, Fine e

/-- A write that fits; segments are written without their elements. -/
def WriteFits : Write → Prop
  | .head _ s => HeadFits s ∧ head s = s
  | .elems _ i l => i < 2 ^ 32 ∧ ElemsFit l
  | .delHead _ => True
  | .delElems _ i => i < 2 ^ 32

/-- Everything in the storage fits. -/
structure StoreFits (d : Store) : Prop where
  heads : ∀ p s, d.heads p = some s → HeadFits s
  elems : ∀ p i l, d.elems p i = some l → ElemsFit l

theorem StoreFits.write {d : Store} {w : Write} (h : StoreFits d) (hw : WriteFits w) : StoreFits (write d w) := by
  cases w with
  | head p s =>
    refine ⟨fun q t ht => ?_, h.elems⟩
    simp only [Disk.write] at ht
    split at ht
    · cases ht; exact hw.1
    · exact h.heads q t ht
  | elems p i l =>
    refine ⟨h.heads, fun q j m hm => ?_⟩
    simp only [Disk.write] at hm
    split at hm
    · cases hm; exact hw.2
    · exact h.elems q j m hm
  | delHead p =>
    refine ⟨fun q t ht => ?_, h.elems⟩
    simp only [Disk.write] at ht
    split at ht
    · cases ht
    · exact h.heads q t ht
  | delElems p i =>
    refine ⟨h.heads, fun q j m hm => ?_⟩
    simp only [Disk.write] at hm
    split at hm
    · cases hm
    · exact h.elems q j m hm

theorem StoreFits.writes {ws : List Write} {d : Store} (h : StoreFits d) (hw : ∀ w ∈ ws, WriteFits w) : StoreFits (writes d ws) := by
  induction ws generalizing d with
  | nil => exact h
  | cons w ws ih => exact ih (h.write (hw w (by simp))) fun x hx => hw x (by simp [hx])

/-- What a program reads from such a storage. -/
structure ListFits (st : ListState) : Prop where
  fit : Fit SetTime Fine st
  scores : HeadFits st.scores
  index : HeadFits st.index

theorem fits_loadSegs {d : Store} {p : Str} {s : Segs} (h : StoreFits d) (hl : loadSegs d p = some s) :
    HeadFits s ∧ Each SetTime Fine s.segs := by
  unfold loadSegs at hl
  cases hd : d.heads p with
  | none => rw [hd] at hl; simp at hl
  | some s0 =>
    rw [hd] at hl
    dsimp only at hl
    split at hl
    · simp only [Option.some.injEq] at hl
      subst hl
      have h0 := h.heads p s0 hd
      refine ⟨⟨h0.next, by simpa using h0.count, ?_⟩, ?_⟩
      · intro g hg
        obtain ⟨g0, hg0, rfl⟩ := List.mem_map.1 hg
        obtain ⟨a, b, c, d, e, f, i⟩ := h0.segs g0 hg0
        exact ⟨a, b, c, d, e, f, i⟩
      · intro g hg
        obtain ⟨g0, hg0, rfl⟩ := List.mem_map.1 hg
        refine ⟨(h0.segs g0 hg0).time, ?_⟩
        intro e he
        unfold fill at he
        dsimp only at he
        cases hx : d.elems p g0.id with
        | none => rw [hx] at he; simp at he
        | some l => rw [hx] at he; exact (h.elems p _ l hx).fine e he
    · simp at hl

theorem fits_reload {d : Store} {ent : Entry} {st : ListState} (h : StoreFits d) (hr : reload d ent = some st) : ListFits st := by
  unfold reload at hr
  split at hr
  · rename_i s i hs hi
    simp only [Option.some.injEq] at hr
    subst hr
    obtain ⟨a1, a2⟩ := fits_loadSegs h hs
    obtain ⟨b1, b2⟩ := fits_loadSegs h hi
    exact ⟨⟨a2, b2⟩, a1, b1⟩
  · simp at hr

/-! ### Lists that are in order and not too large fit -/

theorem mem_length_le {segs : List Seg} {g : Seg} (hg : g ∈ segs) : g.elems.length ≤ (allElems segs).length := by
  induction segs with
  | nil => simp at hg
  | cons s ss ih =>
    have : allElems (s :: ss) = s.elems ++ allElems ss := by simp [allElems]
    rw [this, List.length_append]
    rcases List.mem_cons.1 hg with rfl | hg
    · omega
    · have := ih hg; omega

theorem index_length {st : ListState} (h : ListOK st) : (allElems st.index.segs).length = st.content.length := by
  have := h.link.complete.length_eq
  unfold indexed placement at this
  rw [List.length_map] at this
  rw [this]
  show _ = (allElems st.scores.segs).length
  unfold allElems
  simp [List.length_flatMap]

theorem segFits {segs : List Seg} {nid : Nat} (h : SegsOK segs) (hc : Counted segs) (hid : ∀ g ∈ segs, 0 < g.id ∧ g.id < nid)
    (hn : nid < 2 ^ 32) (hu : Each SetTime Fine segs) (hlen : (allElems segs).length < 2 ^ 32) :
    segs.length < 2 ^ 32 ∧ ∀ g ∈ segs, SegFits g := by
  constructor
  · have := Props.nodup_length_le (l := segs.map (·.id)) (l' := List.range nid) h.segIDs (by
      intro i hi
      obtain ⟨g, hg, rfl⟩ := List.mem_map.1 hi
      exact List.mem_range.2 (hid g hg).2)
    simp only [List.length_map, List.length_range] at this
    omega
  · intro g hg
    obtain ⟨t1, t2⟩ := h.ties g hg
    obtain ⟨l1, l2⟩ := tiles_le h.tiles g hg
    have hm := mem_length_le hg
    have hcg := hc g hg
    unfold lo hi top pos at *
    refine ⟨(hu g hg).1, by have := (hid g hg).2; omega, by omega, by omega, t1, t2, by omega⟩

theorem listFits {st : ListState} (h : ListOK st) (hf : Fit SetTime Fine st) (hn : NextUpTo (2 ^ 32 - 1) st)
    (hlen : st.content.length < 2 ^ 32) : ListFits st := by
  obtain ⟨a1, a2⟩ := segFits h.scores h.scoresCount h.scoresIDs.1 (by have := hn.1; omega) hf.scores hlen
  obtain ⟨b1, b2⟩ := segFits h.index h.indexCount h.indexIDs.1 (by have := hn.2; omega) hf.index (by rw [index_length h]; exact hlen)
  exact ⟨hf, ⟨by have := hn.1; omega, a1, a2⟩, ⟨by have := hn.2; omega, b1, b2⟩⟩

theorem headFits_head {s : Segs} (h : HeadFits s) : HeadFits (head s) := by
  refine ⟨h.next, by simpa [head] using h.count, ?_⟩
  intro g hg
  obtain ⟨g0, hg0, rfl⟩ := List.mem_map.1 hg
  obtain ⟨a, b, c, d, e, f, i⟩ := h.segs g0 hg0
  exact ⟨a, b, c, d, e, f, i⟩

theorem head_head (s : Segs) : head (head s) = head s := by
  unfold head; simp [List.map_map, Function.comp_def]

theorem elemsFit {st : ListState} (h : ListOK st) (hf : ListFits st) : 
    (∀ g ∈ st.scores.segs, g.id < 2 ^ 32 ∧ ElemsFit g.elems) ∧ ∀ g ∈ st.index.segs, g.id < 2 ^ 32 ∧ ElemsFit g.elems := by
  refine ⟨fun g hg => ⟨(hf.scores.segs g hg).id, ?_, (hf.fit.scores g hg).2⟩, fun g hg => ⟨(hf.index.segs g hg).id, ?_, (hf.fit.index g hg).2⟩⟩
  · rw [← h.scoresCount g hg]; exact (hf.scores.segs g hg).n
  · rw [← h.indexCount g hg]; exact (hf.index.segs g hg).n

theorem fits_allowed {ent : Entry} {st : ListState} (h : ListOK st) (hf : ListFits st) {w : Write} (hw : Allowed ent st w) : WriteFits w := by
  obtain ⟨a, b⟩ := elemsFit h hf
  rcases hw with ⟨g, hg, rfl⟩ | ⟨g, hg, rfl⟩ | rfl | rfl
  · exact a g hg
  · exact b g hg
  · exact ⟨headFits_head hf.scores, head_head _⟩
  · exact ⟨headFits_head hf.index, head_head _⟩

theorem fits_save {ent : Entry} {st : ListState} (h : ListOK st) (hf : ListFits st) : ∀ w ∈ saveSegments ent st, WriteFits w :=
  fun w hw => fits_allowed h hf (allowed_save ent st w hw)

theorem fits_newSegs {p : Str} {segs : List Seg} (h : ∀ g ∈ segs, g.id < 2 ^ 32 ∧ ElemsFit g.elems) : ∀ w ∈ newSegs p segs, WriteFits w := by
  intro w hw
  obtain ⟨g, hg, rfl⟩ := List.mem_map.1 hw
  exact h g hg

theorem fits_deleteSegs {sch : Sched} {p : Str} {segs : List Seg} (h : ∀ g ∈ segs, g.id < 2 ^ 32) : ∀ w ∈ deleteSegs sch p segs, WriteFits w := by
  intro w hw
  rcases List.mem_append.1 hw with hw | hw
  · obtain ⟨g, hg, rfl⟩ := List.mem_map.1 ((sch.perm _).mem_iff.1 hw)
    exact h g hg
  · simp only [List.mem_singleton] at hw; subst hw; trivial

theorem fits_deleteAll {sch : Sched} {d : Store} {ent : Entry} (h : StoreFits d) : ∀ w ∈ Server.deleteAll sch d ent, WriteFits w := by
  intro w hw
  unfold Server.deleteAll at hw
  split at hw
  · rename_i s i hs hi
    rcases List.mem_append.1 hw with hw | hw
    · exact fits_deleteSegs (fun g hg => ((h.heads _ _ hs).segs g hg).id) w hw
    · exact fits_deleteSegs (fun g hg => ((h.heads _ _ hi).segs g hg).id) w hw
  · rename_i s hs hi
    split at hw
    · exact fits_deleteSegs (fun g hg => ((h.heads _ _ hs).segs g hg).id) w hw
    · simp at hw
  · simp at hw

/-! ### The writes of every operation -/

theorem ListFits.next {st : ListState} (h : ListFits st) : NextUpTo (2 ^ 32 - 1) st :=
  ⟨by have := h.scores.next; omega, by have := h.index.next; omega⟩

theorem fits_insertChunks {now : Nat} {sch : Sched} {ent : Entry} (hnow : 0 < now ∧ now < 2 ^ 32 - 1) :
    ∀ {cs : List (List Element)} {st : ListState}, ListOK st → ListFits st →
    (∀ e ∈ cs.flatten, Fine e) → DistinctIDs (st.content ++ cs.flatten) → st.content.length + cs.flatten.length < 2 ^ 32 →
    ∀ w ∈ insertChunks now sch ent st cs, WriteFits w
  | [], st, h, hf, _, _, _ => fits_save h hf
  | c :: cs, st, h, hf, hl, hd, hlen => by
    rw [List.flatten_cons, ← List.append_assoc] at hd
    rw [List.flatten_cons, List.length_append] at hlen
    have hd1 : DistinctIDs (st.content ++ c) := by
      unfold DistinctIDs at *
      exact List.Pairwise.sublist ((List.sublist_append_left _ _).map _) hd
    have hlc : ∀ e ∈ c, Fine e := fun e he => hl e (by simp [he])
    obtain ⟨h1, h2⟩ := Lists.insertChunk_spec (now := now) (sch := sch) h (fun e he => (hlc e he).storable) hd1
    have hlen' := h2.length_eq
    rw [List.length_append] at hlen'
    have hf1 : ListFits (Lists.insertChunk now sch st c) :=
      listFits h1 (fit_insertChunk (closed_fine hnow) hf.fit hlc) hf.next (by omega)
    intro w hw
    unfold insertChunks at hw
    rcases List.mem_append.1 hw with hw | hw
    · exact fits_allowed h1 hf1 ((insertChunk_step now sch ent st c).allowed w hw)
    · exact fits_insertChunks hnow h1 hf1 (fun e he => hl e (by rw [List.flatten_cons]; exact List.mem_append_right _ he))
        (hd.perm (h2.symm.append_right _)) (by omega) w hw

theorem fits_insert {now : Nat} {sch : Sched} {ent : Entry} {st : ListState} {es : List Element} (hnow : 0 < now ∧ now < 2 ^ 32 - 1)
    (h : ListOK st) (hf : ListFits st) (hl : ∀ e ∈ es, Fine e) (hd : DistinctIDs (st.content ++ es))
    (hlen : st.content.length + es.length < 2 ^ 32) : ∀ w ∈ insert now sch ent st es, WriteFits w := by
  unfold insert
  cases hc : Lists.chunks (Lists.insertLimit st) es.length es with
  | none => simp
  | some cs =>
    have hfl := Lists.chunks_flatten hc
    rw [← hfl] at hl hd hlen
    exact fits_insertChunks hnow h hf hl hd hlen

theorem fits_deleteElements {now : Nat} {sch : Sched} {ent : Entry} {st : ListState} {ids : List Nat} (hnow : 0 < now ∧ now < 2 ^ 32 - 1)
    (h : ListOK st) (hf : ListFits st) (hid : ∀ v ∈ ids, v < 2 ^ 64) (hlen : st.content.length < 2 ^ 32) :
    ∀ w ∈ deleteElements now sch ent st ids, WriteFits w := by
  obtain ⟨h1, h2, -⟩ := Lists.deleteElements_spec (now := now) (sch := sch) h hid
  have hl : (Lists.deleteElements now sch st ids).content.length ≤ st.content.length := by
    rw [h2]; unfold remove; exact List.length_filter_le _ _
  have hf1 := listFits h1 (fit_delete (sch := sch) (ids := ids) (closed_fine hnow).time hf.fit)
    ⟨by rw [next_delete.1]; exact hf.next.1, by rw [next_delete.2]; exact hf.next.2⟩ (by omega)
  obtain ⟨ws, hws, hstep⟩ := deleteElements_step now sch ent st ids
  rw [hws]
  intro w hw
  rcases List.mem_append.1 hw with hw | hw
  · exact fits_allowed h1 hf1 (hstep.allowed w hw)
  · exact fits_save h1 hf1 w hw

theorem upsert_length_le {l es : List Element} : (upsert l es).length ≤ l.length + es.length := by
  unfold upsert
  rw [List.length_append]
  have := List.length_filter_le (fun e => !((es.map (·.id)).contains e.id)) l
  have := List.length_filter_le (fun e : Element => decide (e.id ∉ es.map (·.id))) l
  grind

theorem fits_updateElements {now : Nat} {sch : Sched} {ent : Entry} {st : ListState} {es : List Element} (hnow : 0 < now ∧ now < 2 ^ 32 - 1)
    (h : ListOK st) (hf : ListFits st) (hl : ∀ e ∈ es, Fine e) (hd : DistinctIDs es) (hlen : st.content.length + es.length < 2 ^ 32) :
    ∀ w ∈ updateElements now sch ent st es, WriteFits w := by
  obtain ⟨h1, h2, -⟩ := Lists.updateElements_spec (sch := sch) h (fun e he => (hl e he).storable) hd hnow.2
  have hle := h2.length_eq
  have := upsert_length_le (l := st.content) (es := es.map (stamp now))
  rw [List.length_map] at this
  have hf1 := listFits h1 (fit_update (closed_fine hnow) hf.fit hl) hf.next (by omega)
  obtain ⟨ws, hws, hstep⟩ := updateElements_step (sch := sch) (ent := ent) h (fun e he => (hl e he).storable) hd hnow.2
  rw [hws]
  intro w hw
  rcases List.mem_append.1 hw with hw | hw
  · exact fits_allowed h1 hf1 (hstep.allowed w hw)
  · exact fits_save h1 hf1 w hw

theorem fits_new {ent : Entry} {st : ListState} (h : ListOK st) (hf : ListFits st) :
    (∀ w ∈ newSegs ent.scores st.scores.segs, WriteFits w) ∧ ∀ w ∈ newSegs ent.index st.index.segs, WriteFits w :=
  ⟨fits_newSegs (elemsFit h hf).1, fits_newSegs (elemsFit h hf).2⟩

theorem fits_populateNew {now : Nat} {sch shuffle : Sched} {reduce : Nat → Nat} {new : Entry} {l : List Element}
    (hnow : 0 < now ∧ now < 2 ^ 32 - 1) (hl : ∀ e ∈ l, Fine e) (hd : DistinctIDs l) (hlen : l.length + 3 ≤ 2 ^ 32) :
    ∀ w ∈ populateNew now sch shuffle reduce new l, WriteFits w := by
  have hc := closed_fine hnow
  have hp := sortSlice_perm
  unfold populateNew
  dsimp only
  split
  · have h1 := Lists.initEmpty_spec now new.mergeSize new.splitSize
    obtain ⟨a, b1, b2⟩ := fit_empty (P := SetTime) (Q := Fine) hc.time new.mergeSize new.splitSize
    have hcon : (Lists.initEmpty now new.mergeSize new.splitSize).content = [] := rfl
    have hf1 := listFits h1 a ⟨by omega, by omega⟩ (by rw [hcon]; simp)
    intro w hw
    rcases List.mem_append.1 hw with hw | hw
    · exact (fits_new h1 hf1).1 w hw
    · rcases List.mem_append.1 hw with hw | hw
      · exact (fits_new h1 hf1).2 w hw
      · exact fits_save h1 hf1 w hw
  · split
    · split
      · simp
      · rename_i st1 hb
        have hsp := shuffle.perm l
        have htd : (shuffle.order l).take 100000 ++ (shuffle.order l).drop 100000 = shuffle.order l := List.take_append_drop _ _
        have hd0 : DistinctIDs (shuffle.order l) := hd.perm hsp.symm
        have hd1 : DistinctIDs (Elements.sortSlice ((shuffle.order l).take 100000)) := by
          have : DistinctIDs ((shuffle.order l).take 100000) := by
            unfold DistinctIDs at *
            exact List.Pairwise.sublist ((List.take_sublist _ _).map _) hd0
          exact this.perm (hp _).symm
        have hsl := hsp.length_eq
        have hmem : ∀ e ∈ Elements.sortSlice ((shuffle.order l).take 100000), Fine e :=
          fun e he => hl e (hsp.mem_iff.1 (List.mem_of_mem_take ((hp _).mem_iff.1 he)))
        have hlen1 : (Elements.sortSlice ((shuffle.order l).take 100000)).length ≤ l.length := by
          rw [(hp _).length_eq, List.length_take]; omega
        obtain ⟨b1, b2, b3, b4⟩ := Lists.build_spec hb (sortSlice_ranked _) hd1
          (fun e he => (hmem e he).storable) (by omega)
        obtain ⟨c1, c2, c3⟩ := fit_build hc hmem hb
        have hcl : st1.content.length = ((shuffle.order l).take 100000).length := by rw [b2, (hp _).length_eq]
        have hf1 := listFits b1 c1 ⟨by omega, by omega⟩ (by rw [hcl, List.length_take]; omega)
        intro w hw
        rcases List.mem_append.1 hw with hw | hw
        · exact (fits_new b1 hf1).1 w hw
        · rcases List.mem_append.1 hw with hw | hw
          · exact (fits_new b1 hf1).2 w hw
          · refine fits_insert hnow b1 hf1 (fun e he => hl e (hsp.mem_iff.1 (List.mem_of_mem_drop he))) ?_ ?_ w hw
            · rw [b2]
              rw [← htd] at hd0
              exact hd0.perm ((hp _).symm.append_right _)
            · rw [hcl, List.length_take, List.length_drop]; omega
    · split
      · simp
      · rename_i st1 hb
        have hmem : ∀ e ∈ Elements.sortSlice l, Fine e := fun e he => hl e ((hp _).mem_iff.1 he)
        have hlen1 := (hp l).length_eq
        obtain ⟨b1, b2, b3, b4⟩ := Lists.build_spec hb (sortSlice_ranked _) (hd.perm (hp _).symm)
          (fun e he => (hmem e he).storable) (by omega)
        obtain ⟨c1, c2, c3⟩ := fit_build hc hmem hb
        have hf1 := listFits b1 c1 ⟨by omega, by omega⟩ (by rw [b2]; omega)
        intro w hw
        rcases List.mem_append.1 hw with hw | hw
        · exact (fits_new b1 hf1).1 w hw
        · rcases List.mem_append.1 hw with hw | hw
          · exact (fits_new b1 hf1).2 w hw
          · exact fits_save b1 hf1 w hw

theorem fits_reindex {now : Nat} {sch : Sched} {ent new : Entry} {st : ListState} (hnow : 0 < now ∧ now < 2 ^ 32 - 1)
    (h : ListOK st) (hf : ListFits st) (hlen : st.content.length + 3 ≤ 2 ^ 32) :
    ∀ w ∈ reindex now sch ent new st, WriteFits w := by
  unfold reindex
  cases hr : Lists.reindex now sch st with
  | none => simp
  | some st' =>
    obtain ⟨h1, h2⟩ := Props.C19_reindex now sch st st' h.scores h.scoresCount h.scoresIDs h.flags.1 (by omega) hr
    obtain ⟨c1, c2, c3⟩ := fit_reindex (closed_fine hnow) hf.fit hr
    have hcon : st'.content = st.content := by show allElems _ = allElems _; rw [c2]
    have hf1 := listFits h1 c1 ⟨by rw [c2]; exact hf.next.1, by omega⟩ (by rw [hcon]; omega)
    intro w hw
    dsimp only at hw
    rcases List.mem_append.1 hw with hw | hw
    · exact (fits_new (ent := new) h1 hf1).2 w hw
    · rcases List.mem_append.1 hw with hw | hw
      · simp only [List.mem_singleton] at hw
        subst hw
        exact ⟨headFits_head hf1.index, head_head _⟩
      · rcases List.mem_append.1 hw with hw | hw
        · exact fits_deleteSegs (fun g hg => (hf.index.segs g hg).id) w hw
        · exact fits_save h1 hf1 w hw

theorem fits_populate {now : Nat} {sch shuffle : Sched} {reduce : Nat → Nat} {ent new : Entry} {st : ListState} {l : List Element}
    (hnow : 0 < now ∧ now < 2 ^ 32 - 1) (hf : ListFits st) (hl : ∀ e ∈ l, Fine e) (hd : DistinctIDs l) (hlen : l.length + 3 ≤ 2 ^ 32) :
    ∀ w ∈ populate now sch shuffle reduce ent new st l, WriteFits w := by
  intro w hw
  rcases List.mem_append.1 hw with hw | hw
  · exact fits_deleteSegs (fun g hg => (hf.scores.segs g hg).id) w hw
  · rcases List.mem_append.1 hw with hw | hw
    · exact fits_deleteSegs (fun g hg => (hf.index.segs g hg).id) w hw
    · exact fits_populateNew hnow hl hd hlen w hw

theorem fits_clone {now merge split : Nat} {st st' : ListState} {new : Entry} (hnow : 0 < now ∧ now < 2 ^ 32 - 1)
    (h : ListOK st) (hf : ListFits st) (hlen : st.content.length + 3 ≤ 2 ^ 32) (hs : st.scores.segs.length + 2 ≤ 2 ^ 32)
    (hcl : Lists.clone now merge split st = some st') : ∀ w ∈ Server.cloneWrites new st', WriteFits w := by
  obtain ⟨h1, h2, -⟩ := Props.C20_clone now merge split st st' h (by omega) (by omega) hcl
  obtain ⟨c1, c2, c3⟩ := fit_clone (closed_fine hnow) hf.fit.scores hcl
  have hf1 := listFits h1 c1 ⟨by omega, by omega⟩ (by rw [h2]; omega)
  intro w hw
  rcases List.mem_append.1 hw with hw | hw
  · exact (fits_new h1 hf1).1 w hw
  · rcases List.mem_append.1 hw with hw | hw
    · exact (fits_new h1 hf1).2 w hw
    · exact fits_save h1 hf1 w hw

/-! ### Split -/

theorem allElems_append (a b : List Seg) : allElems (a ++ b) = allElems a ++ allElems b := by simp [allElems]
theorem allElems_cons (g : Seg) (b : List Seg) : allElems (g :: b) = g.elems ++ allElems b := by simp [allElems]

theorem steps_all {p : Str} {P : Nat → Prop} {nid nid' : Nat} {cur fin : List Seg} {ws : List Write} (h : Steps p P nid cur ws nid' fin) :
    allElems fin = allElems cur ∧ nid ≤ nid' := by
  induction h with
  | done => exact ⟨rfl, Nat.le_refl _⟩
  | merge h1 h2 h0 h3 ih =>
    refine ⟨?_, ih.2⟩
    rw [ih.1]; simp only [allElems_append, allElems_cons, h2, List.append_assoc]
  | split h1 h2 h3 h4 ih =>
    refine ⟨?_, by omega⟩
    rw [ih.1]; simp only [allElems_append, allElems_cons, ← h3, List.append_assoc]
  | splitNew h1 h2 h3 h4 ih =>
    refine ⟨?_, by omega⟩
    rw [ih.1]; simp only [allElems_append, allElems_cons, ← h3, List.append_assoc]
  | count h1 h2 h3 ih =>
    refine ⟨?_, ih.2⟩
    rw [ih.1]; simp only [allElems_append, allElems_cons, h2]

theorem fits_steps {p : Str} {P : Nat → Prop} {nid nid' : Nat} {cur fin : List Seg} {ws : List Write} (h : Steps p P nid cur ws nid' fin) :
    (∀ g ∈ cur, g.id < nid) → (∀ e ∈ allElems cur, Fine e) → (allElems cur).length < 2 ^ 32 → nid' < 2 ^ 32 →
    ∀ w ∈ ws, WriteFits w := by
  have elem : ∀ {segs : List Seg} {g : Seg}, g ∈ segs → (∀ e ∈ allElems segs, Fine e) → (allElems segs).length < 2 ^ 32 → ElemsFit g.elems := by
    intro segs g hg hf hl
    exact ⟨by have := mem_length_le hg; omega, fun e he => hf e (mem_allElems.2 ⟨g, hg, he⟩)⟩
  induction h with
  | done => simp
  | @merge nid nid' A B fin q s m ws h1 h2 h0 h3 ih =>
    intro hid hf hl hn w hw
    have hall : allElems (A ++ m :: B) = allElems (A ++ q :: s :: B) := by simp only [allElems_append, allElems_cons, h2, List.append_assoc]
    have hm : nid ≤ nid' := (steps_all h3).2
    have hid' : ∀ g ∈ A ++ m :: B, g.id < nid := by
      intro g hg
      rcases List.mem_append.1 hg with hg | hg
      · exact hid g (by simp [hg])
      · rcases List.mem_cons.1 hg with rfl | hg
        · rw [h1]; exact hid q (by simp)
        · exact hid g (by simp [hg])
    simp only [List.mem_cons] at hw
    rcases hw with rfl | rfl | hw
    · exact ⟨by have := hid' m (by simp); omega, elem (segs := A ++ m :: B) (by simp) (by rw [hall]; exact hf) (by rw [hall]; exact hl)⟩
    · have := hid s (by simp)
      show s.id < 2 ^ 32
      omega
    · exact ih hid' (by rw [hall]; exact hf) (by rw [hall]; exact hl) hn w hw
  | @split nid nid' A B fin s s1 s2 ws h1 h2 h3 h4 ih =>
    intro hid hf hl hn w hw
    have hall : allElems (A ++ s1 :: s2 :: B) = allElems (A ++ s :: B) := by simp only [allElems_append, allElems_cons, ← h3, List.append_assoc]
    have hm : nid + 1 ≤ nid' := (steps_all h4).2
    have hid' : ∀ g ∈ A ++ s1 :: s2 :: B, g.id < nid + 1 := by
      intro g hg
      rcases List.mem_append.1 hg with hg | hg
      · have := hid g (by simp [hg]); omega
      · simp only [List.mem_cons] at hg
        rcases hg with rfl | rfl | hg
        · have := hid s (by simp); omega
        · omega
        · have := hid g (by simp [hg]); omega
    simp only [List.mem_cons] at hw
    rcases hw with rfl | rfl | hw
    · exact ⟨by have := hid' s1 (by simp); omega, elem (segs := A ++ s1 :: s2 :: B) (by simp) (by rw [hall]; exact hf) (by rw [hall]; exact hl)⟩
    · exact ⟨by have := hid' s2 (by simp); omega, elem (segs := A ++ s1 :: s2 :: B) (by simp) (by rw [hall]; exact hf) (by rw [hall]; exact hl)⟩
    · exact ih hid' (by rw [hall]; exact hf) (by rw [hall]; exact hl) hn w hw
  | @splitNew nid nid' A B fin s s1 s2 ws h1 h2 h3 h4 ih =>
    intro hid hf hl hn w hw
    have hall : allElems (A ++ s1 :: s2 :: B) = allElems (A ++ s :: B) := by simp only [allElems_append, allElems_cons, ← h3, List.append_assoc]
    have hm : nid + 1 ≤ nid' := (steps_all h4).2
    have hid' : ∀ g ∈ A ++ s1 :: s2 :: B, g.id < nid + 1 := by
      intro g hg
      rcases List.mem_append.1 hg with hg | hg
      · have := hid g (by simp [hg]); omega
      · simp only [List.mem_cons] at hg
        rcases hg with rfl | rfl | hg
        · have := hid s (by simp); omega
        · omega
        · have := hid g (by simp [hg]); omega
    simp only [List.mem_cons] at hw
    rcases hw with rfl | rfl | hw
    · exact ⟨by have := hid' s2 (by simp); omega, elem (segs := A ++ s1 :: s2 :: B) (by simp) (by rw [hall]; exact hf) (by rw [hall]; exact hl)⟩
    · exact ⟨by have := hid' s1 (by simp); omega, elem (segs := A ++ s1 :: s2 :: B) (by simp) (by rw [hall]; exact hf) (by rw [hall]; exact hl)⟩
    · exact ih hid' (by rw [hall]; exact hf) (by rw [hall]; exact hl) hn w hw
  | @count nid nid' A B fin s s' ws h1 h2 h3 ih =>
    intro hid hf hl hn w hw
    have hall : allElems (A ++ s' :: B) = allElems (A ++ s :: B) := by simp only [allElems_append, allElems_cons, h2]
    refine ih ?_ (by rw [hall]; exact hf) (by rw [hall]; exact hl) hn w hw
    intro g hg
    rcases List.mem_append.1 hg with hg | hg
    · exact hid g (by simp [hg])
    · rcases List.mem_cons.1 hg with rfl | hg
      · rw [h1]; exact hid s (by simp)
      · exact hid g (by simp [hg])

theorem ids_length {s : Segs} (h : SegsOK s.segs) (hid : IDsBelow s) : s.segs.length + 1 ≤ s.nextID := by
  have := Props.nodup_length_le (l := 0 :: s.segs.map (·.id)) (l' := List.range s.nextID) (by
      rw [List.nodup_cons]
      refine ⟨fun hm => ?_, h.segIDs⟩
      obtain ⟨g, hg, h0⟩ := List.mem_map.1 hm
      have := (hid.1 g hg).1
      omega) (by
      intro i hi
      rcases List.mem_cons.1 hi with rfl | hi
      · cases hs : s.segs with
        | nil => have := h.tiles; rw [hs] at this; simp [Tiles] at this
        | cons g gs =>
          have := hid.1 g (by rw [hs]; simp)
          exact List.mem_range.2 (by omega)
      · obtain ⟨g, hg, rfl⟩ := List.mem_map.1 hi
        exact List.mem_range.2 (hid.1 g hg).2)
  simpa using this

theorem fits_split {now : Nat} {merge : Bool} {sch : Sched} {ent : Entry} {st : ListState} (hnow : 0 < now ∧ now < 2 ^ 32 - 1)
    (h : ListOK st) (hf : ListFits st) (h1 : st.scores.nextID ≤ 2 ^ 31) (h2 : st.index.nextID ≤ 2 ^ 31)
    (hlen : st.content.length < 2 ^ 32) : ∀ w ∈ split now merge sch ent st, WriteFits w := by
  have hc := closed_fine hnow
  have n1 := ids_length h.scores h.scoresIDs
  have n2 := ids_length h.index h.indexIDs
  obtain ⟨s1, s2, -, -, s5, s6⟩ := Lists.split_spec (now := now) (merge := merge) h hnow.2 (by omega) (by omega) (by omega) (by omega)
  obtain ⟨f1, -, -⟩ := fit_split hc (merge := merge) hf.fit
  have hf1 := listFits s1 f1 ⟨by omega, by omega⟩ (by rw [s2]; exact hlen)
  have S1 := splitScores_steps now merge ent st
  obtain ⟨u1, u3⟩ := split_updated (merge := merge) h hnow.2 (by omega)
  have hid : ∀ g ∈ Segments.updateIndexElements now st.index.segs
      (Segments.splitLoop now st.splitSize st.mergeSize merge false 0 st.scores.nextID 0 [] st.scores.segs).2.2,
      g.id < st.index.nextID := by
    intro g hg
    obtain ⟨t, ht, hr⟩ := forall₂_mem u1 g hg
    rw [hr.1]
    exact (h.indexIDs.1 t ht).2
  have S2 := splitLoop_steps ent.index (P := (· < st.index.nextID)) (now := now) (splitSize := st.splitSize)
    (mergeSize := st.mergeSize) (merge := true) (isIndex := true) (skipUnsplit := 1) (done := [])
    (nid := st.index.nextID) (skip := 0) hid
  rw [List.reverse_nil, List.nil_append] at S2
  have hU := each_updateIndex hc (upds := (Segments.splitLoop now st.splitSize st.mergeSize merge false 0 st.scores.nextID 0 []
    st.scores.segs).2.2) hf.fit.index
  have hUl : (allElems (Segments.updateIndexElements now st.index.segs (Segments.splitLoop now st.splitSize st.mergeSize merge false 0
      st.scores.nextID 0 [] st.scores.segs).2.2)).length < 2 ^ 32 := by
    rw [← (steps_all S2).1]
    show (allElems (Lists.split now merge st).index.segs).length < 2 ^ 32
    rw [index_length s1, s2]; exact hlen
  have hn2 : (Lists.split now merge st).index.nextID < 2 ^ 32 := by omega
  intro w hw
  rcases List.mem_append.1 hw with hw | hw
  · exact fits_steps S1 (fun g hg => (h.scoresIDs.1 g hg).2) hf.fit.scores.all hlen (by omega) w hw
  · rcases List.mem_append.1 hw with hw | hw
    · rcases List.mem_append.1 hw with hw | hw
      · unfold updateIndexElements at hw
        split at hw
        · simp at hw
        · obtain ⟨g, hg, rfl⟩ := replaceAt_of _ _ _ sch w hw
          refine ⟨by have := hid g hg; omega, by have := mem_length_le hg; omega, (hU g hg).2⟩
      · exact fits_steps S2 hid hU.all hUl hn2 w hw
    · split at hw
      · exact fits_save s1 hf1 w hw
      · simp at hw

end RankDB.Disk

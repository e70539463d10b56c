import Verif.Spec.Tidy
import Verif.Proofs.Server
/-
Lemmas about which blobs are left by the writes of list operations.
-/
namespace RankDB.Server
open Spec Disk

/-- Blobs with elements under the name `p` have one of these IDs. -/
def Only (d : Store) (p : Str) (ids : List Nat) : Prop := ∀ i, d.elems p i ≠ none → i ∈ ids

/-- The writes of elements under the name `p` are for these IDs. -/
def Into (p : Str) (ids : List Nat) (ws : List Write) : Prop := ∀ i l, Write.elems p i l ∈ ws → i ∈ ids

theorem Into.append {p : Str} {ids : List Nat} {a b : List Write} (ha : Into p ids a) (hb : Into p ids b) :
    Into p ids (a ++ b) := fun i l h => (List.mem_append.1 h).elim (ha i l) (hb i l)

theorem into_other {p : Str} {ids : List Nat} {ws : List Write} (h : ∀ w ∈ ws, w.parent ≠ p) : Into p ids ws :=
  fun _ _ hm => absurd rfl (h _ hm)

theorem into_save (p : Str) (ids : List Nat) (ent : Entry) (st : ListState) : Into p ids (saveSegments ent st) := by
  intro i l h
  simp [saveSegments] at h

theorem into_newSegs (p : Str) (segs : List Seg) : Into p (segs.map (·.id)) (newSegs p segs) := by
  intro i l h
  obtain ⟨g, hg, he⟩ := List.mem_map.1 h
  simp only [Write.elems.injEq, true_and] at he
  exact List.mem_map.2 ⟨g, hg, he.1⟩

/-- A blob that is deleted and not written is gone. -/
theorem writes_elems_none {p : Str} {i : Nat} {ws : List Write} {d : Store}
    (h : Write.delElems p i ∈ ws ∨ d.elems p i = none) (hn : ∀ l, Write.elems p i l ∉ ws) : (writes d ws).elems p i = none := by
  induction ws generalizing d with
  | nil => exact h.resolve_left (by simp)
  | cons w ws ih =>
    show (writes (write d w) ws).elems p i = none
    apply ih
    · rcases h with h | h
      · rcases List.mem_cons.1 h with h | h
        · right; rw [← h]; simp [write]
        · exact .inl h
      · right
        cases w with
        | head q s => exact h
        | delHead q => exact h
        | elems q j l =>
          have : ¬ (p = q ∧ i = j) := by
            rintro ⟨rfl, rfl⟩
            exact hn l (by simp)
          simp [write, this, h]
        | delElems q j =>
          by_cases hq : p = q ∧ i = j
          · simp [write, hq]
          · simp [write, hq, h]
    · intro l hl
      exact hn l (by simp [hl])

/-- What is left: the IDs that are written, and old ones that are not deleted. -/
theorem only_writes {d : Store} {p : Str} {old new : List Nat} {ws : List Write} (h : Only d p old) (hi : Into p new ws)
    (hd : ∀ i ∈ old, i ∈ new ∨ Write.delElems p i ∈ ws) : Only (writes d ws) p new := by
  intro i hne
  apply Classical.byContradiction
  intro hin
  apply hne
  apply writes_elems_none
  · cases he : d.elems p i with
    | none => exact .inr rfl
    | some x => exact .inl ((hd i (h i (by rw [he]; simp))).resolve_left hin)
  · intro l hl
    exact hin (hi i l hl)

theorem only_other {d : Store} {p : Str} {ids : List Nat} {ws : List Write} (h : Only d p ids) (hw : ∀ w ∈ ws, w.parent ≠ p) :
    Only (writes d ws) p ids := by
  intro i hi
  rw [(writes_other d hw).2] at hi
  exact h i hi

theorem only_deleteSegs {d : Store} {p : Str} {segs : List Seg} (sch : Sched) (h : Only d p (segs.map (·.id))) :
    Only (writes d (deleteSegs sch p segs)) p [] := by
  refine only_writes h ?_ ?_
  · intro i l hm
    unfold deleteSegs at hm
    rcases List.mem_append.1 hm with hm | hm
    · obtain ⟨g, -, he⟩ := List.mem_map.1 ((sch.perm _).mem_iff.1 hm)
      simp at he
    · simp at hm
  · intro i hi
    right
    obtain ⟨g, hg, rfl⟩ := List.mem_map.1 hi
    unfold deleteSegs
    exact List.mem_append_left _ ((sch.perm _).mem_iff.2 (List.mem_map.2 ⟨g, hg, rfl⟩))

theorem gone_of_only {d : Store} {p : Str} (h : Only d p []) (hh : d.heads p = none) : Gone d p := by
  refine ⟨hh, fun i => ?_⟩
  cases he : d.elems p i with
  | none => rfl
  | some l => exact absurd (h i (by rw [he]; simp)) (by simp)

theorem gone_other {d : Store} {p : Str} {ws : List Write} (h : Gone d p) (hw : ∀ w ∈ ws, w.parent ≠ p) :
    Gone (writes d ws) p := by
  obtain ⟨h1, h2⟩ := writes_other d hw
  exact ⟨h1.trans h.1, fun i => (h2 i).trans (h.2 i)⟩

theorem gone_deleteSegs {d : Store} {p : Str} {segs : List Seg} (sch : Sched) (h : Only d p (segs.map (·.id))) :
    Gone (writes d (deleteSegs sch p segs)) p :=
  gone_of_only (only_deleteSegs sch h) (deleteSegs_gone sch p segs d)

theorem Gone.only {d : Store} {p : Str} (h : Gone d p) : Only d p [] := fun i hi => absurd (h.2 i) hi

theorem Only.mono {d : Store} {p : Str} {a b : List Nat} (h : Only d p a) (hab : ∀ i ∈ a, i ∈ b) : Only d p b :=
  fun i hi => hab i (h i hi)

/-! ### The writes of operations -/

theorem ids_of_holds {d : Store} {p : Str} {s : Segs} (h : Holds d p s) :
    ∃ t, d.heads p = some t ∧ t.segs.map (·.id) = s.segs.map (·.id) := by
  have h1 := h.heads
  cases hd : d.heads p with
  | none => rw [hd] at h1; simp at h1
  | some t =>
    rw [hd] at h1
    simp only [Option.map_some, Option.some.injEq, head, Segs.mk.injEq] at h1
    exact ⟨t, rfl, map_clear_ids h1.1⟩

/-- The blobs of a list are those of its segments. -/
def Exact (d : Store) (ent : Entry) (st : ListState) : Prop :=
  Only d ent.scores (st.scores.segs.map (·.id)) ∧ Only d ent.index (st.index.segs.map (·.id))

/-- The writes are for segments of the list, and for no others. -/
def Inner (ent : Entry) (st : ListState) (ws : List Write) : Prop :=
  Into ent.scores (st.scores.segs.map (·.id)) ws ∧ Into ent.index (st.index.segs.map (·.id)) ws

theorem Inner.append {ent : Entry} {st : ListState} {a b : List Write} (ha : Inner ent st a) (hb : Inner ent st b) :
    Inner ent st (a ++ b) := ⟨ha.1.append hb.1, ha.2.append hb.2⟩

theorem inner_save (ent : Entry) (st st' : ListState) : Inner ent st (saveSegments ent st') :=
  ⟨into_save _ _ _ _, into_save _ _ _ _⟩

theorem inner_step {ent : Entry} {st st' : ListState} {ws : List Write} (hne : ent.scores ≠ ent.index)
    (h : Step ent st st' ws) : Inner ent st' ws := by
  constructor
  · intro i l hm
    rcases h.allowed _ hm with ⟨g, hg, he⟩ | ⟨g, hg, he⟩ | he | he
    · simp only [Write.elems.injEq, true_and] at he
      exact List.mem_map.2 ⟨g, hg, he.1.symm⟩
    · simp only [Write.elems.injEq] at he
      exact absurd he.1 hne
    · simp at he
    · simp at he
  · intro i l hm
    rcases h.allowed _ hm with ⟨g, hg, he⟩ | ⟨g, hg, he⟩ | he | he
    · simp only [Write.elems.injEq] at he
      exact absurd he.1.symm hne
    · simp only [Write.elems.injEq, true_and] at he
      exact List.mem_map.2 ⟨g, hg, he.1.symm⟩
    · simp at he
    · simp at he

theorem exact_writes {d : Store} {ent : Entry} {st st' : ListState} {ws : List Write} (h : Exact d ent st)
    (hi : Inner ent st' ws) (h1 : st'.scores.segs.map (·.id) = st.scores.segs.map (·.id))
    (h2 : st'.index.segs.map (·.id) = st.index.segs.map (·.id)) : Exact (writes d ws) ent st' :=
  ⟨only_writes h.1 hi.1 fun i hm => .inl (by rw [h1]; exact hm), only_writes h.2 hi.2 fun i hm => .inl (by rw [h2]; exact hm)⟩

theorem exact_step {d : Store} {ent : Entry} {st st' : ListState} {ws : List Write} (hne : ent.scores ≠ ent.index)
    (h : Exact d ent st) (hs : Step ent st st' ws) : Exact (writes d (ws ++ saveSegments ent st')) ent st' :=
  exact_writes h ((inner_step hne hs).append (inner_save _ _ _)) hs.scores.ids hs.index.ids

theorem exact_insertChunks {now : Nat} {sch : Sched} {ent : Entry} (hne : ent.scores ≠ ent.index) :
    ∀ (cs : List (List Element)) {st : ListState} {d : Store}, Exact d ent st →
    Exact (writes d (insertChunks now sch ent st cs)) ent (cs.foldl (Lists.insertChunk now sch) st)
  | [], _, _, h => exact_writes h (inner_save _ _ _) rfl rfl
  | c :: cs, st, d, h => by
    have hs := insertChunk_step now sch ent st c
    unfold insertChunks
    rw [writes_append]
    exact exact_insertChunks hne cs (exact_writes h (inner_step hne hs) hs.scores.ids hs.index.ids)

theorem exact_insert {now : Nat} {sch : Sched} {ent : Entry} {st st' : ListState} {d : Store} {es : List Element}
    (hne : ent.scores ≠ ent.index) (h : Exact d ent st) (hi : Lists.insert now sch st es = some st') :
    Exact (writes d (Disk.insert now sch ent st es)) ent st' := by
  unfold Lists.insert at hi
  unfold Disk.insert
  cases hc : Lists.chunks (Lists.insertLimit st) es.length es with
  | none => rw [hc] at hi; simp at hi
  | some cs =>
    rw [hc] at hi
    simp only [Option.map_some, Option.some.injEq] at hi
    subst hi
    exact exact_insertChunks hne cs h

theorem exact_new {d : Store} {ent : Entry} {st : ListState} (hne : ent.scores ≠ ent.index) (h1 : Only d ent.scores [])
    (h2 : Only d ent.index []) :
    Exact (writes d (newSegs ent.scores st.scores.segs ++ newSegs ent.index st.index.segs)) ent st := by
  constructor
  · refine only_writes h1 (Into.append (into_newSegs _ _) (into_other fun w hw => ?_)) (by simp)
    rw [parent_newSegs w hw]; exact Ne.symm hne
  · refine only_writes h2 (Into.append (into_other fun w hw => ?_) (into_newSegs _ _)) (by simp)
    rw [parent_newSegs w hw]; exact hne

theorem exact_populateNew {now : Nat} {sch shuffle : Sched} {reduce : Nat → Nat} {new : Entry} {st' : ListState}
    {l : List Element} {d : Store} (hne : new.scores ≠ new.index) (h1 : Only d new.scores []) (h2 : Only d new.index [])
    (h : Lists.populate now sch shuffle reduce new.mergeSize new.splitSize l = some st') :
    Exact (writes d (populateNew now sch shuffle reduce new l)) new st' := by
  unfold populateNew
  unfold Lists.populate at h
  split at h
  · rename_i he
    rw [if_pos he]
    simp only [Option.some.injEq] at h
    subst h
    rw [← List.append_assoc, writes_append]
    exact exact_writes (exact_new hne h1 h2) (inner_save _ _ _) rfl rfl
  · rename_i he
    rw [if_neg he]
    split at h
    · rename_i h3
      rw [if_pos h3]
      simp only [] at h ⊢
      split at h
      · simp at h
      · rename_i st1 hb
        rw [hb]
        simp only []
        rw [← List.append_assoc, writes_append]
        exact exact_insert hne (exact_new hne h1 h2) h
    · rename_i h3
      rw [if_neg h3, h]
      simp only []
      rw [← List.append_assoc, writes_append]
      exact exact_writes (exact_new hne h1 h2) (inner_save _ _ _) rfl rfl

/-- The loops of `split` leave no blob of a segment that is no more. -/
theorem only_steps {p : Str} {P : Nat → Prop} {nid nid' : Nat} {cur fin : List Seg} {ws : List Write}
    (h : Steps p P nid cur ws nid' fin) : ∀ {d : Store}, Only d p (cur.map (·.id)) → Only (writes d ws) p (fin.map (·.id)) := by
  induction h with
  | done nid cur => exact fun hd => hd
  | @merge nid nid' A B fin q s m ws h1 h2 h0 h3 ih =>
    intro d hd
    refine ih (d := write (write d (.elems p m.id m.elems)) (.delElems p s.id)) ?_
    intro i hi
    by_cases his : i = s.id
    · exact absurd (by simp [write, his]) hi
    · by_cases him : i = m.id
      · simp [him]
      · have := hd i (by simpa [write, his, him] using hi)
        simp only [List.map_append, List.map_cons, List.mem_append, List.mem_cons] at this ⊢
        rcases this with h | h | h | h
        · exact .inl h
        · exact absurd (h.trans h1.symm) him
        · exact absurd h his
        · exact .inr (.inr h)
  | @split nid nid' A B fin s s1 s2 ws h1 h2 h3 h4 ih =>
    intro d hd
    refine ih (d := write (write d (.elems p s1.id s1.elems)) (.elems p s2.id s2.elems)) ?_
    intro i hi
    by_cases hi1 : i = s1.id
    · simp [hi1]
    · by_cases hi2 : i = s2.id
      · simp [hi2]
      · have := hd i (by simpa [write, hi1, hi2] using hi)
        simp only [List.map_append, List.map_cons, List.mem_append, List.mem_cons] at this ⊢
        rcases this with h | h | h
        · exact .inl h
        · exact absurd (h.trans h1.symm) hi1
        · exact .inr (.inr (.inr h))
  | @splitNew nid nid' A B fin s s1 s2 ws h1 h2 h3 h4 ih =>
    intro d hd
    refine ih (d := write (write d (.elems p s2.id s2.elems)) (.elems p s1.id s1.elems)) ?_
    intro i hi
    by_cases hi1 : i = s1.id
    · simp [hi1]
    · by_cases hi2 : i = s2.id
      · simp [hi2]
      · have := hd i (by simpa [write, hi1, hi2] using hi)
        simp only [List.map_append, List.map_cons, List.mem_append, List.mem_cons] at this ⊢
        rcases this with h | h | h
        · exact .inl h
        · exact absurd (h.trans h1.symm) hi1
        · exact .inr (.inr (.inr h))
  | @count nid nid' A B fin s s' ws h1 h2 h3 ih =>
    intro d hd
    refine ih ?_
    have : (A ++ s' :: B).map (·.id) = (A ++ s :: B).map (·.id) := by simp [h1]
    rw [this]; exact hd

theorem exact_split {now : Nat} {merge : Bool} {sch : Sched} {ent : Entry} {st : ListState} {d : Store}
    (hne : ent.scores ≠ ent.index) (h : ListOK st) (hnow : now < 2 ^ 32 - 1) (hr : reload d ent = some st) (he : Exact d ent st) :
    Exact (writes d (Disk.split now merge sch ent st)) ent (Lists.split now merge st) := by
  have hs := Props.nextID_pos h.scores.tiles h.scoresIDs
  obtain ⟨-, hV, hW⟩ := split_stored (merge := merge) (sch := sch) hne h hnow hs (ready_of_reload hr).toStored
  have S1 := splitScores_steps now merge ent st
  obtain ⟨u1, -⟩ := split_updated (merge := merge) h hnow hs
  have hid : ∀ g ∈ Segments.updateIndexElements now st.index.segs
      (Segments.splitLoop now st.splitSize st.mergeSize merge false 0 st.scores.nextID 0 [] st.scores.segs).2.2,
      g.id < st.index.nextID := by
    intro g hg
    obtain ⟨t, ht, hr⟩ := forall₂_mem u1 g hg
    rw [hr.1]
    exact (h.indexIDs.1 t ht).2
  have S2 := splitLoop_steps ent.index (P := (· < st.index.nextID)) (now := now) (splitSize := st.splitSize)
    (mergeSize := st.mergeSize) (merge := true) (isIndex := true) (skipUnsplit := 1) (done := [])
    (nid := st.index.nextID) (skip := 0) hid
  rw [List.reverse_nil, List.nil_append] at S2
  have hsave : ∀ p ids, Into p ids (if (splitScores now merge ent st).2 || (splitIndex now merge sch ent st).2 then
      saveSegments ent (Lists.split now merge st) else []) := by
    intro p ids
    split
    · exact into_save _ _ _ _
    · intro i l hm; simp at hm
  unfold Disk.split
  rw [writes_append, writes_append]
  constructor
  · refine only_writes (only_other (only_steps S1 he.1) fun w hw => ?_) (hsave _ _) fun i hi => .inl hi
    rw [(hW w hw).parent]; exact Ne.symm hne
  · refine only_writes (old := (Lists.split now merge st).index.segs.map (·.id)) ?_ (hsave _ _) fun i hi => .inl hi
    have h0 : Only (writes d (splitScores now merge ent st).1) ent.index (st.index.segs.map (·.id)) :=
      only_other he.2 fun w hw => by rw [(hV w hw).parent]; exact hne
    rw [← u1.ids] at h0
    unfold splitIndex
    dsimp only
    rw [writes_append]
    refine only_steps S2 (only_writes h0 ?_ fun i hi => .inl hi)
    intro i l hm
    unfold updateIndexElements at hm
    split at hm
    · simp at hm
    · obtain ⟨g, hg, he⟩ := replaceAt_of _ _ _ sch _ hm
      simp only [Write.elems.injEq, true_and] at he
      exact List.mem_map.2 ⟨g, hg, he.1.symm⟩

/-! ### The server -/

theorem Tidy.exact {db : Db} (h : Tidy db) {ent : Entry} {st : ListState} (hr : reload db.store ent = some st) :
    Exact db.store ent st := by
  obtain ⟨h1, h2, -⟩ := reload_iff.1 hr
  have hp : ∀ {p : Str} {s : Segs}, Holds db.store p s → Only db.store p (s.segs.map (·.id)) := by
    intro p s hh i hi
    obtain ⟨t, ht, hids⟩ := ids_of_holds hh
    cases he : db.store.elems p i with
    | none => exact absurd he hi
    | some e =>
      obtain ⟨t', ht', g, hg, hgi⟩ := h.elems p i e he
      rw [ht] at ht'
      simp only [Option.some.injEq] at ht'
      subst ht'
      rw [← hids]
      exact List.mem_map.2 ⟨g, hg, hgi⟩
  exact ⟨hp h1, hp h2⟩

/-- There is nothing under a name that no list has. -/
theorem Tidy.gone {db : Db} (h : Tidy db) {n : Str} (hn : ∀ l ∈ db.lists, n ∉ names l) : Gone db.store n := by
  have hh : db.store.heads n = none := by
    cases hd : db.store.heads n with
    | none => rfl
    | some s =>
      obtain ⟨l, hl, hm⟩ := h.heads n s hd
      exact absurd hm (hn l hl)
  refine ⟨hh, fun i => ?_⟩
  cases he : db.store.elems n i with
  | none => rfl
  | some e =>
    obtain ⟨s, hs, -⟩ := h.elems n i e he
    rw [hh] at hs; simp at hs

/-- A new catalogue and new blobs. -/
theorem tidy_of {db : Db} {d : Store} {lists file : List Listing} {ws : List Write} (h : Tidy db) (hd : d = writes db.store ws)
    (hnew : ∀ l ∈ lists, ∃ st, reload d l.ent = some st ∧ (l ∈ db.lists ∧ (∀ w ∈ ws, w.parent ∉ names l) ∨ Exact d l.ent st))
    (hgone : ∀ n, (∀ l ∈ lists, n ∉ names l) → ((∃ l ∈ db.lists, n ∈ names l) ∨ ∃ w ∈ ws, w.parent = n) → Gone d n) :
    Tidy { store := d, lists := lists, file := file } := by
  have hg : ∀ n, (∀ l ∈ lists, n ∉ names l) → Gone d n := by
    intro n hn
    by_cases hc : (∃ l ∈ db.lists, n ∈ names l) ∨ ∃ w ∈ ws, w.parent = n
    · exact hgone n hn hc
    · rw [hd]
      exact gone_other (Tidy.gone h fun l hl hm => hc (.inl ⟨l, hl, hm⟩)) fun w hw he => hc (.inr ⟨w, hw, he⟩)
  constructor
  · intro n s hs
    apply Classical.byContradiction
    intro hc
    have := (hg n fun l hl hm => hc ⟨l, hl, hm⟩).1
    rw [show d.heads n = some s from hs] at this
    simp at this
  · intro n i e he
    change d.elems n i = some e at he
    show ∃ s, d.heads n = some s ∧ _
    by_cases hc : ∃ l ∈ lists, n ∈ names l
    · obtain ⟨l, hl, hm⟩ := hc
      obtain ⟨st, hr, ⟨hold, hw⟩ | hex⟩ := hnew l hl
      · obtain ⟨w1, w2⟩ := writes_other (p := n) (ws := ws) db.store fun w hwm hp => hw w hwm (hp ▸ hm)
        rw [hd] at he ⊢
        rw [w2] at he
        rw [w1]
        exact h.elems n i e he
      · obtain ⟨r1, r2, -⟩ := reload_iff.1 hr
        unfold names at hm
        simp only [List.mem_cons, List.not_mem_nil, or_false] at hm
        rcases hm with rfl | rfl
        · obtain ⟨t, ht, hids⟩ := ids_of_holds r1
          have := hex.1 i (by rw [he]; simp)
          rw [← hids] at this
          obtain ⟨g, hg, hgi⟩ := List.mem_map.1 this
          exact ⟨t, ht, g, hg, hgi⟩
        · obtain ⟨t, ht, hids⟩ := ids_of_holds r2
          have := hex.2 i (by rw [he]; simp)
          rw [← hids] at this
          obtain ⟨g, hg, hgi⟩ := List.mem_map.1 this
          exact ⟨t, ht, g, hg, hgi⟩
    · have := (hg n fun l hl hm => hc ⟨l, hl, hm⟩).2 i
      rw [he] at this; simp at this

/-- The content of a list changes. -/
theorem tidy_change {db : Db} {l : Listing} {ws : List Write} {st' : ListState} (hg : Good db) (h : Tidy db) (hl : l ∈ db.lists)
    (hw : ∀ w ∈ ws, w.parent = l.ent.scores ∨ w.parent = l.ent.index)
    (hr : reload (writes db.store ws) l.ent = some st') (hok : ListOK st') (he : Exact (writes db.store ws) l.ent st') :
    Tidy { db with store := writes db.store ws } := by
  have hn : ∀ w ∈ ws, w.parent ∈ names l := by
    intro w hwm
    unfold names
    rcases hw w hwm with h1 | h1 <;> simp [h1]
  refine tidy_of h rfl ?_ ?_
  · intro x hx
    obtain ⟨st, hst, -⟩ := (good_change hg hl hw hr hok).1.readable x hx
    refine ⟨st, hst, ?_⟩
    by_cases hxl : x.id = l.id
    · have := mem_unique hg.ids hx hl hxl
      subst this
      rw [show reload (writes db.store ws) x.ent = some st from hst, Option.some.injEq] at hr
      rw [hr]; exact .inr he
    · exact .inl ⟨hx, fun w hwm hm => hxl (hg.names x hx l hl _ hm (hn w hwm))⟩
  · intro n hno hn'
    rcases hn' with ⟨x, hx, hm⟩ | ⟨w, hwm, rfl⟩
    · exact absurd hm (hno x hx)
    · exact absurd (hn w hwm) (hno l hl)

/-- A list is added, or its entry changes. -/
theorem tidy_put {db : Db} {l : Listing} {ws : List Write} {st' : ListState} (hg : Good db) (h : Tidy db)
    (hg' : Good { db with store := writes db.store ws, lists := l :: db.lists.filter fun x => x.id != l.id })
    (hw : ∀ w ∈ ws, w.parent ∈ names l ∨ ∃ x ∈ db.lists, x.id = l.id ∧ w.parent ∈ names x)
    (hr : reload (writes db.store ws) l.ent = some st') (he : Exact (writes db.store ws) l.ent st')
    (hgone : ∀ x ∈ db.lists, x.id = l.id → ∀ n ∈ names x, n ∉ names l → Gone (writes db.store ws) n) :
    Tidy { db with store := writes db.store ws, lists := l :: db.lists.filter fun x => x.id != l.id } := by
  have hmem : ∀ x ∈ db.lists, x.id ≠ l.id → x ∈ l :: db.lists.filter fun x => x.id != l.id := by
    intro x hx hne
    exact List.mem_cons_of_mem _ (List.mem_filter.2 ⟨hx, by simpa using hne⟩)
  refine tidy_of h rfl ?_ ?_
  · intro x hx
    rcases List.mem_cons.1 hx with rfl | hx'
    · exact ⟨st', hr, .inr he⟩
    · obtain ⟨st, hst, -⟩ := hg'.readable x hx
      obtain ⟨h1, h2⟩ := List.mem_filter.1 hx'
      have hne : x.id ≠ l.id := by simpa using h2
      refine ⟨st, hst, .inl ⟨h1, fun w hwm hm => ?_⟩⟩
      rcases hw w hwm with h3 | ⟨y, hy, hyl, h3⟩
      · exact hne (hg'.names x hx l List.mem_cons_self _ hm h3)
      · exact hne ((hg.names x h1 y hy _ hm h3).trans hyl)
  · intro n hno hn'
    have key : ∀ x ∈ db.lists, n ∈ names x → Gone (writes db.store ws) n := by
      intro x hx hm
      by_cases hxl : x.id = l.id
      · exact hgone x hx hxl n hm (hno l List.mem_cons_self)
      · exact absurd hm (hno x (hmem x hx hxl))
    rcases hn' with ⟨x, hx, hm⟩ | ⟨w, hwm, rfl⟩
    · exact key x hx hm
    · rcases hw w hwm with h3 | ⟨y, hy, -, h3⟩
      · exact absurd h3 (hno l List.mem_cons_self)
      · exact key y hy h3

/-- A list is removed. -/
theorem tidy_drop {db : Db} {l : Listing} {ws : List Write} (hg : Good db) (h : Tidy db) (hl : l ∈ db.lists)
    (hw : ∀ w ∈ ws, w.parent = l.ent.scores ∨ w.parent = l.ent.index) (hgone : ∀ n ∈ names l, Gone (writes db.store ws) n) :
    Tidy { db with store := writes db.store ws, lists := db.lists.filter fun x => x.id != l.id } := by
  have hn : ∀ w ∈ ws, w.parent ∈ names l := by
    intro w hwm
    unfold names
    rcases hw w hwm with h1 | h1 <;> simp [h1]
  refine tidy_of h rfl ?_ ?_
  · intro x hx
    obtain ⟨st, hst, -⟩ := (good_drop hg hl hw).1.readable x hx
    obtain ⟨h1, h2⟩ := List.mem_filter.1 hx
    have hne : x.id ≠ l.id := by simpa using h2
    exact ⟨st, hst, .inl ⟨h1, fun w hwm hm => hne (hg.names x h1 l hl _ hm (hn w hwm))⟩⟩
  · intro n hno hn'
    rcases hn' with ⟨x, hx, hm⟩ | ⟨w, hwm, rfl⟩
    · by_cases hxl : x.id = l.id
      · have := mem_unique hg.ids hx hl hxl
        subst this
        exact hgone n hm
      · exact absurd hm (hno x (List.mem_filter.2 ⟨hx, by simpa using hxl⟩))
    · exact hgone _ (hn w hwm)

/-- `DeleteAll` leaves nothing of a list that can be read. -/
theorem gone_deleteAll {sch : Sched} {d : Store} {ent : Entry} {st : ListState} (hne : ent.scores ≠ ent.index)
    (hr : reload d ent = some st) (he : Exact d ent st) :
    Gone (writes d (deleteAll sch d ent)) ent.scores ∧ Gone (writes d (deleteAll sch d ent)) ent.index := by
  obtain ⟨r1, r2, -⟩ := reload_iff.1 hr
  obtain ⟨t1, h1, i1⟩ := ids_of_holds r1
  obtain ⟨t2, h2, i2⟩ := ids_of_holds r2
  unfold deleteAll
  rw [h1, h2]
  dsimp only
  rw [writes_append]
  constructor
  · refine gone_other (gone_deleteSegs sch (by rw [i1]; exact he.1)) fun w hw => ?_
    rw [parent_deleteSegs w hw]; exact Ne.symm hne
  · refine gone_deleteSegs sch (only_other (by rw [i2]; exact he.2) fun w hw => ?_)
    rw [parent_deleteSegs w hw]; exact hne

end RankDB.Server

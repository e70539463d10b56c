import Verif.Proofs.DiskSplit
import Verif.Props.Rebuild
/-
C52, C67: what splitting and merging segments leaves in the storage, and what a crash leaves.
-/
namespace RankDB.Props
open Spec Disk

theorem nextID_pos {s : Segs} (h : Tiles top s.segs) (hi : IDsBelow s) : 0 < s.nextID := by
  cases hs : s.segs with
  | nil => rw [hs] at h; exact absurd h (by simp [Tiles])
  | cons g ss => have := (hi.1 g (by rw [hs]; simp)).2; omega

/-! ### C67 durability -/

/-- After a split a new process reads the list as the split left it. -/
theorem C67_split_durable (now : Nat) (merge : Bool) (sch : Sched) (d : Store) (ent : Entry) (st : ListState)
    (hne : ent.scores ≠ ent.index) (h : reload d ent = some st) (hok : ListOK st) (hnow : now < 2 ^ 32 - 1)
    (hs : st.scores.nextID ≤ 2 ^ 31) (hi : st.index.nextID ≤ 2 ^ 31) :
    reload (writes d (Disk.split now merge sch ent st)) ent = some (Lists.split now merge st) ∧
      ListOK (Lists.split now merge st) ∧ (Lists.split now merge st).content = st.content := by
  refine ⟨?_, C18_split_keeps_content now merge st hok hnow hs hi⟩
  obtain ⟨-, -, hm, hsp⟩ := reload_iff.1 h
  unfold Disk.split
  rw [← List.append_assoc]
  by_cases hu : ((splitScores now merge ent st).2 || (splitIndex now merge sch ent st).2) = true
  · rw [if_pos hu, writes_append]
    exact ready_save hne (split_stored hne hok hnow (nextID_pos hok.scores.tiles hok.scoresIDs) (ready_of_reload h).toStored).1 hm hsp
  · rw [if_neg hu, List.append_nil]
    simp only [Bool.or_eq_true, not_or, Bool.not_eq_true] at hu
    obtain ⟨e1, e2⟩ := split_unchanged hok hu.1 hu.2
    rw [e1, e2]
    exact h

/-- The storage with `exUneven`. -/
def exSplitStore : Store := exStoreOf exUneven

theorem exSplitStore_reload : reload exSplitStore exEntry = some exUneven := by decide +kernel

example : reload exSplitStore exEntry = some exUneven ∧ ListOK exUneven ∧ exEntry.scores ≠ exEntry.index ∧
    exUneven.scores.nextID ≤ 2 ^ 31 ∧ exUneven.index.nextID ≤ 2 ^ 31 ∧
    (Disk.split 13 true .reversed exEntry exUneven).length = 8 :=
  ⟨exSplitStore_reload, exUneven_ok, by decide, by decide +kernel, by decide +kernel, by decide +kernel⟩

/-! ### C52 crashes -/

theorem elems_of_heads {p : Str} {ws : List Write} (d : Store) (h : ∀ w ∈ ws, w.parent ≠ p ∨ ∃ s, w = .head p s) (i : Nat) :
    (writes d ws).elems p i = d.elems p i := by
  induction ws generalizing d with
  | nil => rfl
  | cons w ws ih =>
    show (writes (write d w) ws).elems p i = _
    rw [ih (write d w) fun w hw => h w (by simp [hw])]
    rcases h w (by simp) with h | ⟨s, rfl⟩
    · cases w with
      | head q s => rfl
      | delHead q => rfl
      | elems q j l =>
        have : p ≠ q := fun e => h e.symm
        simp [write, this]
      | delElems q j =>
        have : p ≠ q := fun e => h e.symm
        simp [write, this]
    · rfl

/-- What a crash during a split leaves: the old segments with the elements at some moment of the loop over the score
segments, or the new segments. -/
theorem split_crash {now : Nat} {merge : Bool} {sch : Sched} {d : Store} {ent : Entry} {st : ListState} (k : Nat)
    (hne : ent.scores ≠ ent.index) (h : reload d ent = some st) (hok : ListOK st) (hnow : now < 2 ^ 32 - 1) :
    (∃ i0, (crash k d (Disk.split now merge sch ent st)).heads ent.index = some i0) ∧
    ((∃ s0, (crash k d (Disk.split now merge sch ent st)).heads ent.scores = some s0 ∧
      s0.segs.map (·.id) = st.scores.segs.map (·.id) ∧
      ∀ i, (crash k d (Disk.split now merge sch ent st)).elems ent.scores i =
        (writes d ((splitScores now merge ent st).1.take k)).elems ent.scores i) ∨
     (((splitScores now merge ent st).1 ++ (splitIndex now merge sch ent st).1).length < k ∧
      (crash k d (Disk.split now merge sch ent st)).heads ent.scores = some (head (Lists.split now merge st).scores) ∧
      ∀ i, (crash k d (Disk.split now merge sch ent st)).elems ent.scores i =
        (writes d (splitScores now merge ent st).1).elems ent.scores i)) := by
  obtain ⟨s0, hs0, hids⟩ := (ready_of_reload h).heads
  obtain ⟨x0, hx0⟩ := (ready_of_reload h).hasIndex
  obtain ⟨-, hV, hW⟩ := split_stored (merge := merge) (sch := sch) hne hok hnow
    (nextID_pos hok.scores.tiles hok.scoresIDs) (ready_of_reload h).toStored
  generalize hA : (splitScores now merge ent st).1 = A at hV
  generalize hB : (splitIndex now merge sch ent st).1 = B at hW
  have hC : ∃ C, Disk.split now merge sch ent st = A ++ (B ++ C) ∧
      ∀ w ∈ C, w = .head ent.scores (head (Lists.split now merge st).scores) ∨
        w = .head ent.index (head (Lists.split now merge st).index) := by
    refine ⟨_, by unfold Disk.split; rw [hA, hB], ?_⟩
    intro w hw
    split at hw
    · simpa [saveSegments] using hw
    · simp at hw
  obtain ⟨C, hC, hCw⟩ := hC
  unfold crash
  rw [hC, List.take_append, writes_append]
  have hX : ∀ w ∈ (B ++ C).take (k - A.length), w.parent ≠ ent.scores ∨ ∃ s, w = .head ent.scores s := by
    intro w hw
    rcases List.mem_append.1 (List.mem_of_mem_take hw) with hw | hw
    · left; rw [(hW w hw).parent]; exact Ne.symm hne
    · rcases hCw w hw with rfl | rfl
      · exact .inr ⟨_, rfl⟩
      · left; exact Ne.symm hne
  have hel := elems_of_heads (writes d (A.take k)) hX
  have hhead : ∀ p, (writes d (A.take k)).heads p = d.heads p := by
    intro p
    rcases writes_heads_cases p (A.take k) d with h | ⟨s, h, -⟩ | ⟨h, -⟩
    · exact h
    · rcases hV _ (List.mem_of_mem_take h) with ⟨i, l, h⟩ | ⟨i, h⟩ <;> simp at h
    · rcases hV _ (List.mem_of_mem_take h) with ⟨i, l, h⟩ | ⟨i, h⟩ <;> simp at h
  have hdel : ∀ p, Write.delHead p ∉ (B ++ C).take (k - A.length) := by
    intro p hp
    rcases List.mem_append.1 (List.mem_of_mem_take hp) with hp | hp
    · rcases hW _ hp with ⟨i, l, h⟩ | ⟨i, h⟩ <;> simp at h
    · rcases hCw _ hp with h | h <;> simp at h
  constructor
  · rcases writes_heads_cases ent.index ((B ++ C).take (k - A.length)) (writes d (A.take k)) with h | ⟨s, -, h⟩ | ⟨h, -⟩
    · exact ⟨x0, by rw [h, hhead]; exact hx0⟩
    · exact ⟨s, h⟩
    · exact absurd h (hdel _)
  · rcases writes_heads_cases ent.scores ((B ++ C).take (k - A.length)) (writes d (A.take k)) with h | ⟨s, hm, h⟩ | ⟨h, -⟩
    · left
      exact ⟨s0, by rw [h, hhead]; exact hs0, hids, hel⟩
    · right
      have hlen : (A ++ B).length < k := by
        rw [List.take_append] at hm
        rcases List.mem_append.1 hm with hm | hm
        · rcases hW _ (List.mem_of_mem_take hm) with ⟨i, l, h⟩ | ⟨i, h⟩ <;> simp at h
        · have : 0 < (C.take (k - A.length - B.length)).length := List.length_pos_of_mem hm
          rw [List.length_take] at this
          rw [List.length_append]
          omega
      have hlen' := hlen
      rw [List.length_append] at hlen'
      refine ⟨hlen, ?_, ?_⟩
      · rw [h]
        rcases List.mem_append.1 (List.mem_of_mem_take hm) with hm | hm
        · rcases hW _ hm with ⟨i, l, h⟩ | ⟨i, h⟩ <;> simp at h
        · rcases hCw _ hm with h | h
          · simpa using h
          · simp only [Write.head.injEq] at h
            exact absurd h.1 hne
      · intro i
        rw [hel, List.take_of_length_le (by omega : A.length ≤ k)]
    · exact absurd h (hdel _)

/-- What is missing from the full statement: the elements that move to a new segment; see `C52_split_lost`.

A crash at any moment while segments are split and merged: repairing gives a list with no other elements than
before, and with every element that the split leaves in a segment that existed before. -/
theorem C52_split_partial (now now' : Nat) (merge : Bool) (sch sch' shuffle : Sched) (reduce : Nat → Nat) (d : Store)
    (ent : Entry) (st : ListState) (k : Nat) (hne : ent.scores ≠ ent.index) (h : reload d ent = some st)
    (hok : ListOK st) (hnow : now < 2 ^ 32 - 1) (hs : st.scores.nextID ≤ 2 ^ 31) (hi : st.index.nextID ≤ 2 ^ 31)
    (hlen : st.content.length + 2 ≤ 2 ^ 32) (hred : ∀ n, 0 < n → 0 < reduce n) (hsp : 4 ≤ ent.splitSize) :
    ∃ r, Disk.repair now' sch' shuffle reduce (crash k d (Disk.split now merge sch ent st)) ent = some r ∧ ListOK r ∧
      (∀ e ∈ r.content, e ∈ st.content) ∧
      (∀ g ∈ (Lists.split now merge st).scores.segs, (∃ o ∈ st.scores.segs, o.id = g.id) → ∀ e ∈ g.elems, e ∈ r.content) := by
  obtain ⟨h1, h2, -⟩ := reload_iff.1 h
  obtain ⟨hok', hc'⟩ := C18_split_keeps_content now merge st hok hnow hs hi
  obtain ⟨⟨i0, hi0⟩, hcase⟩ := split_crash (merge := merge) (sch := sch) k hne h hok hnow
  have S1 := splitScores_steps now merge ent st
  have hfr : Fresh st.scores.nextID st.scores.segs := ⟨hok.scores.segIDs, fun g hg => (hok.scoresIDs.1 g hg).2⟩
  have hmem : ∀ g ∈ st.scores.segs, ∀ e ∈ g.elems, e ∈ st.content := fun g hg e he => mem_allElems.2 ⟨g, hg, he⟩
  have hback : ∀ {r : ListState}, ListOK r → (∀ e ∈ r.content, e ∈ st.content) → ∀ {e : Element}, e ∈ st.content →
      (∃ x ∈ r.content, x.id = e.id) → e ∈ r.content := by
    intro r hr hsub e he ⟨x, hx, hid⟩
    have : x = e := hok.scores.distinct.eq_of_id (hsub x hx) he hid
    rw [← this]; exact hx
  rcases hcase with ⟨s0, hh, hids, hel⟩ | ⟨-, hh, hel⟩
  · obtain ⟨c1, c2⟩ := steps_crash S1 (d := d) (S := st.content) k
      (fun i hi => by obtain ⟨g, hg, rfl⟩ := List.mem_map.1 hi; exact hfr.2 g hg) hfr (ready_of_reload h).scores
      (by
        intro i l hi hl e he
        obtain ⟨g, hg, rfl⟩ := List.mem_map.1 hi
        rw [(ready_of_reload h).scores g hg] at hl
        simp only [Option.some.injEq] at hl
        exact hmem g hg e (by rw [hl]; exact he)) hmem
    have hold : ∀ g ∈ s0.segs, g.id ∈ st.scores.segs.map (·.id) := by
      intro g hg
      rw [← hids]
      exact List.mem_map_of_mem hg
    obtain ⟨r, hr, hrok, r1, r2⟩ := repair_any (now := now') (sch := sch') (shuffle := shuffle) (reduce := reduce)
      (S := st.content) hh hi0 hok.scores.storable hlen
      (fun g hg l hl e he => c2 g.id l (hold g hg) (by rw [← hel]; exact hl) e he) hred hsp
    have hsub : ∀ e ∈ r.content, e ∈ st.content := by
      intro e he
      obtain ⟨g, hg, l, hl, hel'⟩ := r1 e he
      exact c2 g.id l (hold g hg) (by rw [← hel]; exact hl) e hel'
    refine ⟨r, hr, hrok, hsub, ?_⟩
    intro g hg ⟨o, ho, hid⟩ e he
    obtain ⟨i, l, hi, hl, hel'⟩ := c1 e ⟨g, hg, List.mem_map.2 ⟨o, ho, hid⟩, he⟩
    rw [← hids] at hi
    obtain ⟨o', ho', rfl⟩ := List.mem_map.1 hi
    exact hback hrok hsub (by rw [← hc']; exact mem_allElems.2 ⟨g, hg, he⟩)
      (r2 o' ho' l (by rw [hel]; exact hl) e hel')
  · obtain ⟨c1, -, -⟩ := steps_has S1 (d := d) hfr (ready_of_reload h).scores
    have hnew : ∀ g ∈ (head (Lists.split now merge st).scores).segs, ∃ o ∈ (Lists.split now merge st).scores.segs,
        o.id = g.id ∧ (crash k d (Disk.split now merge sch ent st)).elems ent.scores g.id = some o.elems := by
      intro g hg
      obtain ⟨o, ho, rfl⟩ := List.mem_map.1 hg
      exact ⟨o, ho, rfl, by rw [hel]; exact c1 o ho⟩
    have hfound : ∀ g ∈ (head (Lists.split now merge st).scores).segs, ∀ l,
        (crash k d (Disk.split now merge sch ent st)).elems ent.scores g.id = some l → ∀ e ∈ l, e ∈ st.content := by
      intro g hg l hl e he
      obtain ⟨o, ho, -, ho'⟩ := hnew g hg
      rw [hl] at ho'
      simp only [Option.some.injEq] at ho'
      rw [← hc']
      exact mem_allElems.2 ⟨o, ho, by rw [← ho']; exact he⟩
    obtain ⟨r, hr, hrok, r1, r2⟩ := repair_any (now := now') (sch := sch') (shuffle := shuffle) (reduce := reduce)
      (S := st.content) hh hi0 hok.scores.storable hlen hfound hred hsp
    have hsub : ∀ e ∈ r.content, e ∈ st.content := by
      intro e he
      obtain ⟨g, hg, l, hl, hel'⟩ := r1 e he
      exact hfound g hg l hl e hel'
    refine ⟨r, hr, hrok, hsub, ?_⟩
    intro g hg _ e he
    refine hback hrok hsub (by rw [← hc']; exact mem_allElems.2 ⟨g, hg, he⟩)
      (r2 { g with elems := [] } (List.mem_map.2 ⟨g, hg, rfl⟩) g.elems (by rw [hel]; exact c1 g hg) e he)

/-- The elements 9, 40 to 44 and others; after the split of 9 elements into 5 and 4 the first 5 stay in their segment. -/
example : reload exSplitStore exEntry = some exUneven ∧ ListOK exUneven ∧ exUneven.content.length + 2 ≤ 2 ^ 32 ∧
    4 ≤ exEntry.splitSize ∧ (Lists.split 13 true exUneven).scores.segs.map (fun g => (g.id, g.elems.length)) =
      [(1, 1), (2, 5), (4, 4), (3, 1)] ∧ exUneven.scores.segs.map (·.id) = [1, 2, 3] :=
  ⟨exSplitStore_reload, exUneven_ok, by decide +kernel, by decide, by decide +kernel, by decide +kernel⟩

/-- If every score segment is smaller than the split size, the loop makes no new segment. -/
theorem splitLoop_old {now splitSize mergeSize : Nat} {merge isIndex : Bool} {skipUnsplit : Nat} :
    ∀ {ss done : List Seg} {nid skip : Nat}, (∀ g ∈ ss, g.n < splitSize) →
    ∀ g ∈ (Segments.splitLoop now splitSize mergeSize merge isIndex skipUnsplit nid skip done ss).1,
      g.id ∈ (done.reverse ++ ss).map (·.id)
  | [], done, nid, skip, _ => by
    unfold Segments.splitLoop
    rw [List.append_nil]
    exact fun g hg => List.mem_map_of_mem hg
  | s :: ss, done, nid, skip, h => by
    have h' : ∀ g ∈ ss, g.n < splitSize := fun g hg => h g (by simp [hg])
    have hnone : ∀ k, ∀ g ∈ (Segments.splitLoop now splitSize mergeSize merge isIndex skipUnsplit nid k (s :: done) ss).1,
        g.id ∈ (done.reverse ++ s :: ss).map (·.id) := by
      intro k g hg
      have := splitLoop_old (done := s :: done) h' g hg
      simpa using this
    match skip with
    | skip + 1 => unfold Segments.splitLoop; exact hnone _
    | 0 =>
      unfold Segments.splitLoop
      rw [if_pos (h s (by simp))]
      match merge, done, hnone with
      | true, q :: done', hnone =>
        simp only []
        split
        · exact hnone _
        · intro g hg
          have := splitLoop_old (done := (Segments.mergeWithNext now q s).1 :: done') h' g hg
          simp only [List.reverse_cons, List.append_assoc, List.map_append, List.map_cons, List.mem_append,
            List.mem_cons, List.map_nil, List.not_mem_nil, or_false] at this ⊢
          have hm : (Segments.mergeWithNext now q s).1.id = q.id := rfl
          rw [hm] at this
          grind
      | false, done, hnone => exact hnone _
      | true, [], hnone => exact hnone _

/-- A crash at any moment while segments are only merged loses nothing. -/
theorem C52_merge (now now' : Nat) (merge : Bool) (sch sch' shuffle : Sched) (reduce : Nat → Nat) (d : Store)
    (ent : Entry) (st : ListState) (k : Nat) (hne : ent.scores ≠ ent.index) (h : reload d ent = some st)
    (hok : ListOK st) (hnow : now < 2 ^ 32 - 1) (hs : st.scores.nextID ≤ 2 ^ 31) (hi : st.index.nextID ≤ 2 ^ 31)
    (hlen : st.content.length + 2 ≤ 2 ^ 32) (hred : ∀ n, 0 < n → 0 < reduce n) (hsp : 4 ≤ ent.splitSize)
    (hsmall : ∀ g ∈ st.scores.segs, g.elems.length < st.splitSize) :
    ∃ r, Disk.repair now' sch' shuffle reduce (crash k d (Disk.split now merge sch ent st)) ent = some r ∧ ListOK r ∧
      r.content = st.content := by
  obtain ⟨r, hr, hrok, r1, r2⟩ := C52_split_partial now now' merge sch sch' shuffle reduce d ent st k hne h hok hnow hs hi
    hlen hred hsp
  refine ⟨r, hr, hrok, content_ext hrok hok fun e => ⟨r1 e, fun he => ?_⟩⟩
  rw [← (C18_split_keeps_content now merge st hok hnow hs hi).2] at he
  obtain ⟨g, hg, hge⟩ := mem_allElems.1 he
  have := splitLoop_old (fun g hg => by rw [hok.scoresCount g hg]; exact hsmall g hg) g hg
  rw [List.reverse_nil, List.nil_append] at this
  obtain ⟨o, ho, hid⟩ := List.mem_map.1 this
  exact r2 g hg ⟨o, ho, hid⟩ e hge

/-- A list with small segments. -/
def exSmall : ListState := Lists.deleteElements 12 .inOrder exUneven [20, 21, 22, 23, 24, 2, 9, 5]

theorem exSmall_ok : ListOK exSmall := (listOK_iff _).1 (by decide +kernel)

example : reload (exStoreOf exSmall) exEntry = some exSmall ∧ ListOK exSmall ∧
    exSmall.scores.nextID ≤ 2 ^ 31 ∧ exSmall.index.nextID ≤ 2 ^ 31 ∧
    (∀ g ∈ exSmall.scores.segs, g.elems.length < exSmall.splitSize) ∧
    (Lists.split 13 true exSmall).scores.segs.length < exSmall.scores.segs.length ∧
    (Disk.split 13 true .inOrder exEntry exSmall).length = 7 :=
  ⟨by decide +kernel, exSmall_ok, by decide +kernel, by decide +kernel, by decide +kernel, by decide +kernel,
    by decide +kernel⟩

/-- C52 does not hold: after a crash at any moment after the score segments were written and before the segments
were saved, repairing loses every element that was moved to a new segment. -/
theorem C52_split_lost (now now' : Nat) (merge : Bool) (sch sch' shuffle : Sched) (reduce : Nat → Nat) (d : Store)
    (ent : Entry) (st r : ListState) (k : Nat) (hne : ent.scores ≠ ent.index) (h : reload d ent = some st)
    (hok : ListOK st) (hnow : now < 2 ^ 32 - 1) (hs : st.scores.nextID ≤ 2 ^ 31) (hi : st.index.nextID ≤ 2 ^ 31)
    (hlen : st.content.length + 2 ≤ 2 ^ 32) (hred : ∀ n, 0 < n → 0 < reduce n) (hsp : 4 ≤ ent.splitSize)
    (hk1 : (splitScores now merge ent st).1.length ≤ k)
    (hk2 : k ≤ ((splitScores now merge ent st).1 ++ (splitIndex now merge sch ent st).1).length)
    (hr : Disk.repair now' sch' shuffle reduce (crash k d (Disk.split now merge sch ent st)) ent = some r) :
    ∀ g ∈ (Lists.split now merge st).scores.segs, (∀ o ∈ st.scores.segs, o.id ≠ g.id) → ∀ e ∈ g.elems, e ∉ r.content := by
  intro g hg hnew e he hmem
  obtain ⟨hok', hc'⟩ := C18_split_keeps_content now merge st hok hnow hs hi
  obtain ⟨⟨i0, hi0⟩, hcase⟩ := split_crash (merge := merge) (sch := sch) k hne h hok hnow
  obtain ⟨s0, hh, hids, hel⟩ := hcase.resolve_right (by rintro ⟨h, -⟩; omega)
  rw [List.take_of_length_le hk1] at hel
  have S1 := splitScores_steps now merge ent st
  have hfr : Fresh st.scores.nextID st.scores.segs := ⟨hok.scores.segIDs, fun g hg => (hok.scoresIDs.1 g hg).2⟩
  obtain ⟨c1, -, -⟩ := steps_has S1 (d := d) hfr (ready_of_reload h).scores
  have key : ∀ o ∈ st.scores.segs, ∀ l, (crash k d (Disk.split now merge sch ent st)).elems ent.scores o.id = some l →
      ∃ g' ∈ (Lists.split now merge st).scores.segs, g'.id = o.id ∧ l = g'.elems := by
    intro o ho l hl
    rw [hel] at hl
    by_cases hin : o.id ∈ (Lists.split now merge st).scores.segs.map (·.id)
    · obtain ⟨g', hg', hid⟩ := List.mem_map.1 hin
      refine ⟨g', hg', hid, ?_⟩
      rw [← hid, c1 g' hg'] at hl
      simpa using hl.symm
    · rw [steps_gone S1 (d := d) hfr (hfr.2 o ho) hin (.inl (List.mem_map_of_mem ho))] at hl
      simp at hl
  have hold : ∀ g ∈ s0.segs, ∃ o ∈ st.scores.segs, o.id = g.id := by
    intro g hg
    have : g.id ∈ st.scores.segs.map (·.id) := by rw [← hids]; exact List.mem_map_of_mem hg
    exact List.mem_map.1 this
  obtain ⟨r', hr', -, r1, -⟩ := repair_any (now := now') (sch := sch') (shuffle := shuffle) (reduce := reduce)
    (S := st.content) hh hi0 hok.scores.storable hlen
    (by
      intro g hg l hl e he
      obtain ⟨o, ho, hid⟩ := hold g hg
      rw [← hid] at hl
      obtain ⟨g', hg', -, rfl⟩ := key o ho l hl
      rw [← hc']
      exact mem_allElems.2 ⟨g', hg', he⟩) hred hsp
  rw [hr] at hr'
  simp only [Option.some.injEq] at hr'
  subst hr'
  obtain ⟨g0, hg0, l, hl, hel'⟩ := r1 e hmem
  obtain ⟨o, ho, hid⟩ := hold g0 hg0
  rw [← hid] at hl
  obtain ⟨g', hg', hid', rfl⟩ := key o ho l hl
  have : g' = g := tiles_unique hok'.scores.tiles hg' hg (hok'.scores.inRange g' hg' e hel') (hok'.scores.inRange g hg e he)
  subst this
  exact hnew o ho hid'.symm

/-- Of 11 elements repairing finds 7: the 4 elements of the new segment are lost. -/
example : reload exSplitStore exEntry = some exUneven ∧ ListOK exUneven ∧
    (splitScores 13 true exEntry exUneven).1.length = 2 ∧
    ((splitScores 13 true exEntry exUneven).1 ++ (splitIndex 13 true .inOrder exEntry exUneven).1).length = 6 ∧
    (∃ g ∈ (Lists.split 13 true exUneven).scores.segs, (∀ o ∈ exUneven.scores.segs, o.id ≠ g.id) ∧ g.elems.length = 4) ∧
    (Disk.repair 100 .inOrder .inOrder id (crash 5 exSplitStore (Disk.split 13 true .inOrder exEntry exUneven)) exEntry).map
      (·.content.length) = some 7 ∧ exUneven.content.length = 11 :=
  ⟨exSplitStore_reload, exUneven_ok, by decide +kernel, by decide +kernel, by decide +kernel, by decide +kernel,
    by decide +kernel⟩

end RankDB.Props

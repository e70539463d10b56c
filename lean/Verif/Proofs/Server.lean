import Verif.Spec.Server
import Verif.Props.SplitCrash
/-
Lemmas about the server.
-/
namespace RankDB.Server
open Spec Disk

/-! ### Writes -/

theorem loadSegs_other {d : Store} {p : Str} {ws : List Write} (h : ∀ w ∈ ws, w.parent ≠ p) :
    loadSegs (writes d ws) p = loadSegs d p := by
  obtain ⟨h1, h2⟩ := writes_other d h
  unfold loadSegs
  rw [h1]
  have hc : ∀ s, complete (writes d ws) p s = complete d p s := by
    intro s; unfold complete; simp only [h2]
  have hf : fill (writes d ws) p = fill d p := by
    funext g; unfold fill; rw [h2]
  simp only [hc, hf]

/-- Writes under other names do not change a list. -/
theorem reload_other {d : Store} {ent : Entry} {ws : List Write}
    (h : ∀ w ∈ ws, w.parent ≠ ent.scores ∧ w.parent ≠ ent.index) : reload (writes d ws) ent = reload d ent := by
  unfold reload
  rw [loadSegs_other fun w hw => (h w hw).1, loadSegs_other fun w hw => (h w hw).2]

theorem parent_updateElements {now : Nat} {sch : Sched} {ent : Entry} {st : ListState} {es : List Element} :
    ∀ w ∈ Disk.updateElements now sch ent st es, w.parent = ent.scores ∨ w.parent = ent.index := by
  intro w hw
  unfold Disk.updateElements at hw
  simp only [List.mem_append] at hw
  rcases hw with hw | hw | hw
  · exact .inr (parent_replaceAt w hw)
  · exact .inl (parent_replaceAt w hw)
  · exact parent_save w hw

theorem parent_deleteElements {now : Nat} {sch : Sched} {ent : Entry} {st : ListState} {ids : List Nat} :
    ∀ w ∈ Disk.deleteElements now sch ent st ids, w.parent = ent.scores ∨ w.parent = ent.index := by
  intro w hw
  unfold Disk.deleteElements at hw
  simp only [List.mem_append] at hw
  rcases hw with hw | hw | hw
  · exact .inl (parent_replaceAt w hw)
  · exact .inr (parent_replaceAt w hw)
  · exact parent_save w hw

theorem parent_cloneWrites {new : Entry} {st : ListState} :
    ∀ w ∈ cloneWrites new st, w.parent = new.scores ∨ w.parent = new.index := by
  intro w hw
  unfold cloneWrites at hw
  simp only [List.mem_append] at hw
  rcases hw with hw | hw | hw
  · exact .inl (parent_newSegs w hw)
  · exact .inr (parent_newSegs w hw)
  · exact parent_save w hw

theorem parent_deleteAll {sch : Sched} {d : Store} {ent : Entry} :
    ∀ w ∈ deleteAll sch d ent, w.parent = ent.scores ∨ w.parent = ent.index := by
  intro w hw
  unfold deleteAll at hw
  split at hw
  · rcases List.mem_append.1 hw with hw | hw
    · exact .inl (parent_deleteSegs w hw)
    · exact .inr (parent_deleteSegs w hw)
  · split at hw
    · exact .inl (parent_deleteSegs w hw)
    · simp at hw
  · simp at hw

theorem parent_reindex {now : Nat} {sch : Sched} {ent new : Entry} {st : ListState} (hsc : new.scores = ent.scores) :
    ∀ w ∈ Disk.reindex now sch ent new st, w.parent = ent.scores ∨ w.parent = ent.index ∨ w.parent = new.index := by
  intro w hw
  unfold Disk.reindex at hw
  split at hw
  · simp at hw
  · simp only [List.mem_append] at hw
    rcases hw with hw | hw | hw | hw
    · exact .inr (.inr (parent_newSegs w hw))
    · simp only [List.mem_cons, List.not_mem_nil, or_false] at hw
      subst hw; exact .inr (.inr rfl)
    · exact .inr (.inl (parent_deleteSegs w hw))
    · rcases parent_save w hw with h | h
      · exact .inl (h.trans hsc)
      · exact .inr (.inr h)

theorem parent_populate {now : Nat} {sch shuffle : Sched} {reduce : Nat → Nat} {ent new : Entry} {st : ListState} {l : List Element} :
    ∀ w ∈ Disk.populate now sch shuffle reduce ent new st l,
      (w.parent = ent.scores ∨ w.parent = ent.index) ∨ (w.parent = new.scores ∨ w.parent = new.index) := by
  intro w hw
  unfold Disk.populate at hw
  simp only [List.mem_append] at hw
  rcases hw with hw | hw | hw
  · exact .inl (.inl (parent_deleteSegs w hw))
  · exact .inl (.inr (parent_deleteSegs w hw))
  · exact .inr (parent_populateNew w hw)

theorem parent_split {now : Nat} {merge : Bool} {sch : Sched} {ent : Entry} {st : ListState} {d : Store}
    (hne : ent.scores ≠ ent.index) (h : reload d ent = some st) (hok : ListOK st) (hnow : now < 2 ^ 32 - 1) :
    ∀ w ∈ Disk.split now merge sch ent st, w.parent = ent.scores ∨ w.parent = ent.index := by
  obtain ⟨-, h1, h2⟩ := split_stored (merge := merge) (sch := sch) hne hok hnow (Props.nextID_pos hok.scores.tiles hok.scoresIDs)
    (ready_of_reload h).toStored
  intro w hw
  unfold Disk.split at hw
  simp only [List.mem_append] at hw
  rcases hw with hw | hw | hw
  · exact .inl (h1 w hw).parent
  · exact .inr (h2 w hw).parent
  · split at hw
    · exact parent_save w hw
    · simp at hw

/-! ### The catalogue -/

theorem byID_mem {lists : List Listing} {id : Str} {l : Listing} (h : byID lists id = some l) : l ∈ lists ∧ l.id = id :=
  ⟨List.mem_of_find?_eq_some h, by simpa using List.find?_some h⟩

theorem byID_none {lists : List Listing} {id : Str} (h : byID lists id = none) : ∀ l ∈ lists, l.id ≠ id := by
  intro l hl
  simpa using List.find?_eq_none.1 h l hl

theorem byID_filter {lists : List Listing} {id id' : Str} (h : id ≠ id') :
    byID (lists.filter fun x => x.id != id') id = byID lists id := by
  unfold byID
  rw [List.find?_filter]
  congr 1
  funext l
  by_cases hl : l.id = id
  · simp [hl, h]
  · simp [hl]

theorem byID_filter_self {lists : List Listing} {id : Str} : byID (lists.filter fun x => x.id != id) id = none := by
  unfold byID
  rw [List.find?_eq_none]
  intro l hl
  simpa using (List.mem_filter.1 hl).2

theorem byID_put {lists : List Listing} {l : Listing} {id : Str} :
    byID (l :: lists.filter fun x => x.id != l.id) id = if id = l.id then some l else byID lists id := by
  by_cases h : id = l.id
  · rw [if_pos h]; unfold byID; rw [List.find?_cons_of_pos (by simp [h])]
  · rw [if_neg h]
    have : byID (l :: lists.filter fun x => x.id != l.id) id = byID (lists.filter fun x => x.id != l.id) id := by
      unfold byID; rw [List.find?_cons_of_neg (by simpa using fun h' => h h'.symm)]
    rw [this, byID_filter h]

theorem mem_unique {lists : List Listing} (h : (lists.map (·.id)).Nodup) {a b : Listing} (ha : a ∈ lists) (hb : b ∈ lists)
    (hid : a.id = b.id) : a = b := by
  induction lists with
  | nil => simp at ha
  | cons x xs ih =>
    simp only [List.map_cons, List.nodup_cons] at h
    rcases List.mem_cons.1 ha with h1 | h1 <;> rcases List.mem_cons.1 hb with h2 | h2
    · rw [h1, h2]
    · exact absurd (List.mem_map.2 ⟨b, h2, by rw [← hid, h1]⟩) h.1
    · exact absurd (List.mem_map.2 ⟨a, h1, by rw [hid, h2]⟩) h.1
    · exact ih h.2 h1 h2

theorem byID_of_mem {lists : List Listing} (h : (lists.map (·.id)).Nodup) {l : Listing} (hl : l ∈ lists) :
    byID lists l.id = some l := by
  cases hb : byID lists l.id with
  | none => exact absurd rfl (byID_none hb l hl)
  | some x =>
    obtain ⟨h1, h2⟩ := byID_mem hb
    rw [mem_unique h h1 hl h2]

theorem nodup_filter {lists : List Listing} {id : Str} (h : (lists.map (·.id)).Nodup) :
    ((lists.filter fun x => x.id != id).map (·.id)).Nodup :=
  List.Pairwise.sublist (List.filter_sublist.map _) h

theorem applyAll_append (db : Db) (a b : List Effect) : applyAll db (a ++ b) = applyAll (applyAll db a) b := by
  unfold applyAll; rw [List.foldl_append]

theorem applyAll_blobs (ws : List Write) (db : Db) : applyAll db (ws.map .blob) = { db with store := writes db.store ws } := by
  induction ws generalizing db with
  | nil => rfl
  | cons w ws ih =>
    show applyAll (apply db (.blob w)) (ws.map .blob) = _
    rw [ih]; rfl

/-! ### Changes of one list -/

/-- The view of a list entry over some content. -/
def viewOf (l : Listing) (st : ListState) : Seen :=
  { set := l.set, metadata := l.metadata, loadIndex := l.loadIndex, mergeSize := l.ent.mergeSize
    splitSize := l.ent.splitSize, content := st.content }

theorem look_of {db : Db} {l : Listing} {id : Str} {st : ListState} (hb : byID db.lists id = some l)
    (hr : reload db.store l.ent = some st) : look db id = some (viewOf l st) := by
  unfold look; rw [hb]; simp [hr, viewOf]

theorem look_none {db : Db} {id : Str} (hb : byID db.lists id = none) : look db id = none := by
  unfold look; rw [hb]; rfl

theorem Good.look {db : Db} (h : Good db) {id : Str} : (∃ l st, l ∈ db.lists ∧ l.id = id ∧ byID db.lists id = some l ∧
      reload db.store l.ent = some st ∧ ListOK st ∧ Spec.look db id = some (viewOf l st)) ∨
    (byID db.lists id = none ∧ Spec.look db id = none) := by
  cases hb : byID db.lists id with
  | none => exact .inr ⟨rfl, look_none hb⟩
  | some l =>
    obtain ⟨h1, h2⟩ := byID_mem hb
    obtain ⟨st, h3, h4⟩ := h.readable l h1
    exact .inl ⟨l, st, h1, h2, rfl, h3, h4, look_of hb h3⟩

/-- The content of a list changes, its entry does not. -/
theorem good_change {db : Db} {l : Listing} {ws : List Write} {st' : ListState} (h : Good db) (hl : l ∈ db.lists)
    (hw : ∀ w ∈ ws, w.parent = l.ent.scores ∨ w.parent = l.ent.index)
    (hr : reload (writes db.store ws) l.ent = some st') (hok : ListOK st') :
    Good { db with store := writes db.store ws } ∧
      look { db with store := writes db.store ws } = (look db).set l.id (some (viewOf l st')) := by
  have hother : ∀ x ∈ db.lists, x.id ≠ l.id → reload (writes db.store ws) x.ent = reload db.store x.ent := by
    intro x hx hne
    apply reload_other
    intro w hwm
    have hwl : w.parent ∈ Spec.names l := by
      unfold Spec.names; rcases hw w hwm with h1 | h1 <;> simp [h1]
    constructor
    · intro he; exact hne (h.names x hx l hl _ (by simp [Spec.names]) (he ▸ hwl))
    · intro he; exact hne (h.names x hx l hl _ (by simp [Spec.names]) (he ▸ hwl))
  refine ⟨⟨h.ids, h.own, h.names, ?_, h.sizes⟩, ?_⟩
  · intro x hx
    by_cases hxl : x.id = l.id
    · rw [mem_unique h.ids hx hl hxl]; exact ⟨st', hr, hok⟩
    · obtain ⟨st, h1, h2⟩ := h.readable x hx
      exact ⟨st, by show reload (writes db.store ws) x.ent = _; rw [hother x hx hxl, h1], h2⟩
  · funext id
    unfold Lists.set
    by_cases hid : id = l.id
    · rw [if_pos hid]
      exact look_of (db := { db with store := writes db.store ws }) (by rw [hid]; exact byID_of_mem h.ids hl) hr
    · rw [if_neg hid]
      unfold look
      show ((byID db.lists id).bind fun x => (reload (writes db.store ws) x.ent).map _) = _
      cases hb : byID db.lists id with
      | none => rfl
      | some x =>
        obtain ⟨h1, h2⟩ := byID_mem hb
        simp only [Option.bind_some]
        rw [hother x h1 (by rw [h2]; exact hid)]

/-- A list is added, or its entry is changed, and nothing is written under the names of other lists. -/
theorem good_put_apart {db : Db} {l : Listing} {ws : List Write} {st' : ListState} (h : Good db)
    (hown : l.ent.scores ≠ l.ent.index) (hsize : 4 ≤ l.ent.splitSize)
    (hnames : ∀ x ∈ db.lists, x.id ≠ l.id → l.ent.scores ∉ names x ∧ l.ent.index ∉ names x)
    (hw : ∀ w ∈ ws, ∀ x ∈ db.lists, x.id ≠ l.id → w.parent ∉ names x)
    (hr : reload (writes db.store ws) l.ent = some st') (hok : ListOK st') :
    Good { db with store := writes db.store ws, lists := l :: db.lists.filter fun x => x.id != l.id } ∧
      look { db with store := writes db.store ws, lists := l :: db.lists.filter fun x => x.id != l.id } =
        (look db).set l.id (some (viewOf l st')) := by
  have hother : ∀ x ∈ db.lists, x.id ≠ l.id → reload (writes db.store ws) x.ent = reload db.store x.ent := by
    intro x hx hne
    apply reload_other
    intro w hwm
    have hno := hw w hwm x hx hne
    constructor
    · intro he; exact hno (by simp [Spec.names, he])
    · intro he; exact hno (by simp [Spec.names, he])
  have hmem : ∀ x, x ∈ l :: db.lists.filter (fun x => x.id != l.id) → x = l ∨ (x ∈ db.lists ∧ x.id ≠ l.id) := by
    intro x hx
    rcases List.mem_cons.1 hx with h1 | h1
    · exact .inl h1
    · obtain ⟨h2, h3⟩ := List.mem_filter.1 h1
      exact .inr ⟨h2, by simpa using h3⟩
  have hnot : ∀ x ∈ db.lists, x.id ≠ l.id → ∀ n ∈ Spec.names l, n ∉ Spec.names x := by
    intro x hx hne n hn
    have := hnames x hx hne
    unfold Spec.names at hn
    simp only [List.mem_cons, List.not_mem_nil, or_false] at hn
    rcases hn with rfl | rfl
    · exact this.1
    · exact this.2
  refine ⟨⟨?_, ?_, ?_, ?_, ?_⟩, ?_⟩
  · show ((l :: db.lists.filter fun x => x.id != l.id).map (·.id)).Nodup
    rw [List.map_cons, List.nodup_cons]
    refine ⟨?_, nodup_filter h.ids⟩
    intro hm
    obtain ⟨x, hx, he⟩ := List.mem_map.1 hm
    simpa [he] using (List.mem_filter.1 hx).2
  · intro x hx
    rcases hmem x hx with rfl | ⟨h1, -⟩
    · exact hown
    · exact h.own x h1
  · intro x hx y hy n hnx hny
    rcases hmem x hx with rfl | ⟨h1, h2⟩ <;> rcases hmem y hy with rfl | ⟨h3, h4⟩
    · rfl
    · exact absurd hny (hnot y h3 h4 n hnx)
    · exact absurd hnx (hnot x h1 h2 n hny)
    · exact h.names x h1 y h3 n hnx hny
  · intro x hx
    rcases hmem x hx with rfl | ⟨h1, h2⟩
    · exact ⟨st', hr, hok⟩
    · obtain ⟨st, h3, h4⟩ := h.readable x h1
      exact ⟨st, by show reload (writes db.store ws) x.ent = _; rw [hother x h1 h2, h3], h4⟩
  · intro x hx
    rcases hmem x hx with rfl | ⟨h1, -⟩
    · exact hsize
    · exact h.sizes x h1
  · funext id
    unfold Lists.set
    by_cases hid : id = l.id
    · rw [if_pos hid]
      refine look_of (db := { db with store := writes db.store ws, lists := _ }) ?_ hr
      show byID (l :: db.lists.filter fun x => x.id != l.id) id = _
      rw [byID_put, if_pos hid]
    · rw [if_neg hid]
      unfold look
      show ((byID (l :: db.lists.filter fun x => x.id != l.id) id).bind fun x => (reload (writes db.store ws) x.ent).map _) = _
      rw [byID_put, if_neg hid]
      cases hb : byID db.lists id with
      | none => rfl
      | some x =>
        obtain ⟨h1, h2⟩ := byID_mem hb
        simp only [Option.bind_some]
        rw [hother x h1 (by rw [h2]; exact hid)]

/-- A list is added, or its entry is changed. -/
theorem good_put {db : Db} {l : Listing} {ws : List Write} {st' : ListState} (h : Good db)
    (hown : l.ent.scores ≠ l.ent.index) (hsize : 4 ≤ l.ent.splitSize)
    (hnames : ∀ x ∈ db.lists, x.id ≠ l.id → l.ent.scores ∉ names x ∧ l.ent.index ∉ names x)
    (hw : ∀ w ∈ ws, w.parent ∈ names l ∨ ∃ x ∈ db.lists, x.id = l.id ∧ w.parent ∈ names x)
    (hr : reload (writes db.store ws) l.ent = some st') (hok : ListOK st') :
    Good { db with store := writes db.store ws, lists := l :: db.lists.filter fun x => x.id != l.id } ∧
      look { db with store := writes db.store ws, lists := l :: db.lists.filter fun x => x.id != l.id } =
        (look db).set l.id (some (viewOf l st')) := by
  refine good_put_apart h hown hsize hnames (fun w hwm x hx hne hp => ?_) hr hok
  rcases hw w hwm with h1 | ⟨y, h1, h2, h3⟩
  · have := hnames x hx hne
    unfold Spec.names at h1
    simp only [List.mem_cons, List.not_mem_nil, or_false] at h1
    rcases h1 with h1 | h1
    · exact this.1 (h1 ▸ hp)
    · exact this.2 (h1 ▸ hp)
  · exact hne ((h.names x hx y h1 _ hp h3).trans h2)

/-- A list is removed. -/
theorem good_drop {db : Db} {l : Listing} {ws : List Write} (h : Good db) (hl : l ∈ db.lists)
    (hw : ∀ w ∈ ws, w.parent = l.ent.scores ∨ w.parent = l.ent.index) :
    Good { db with store := writes db.store ws, lists := db.lists.filter fun x => x.id != l.id } ∧
      look { db with store := writes db.store ws, lists := db.lists.filter fun x => x.id != l.id } =
        (look db).set l.id none := by
  have hother : ∀ x ∈ db.lists, x.id ≠ l.id → reload (writes db.store ws) x.ent = reload db.store x.ent := by
    intro x hx hne
    apply reload_other
    intro w hwm
    have hwl : w.parent ∈ Spec.names l := by
      unfold Spec.names; rcases hw w hwm with h1 | h1 <;> simp [h1]
    constructor
    · intro he; exact hne (h.names x hx l hl _ (by simp [Spec.names]) (he ▸ hwl))
    · intro he; exact hne (h.names x hx l hl _ (by simp [Spec.names]) (he ▸ hwl))
  have hmem : ∀ x, x ∈ db.lists.filter (fun x => x.id != l.id) → x ∈ db.lists ∧ x.id ≠ l.id := by
    intro x hx
    obtain ⟨h2, h3⟩ := List.mem_filter.1 hx
    exact ⟨h2, by simpa using h3⟩
  refine ⟨⟨nodup_filter h.ids, fun x hx => h.own x (hmem x hx).1,
    fun x hx y hy => h.names x (hmem x hx).1 y (hmem y hy).1, ?_, fun x hx => h.sizes x (hmem x hx).1⟩, ?_⟩
  · intro x hx
    obtain ⟨h1, h2⟩ := hmem x hx
    obtain ⟨st, h3, h4⟩ := h.readable x h1
    exact ⟨st, by show reload (writes db.store ws) x.ent = _; rw [hother x h1 h2, h3], h4⟩
  · funext id
    unfold Lists.set
    by_cases hid : id = l.id
    · rw [if_pos hid]
      apply look_none
      show byID (db.lists.filter fun x => x.id != l.id) id = none
      rw [hid]; exact byID_filter_self
    · rw [if_neg hid]
      unfold look
      show ((byID (db.lists.filter fun x => x.id != l.id) id).bind fun x => (reload (writes db.store ws) x.ent).map _) = _
      rw [byID_filter hid]
      cases hb : byID db.lists id with
      | none => rfl
      | some x =>
        obtain ⟨h1, h2⟩ := byID_mem hb
        simp only [Option.bind_some]
        rw [hother x h1 (by rw [h2]; exact hid)]

end RankDB.Server

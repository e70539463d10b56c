import Verif.Model.Pool
import Verif.Props.Restart
import Verif.Props.Answers
/-
Requests for different lists at the same time: their changes commute, so that the server is always as if the requests
had been served one after the other, once the pending changes are made.
-/
namespace RankDB.Server
open Spec Disk Props

/-! ### What a request depends on -/

/-- Two storages have the same blobs under a name. Elements within a table do not count; they are never there. -/
def Agree (a b : Store) (n : Str) : Prop := (a.heads n).map head = (b.heads n).map head ∧ ∀ j, a.elems n j = b.elems n j

theorem head_segs {s t : Segs} (h : head s = head t) :
    s.nextID = t.nextID ∧ s.isIndex = t.isIndex ∧ s.segs.map (·.id) = t.segs.map (·.id) ∧
    ∀ f : Nat → List Element, s.segs.map (fun g => ({ g with elems := f g.id } : Seg)) = t.segs.map fun g => { g with elems := f g.id } := by
  unfold head at h
  injection h with h1 h2 h3
  refine ⟨h2, h3, ?_, fun f => map_clear_eq h1 (f := fun g => f g.id) fun g g' hg => by rw [hg]⟩
  have := congrArg (List.map Seg.id) h1
  simpa [List.map_map, Function.comp_def] using this

theorem complete_congr {a b : Store} {n : Str} {s t : Segs} (he : ∀ j, a.elems n j = b.elems n j) (h : head s = head t) :
    complete a n s = complete b n t := by
  have := congrArg (fun l => l.all fun i => (b.elems n i).isSome) (head_segs h).2.2.1
  simp only [List.all_map] at this
  unfold complete
  simp only [he]
  exact this

theorem Agree.write {a b : Store} {n : Str} (h : Agree a b n) (w : Write) : Agree (Disk.write a w) (Disk.write b w) n := by
  obtain ⟨h1, h2⟩ := h
  cases w <;> refine ⟨?_, ?_⟩ <;> simp only [Disk.write] <;> grind

theorem Agree.writes {a b : Store} {n : Str} (ws : List Write) (h : Agree a b n) : Agree (Disk.writes a ws) (Disk.writes b ws) n := by
  induction ws generalizing a b with
  | nil => exact h
  | cons w ws ih => exact ih (h.write w)

theorem Agree.loadSegs {a b : Store} {n : Str} (h : Agree a b n) : Disk.loadSegs a n = Disk.loadSegs b n := by
  obtain ⟨h1, h2⟩ := h
  unfold Disk.loadSegs
  cases ha : a.heads n with
  | none =>
    rw [ha] at h1
    cases hb : b.heads n with
    | none => rfl
    | some t => rw [hb] at h1; cases h1
  | some s =>
    rw [ha] at h1
    cases hb : b.heads n with
    | none => rw [hb] at h1; cases h1
    | some t =>
      rw [hb] at h1
      simp only [Option.map_some, Option.some.injEq] at h1
      dsimp only
      rw [complete_congr h2 h1]
      obtain ⟨g1, g2, -, g4⟩ := head_segs h1
      have : s.segs.map (fill a n) = t.segs.map (fill b n) := by
        have := g4 fun i => (b.elems n i).getD []
        unfold fill
        simp only [h2]
        exact this
      rw [this]
      congr 3 <;> cases s <;> cases t <;> simp_all

/-- The same list with the same blobs. -/
structure SameFor (a b : Db) (id : Str) : Prop where
  entry : byID a.lists id = byID b.lists id
  blobs : ∀ l, byID b.lists id = some l → ∀ n ∈ names l, Agree a.store b.store n

theorem SameFor.reload {a b : Db} {id : Str} (h : SameFor a b id) {l : Listing} (hl : byID b.lists id = some l) :
    Disk.reload a.store l.ent = Disk.reload b.store l.ent := by
  unfold Disk.reload
  rw [(h.blobs l hl l.ent.scores (by simp [names])).loadSegs, (h.blobs l hl l.ent.index (by simp [names])).loadSegs]

theorem deleteSegs_congr {sch : Sched} {n : Str} {s t : Segs} (h : head s = head t) :
    deleteSegs sch n s.segs = deleteSegs sch n t.segs := by
  have := congrArg (List.map fun i => Write.delElems n i) (head_segs h).2.2.1
  simp only [List.map_map, Function.comp_def] at this
  unfold deleteSegs
  rw [this]

theorem deleteAll_congr {sch : Sched} {a b : Store} {ent : Entry} (h1 : Agree a b ent.scores) (h2 : Agree a b ent.index) :
    deleteAll sch a ent = deleteAll sch b ent := by
  obtain ⟨h1, h1'⟩ := h1
  obtain ⟨h2, -⟩ := h2
  unfold deleteAll
  cases ha : a.heads ent.scores with
  | none =>
    rw [ha] at h1
    cases hb : b.heads ent.scores with
    | none => rfl
    | some t => rw [hb] at h1; cases h1
  | some s =>
    rw [ha] at h1
    cases hb : b.heads ent.scores with
    | none => rw [hb] at h1; cases h1
    | some t =>
      rw [hb] at h1
      simp only [Option.map_some, Option.some.injEq] at h1
      cases ha' : a.heads ent.index with
      | none =>
        rw [ha'] at h2
        cases hb' : b.heads ent.index with
        | none => dsimp only; rw [complete_congr h1' h1, deleteSegs_congr h1]
        | some t => rw [hb'] at h2; cases h2
      | some s' =>
        rw [ha'] at h2
        cases hb' : b.heads ent.index with
        | none => rw [hb'] at h2; cases h2
        | some t' =>
          rw [hb'] at h2
          simp only [Option.map_some, Option.some.injEq] at h2
          dsimp only
          rw [deleteSegs_congr h1, deleteSegs_congr h2]

theorem withList_congr {a b : Db} {id : Str} (h : SameFor a b id) (f : Listing → ListState → Answer × List Effect) :
    withList a id f = withList b id f := by
  unfold withList
  rw [h.entry]
  cases hb : byID b.lists id with
  | none => rfl
  | some l => dsimp only; rw [h.reload hb]

theorem handle_congr {env : Env} {a b : Db} {r : Request} (h : ∀ id ∈ uses r, SameFor a b id) :
    handle env a r = handle env b r := by
  cases r with
  | create replace p =>
    have hp := h p.id (by simp [uses, target])
    show create env a replace p = create env b replace p
    unfold create
    rw [hp.entry]
    cases hb : byID b.lists p.id with
    | none => rfl
    | some o =>
      dsimp only
      rw [deleteAll_congr ((hp.blobs o hb o.ent.scores (by simp [names])).writes _)
        ((hp.blobs o hb o.ent.index (by simp [names])).writes _)]
  | clone org p =>
    have hp := h p.id (by simp [uses])
    have ho := h org (by simp [uses])
    show clone env a org p = clone env b org p
    unfold clone
    rw [hp.entry, ho.entry]
    cases hb : byID b.lists org with
    | none => rfl
    | some o => dsimp only; rw [ho.reload hb]
  | delete id =>
    have hp := h id (by simp [uses, target])
    show Server.delete env a id = Server.delete env b id
    unfold Server.delete
    rw [hp.entry]
    cases hb : byID b.lists id with
    | none => rfl
    | some o =>
      dsimp only
      rw [deleteAll_congr (hp.blobs o hb o.ent.scores (by simp [names])) (hp.blobs o hb o.ent.index (by simp [names]))]
  | save => rfl
  | createElement id => exact withList_congr (h id (by simp [uses, target])) _
  | createElements id => exact withList_congr (h id (by simp [uses, target])) _
  | putElements id => exact withList_congr (h id (by simp [uses, target])) _
  | deleteElements id => exact withList_congr (h id (by simp [uses, target])) _
  | reindex id => exact withList_congr (h id (by simp [uses, target])) _
  | repair id => exact withList_congr (h id (by simp [uses, target])) _
  | split id => exact withList_congr (h id (by simp [uses, target])) _

theorem withRead_congr {a b : Db} {id : Str} (h : SameFor a b id) (f : Listing → ListState → Shown) :
    withRead a id f = withRead b id f := by
  unfold withRead
  rw [h.entry]
  cases hb : byID b.lists id with
  | none => rfl
  | some l => dsimp only; rw [h.reload hb]

theorem ask_congr {sch : Sched} {a b : Db} {q : Query} {id : Str} (hq : Query.list? q = some id) (h : SameFor a b id) :
    ask sch a q = ask sch b q := by
  cases q with
  | page => cases hq
  | _ => cases hq; simp only [ask]; exact withRead_congr h _

theorem look_congr {a b : Db} {id : Str} (h : SameFor a b id) : look a id = look b id := by
  unfold look
  rw [h.entry]
  cases hb : byID b.lists id with
  | none => rfl
  | some l => simp only [Option.bind_some]; rw [h.reload hb]

theorem SameFor.lists {a b : Db} {id : Str} (h : SameFor a b id) (ha : (a.lists.map (·.id)).Nodup)
    (hb : (b.lists.map (·.id)).Nodup) {l : Listing} (hid : l.id = id) : l ∈ a.lists ↔ l ∈ b.lists := by
  subst hid
  constructor
  · intro hl
    have := byID_of_mem ha hl
    rw [h.entry] at this
    exact (byID_mem this).1
  · intro hl
    have := byID_of_mem hb hl
    rw [← h.entry] at this
    exact (byID_mem this).1

theorem allowed_congr {a b : Db} {r : Request} (h : ∀ id ∈ uses r, SameFor a b id) (ha : (a.lists.map (·.id)).Nodup)
    (hb : (b.lists.map (·.id)).Nodup) (hal : Allowed a r) : Allowed b r := by
  have key : ∀ id ∈ uses r, ∀ {p : Listing → ListState → Prop},
      (∀ l ∈ a.lists, l.id = id → ∀ st, Disk.reload a.store l.ent = some st → p l st) →
      ∀ l ∈ b.lists, l.id = id → ∀ st, Disk.reload b.store l.ent = some st → p l st := by
    intro id hid p hp l hl hlid st hst
    have hs := h id hid
    have hbl : byID b.lists id = some l := by rw [← hlid]; exact byID_of_mem hb hl
    exact hp l ((hs.lists ha hb hlid).2 hl) hlid st (by rw [hs.reload hbl]; exact hst)
  cases r with
  | clone org p => exact ⟨hal.1, key org (by simp [uses]) (p := fun _ st => st.content.length + 2 ≤ 2 ^ 32 ∧ st.scores.segs.length + 1 ≤ 2 ^ 32) hal.2⟩
  | reindex id => exact key id (by simp [uses, target]) (p := fun _ st => st.content.length + 2 ≤ 2 ^ 32) hal
  | repair id => exact key id (by simp [uses, target]) (p := fun _ st => st.content.length + 2 ≤ 2 ^ 32) hal
  | split id => exact key id (by simp [uses, target]) (p := fun _ st => st.scores.nextID ≤ 2 ^ 31 ∧ st.index.nextID ≤ 2 ^ 31) hal
  | _ => exact hal

/-! ### Changes of different lists -/

/-- The list that a change of the catalogue is about. -/
def about : Effect → Option Str
  | .put l => some l.id
  | .drop id => some id
  | .blob _ | .save => none

/-- The blobs that a change is about. -/
def blobOf : Effect → Option Str
  | .blob w => some w.parent
  | _ => none

/-- The same lists, maybe in another order, and the same blobs. -/
structure Alike (a b : Db) : Prop where
  store : a.store = b.store
  lists : a.lists.Perm b.lists

theorem Alike.refl (a : Db) : Alike a a := ⟨rfl, .refl _⟩
theorem Alike.trans {a b c : Db} (h : Alike a b) (h' : Alike b c) : Alike a c := ⟨h.store.trans h'.store, h.lists.trans h'.lists⟩
theorem Alike.symm {a b : Db} (h : Alike a b) : Alike b a := ⟨h.store.symm, h.lists.symm⟩

theorem Alike.apply {a b : Db} (h : Alike a b) (e : Effect) : Alike (Server.apply a e) (Server.apply b e) := by
  cases e with
  | blob w => exact ⟨by show Disk.write _ _ = Disk.write _ _; rw [h.store], h.lists⟩
  | put l => exact ⟨h.store, (h.lists.filter _).cons _⟩
  | drop id => exact ⟨h.store, h.lists.filter _⟩
  | save => exact ⟨h.store, h.lists⟩

theorem Alike.applyAll {a b : Db} (es : List Effect) (h : Alike a b) : Alike (Server.applyAll a es) (Server.applyAll b es) := by
  induction es generalizing a b with
  | nil => exact h
  | cons e es ih => exact ih (h.apply e)

/-- Two changes have nothing to do with each other. -/
def Apart (e f : Effect) : Prop :=
  (∀ x, about e = some x → about f ≠ some x) ∧ (∀ n, blobOf e = some n → blobOf f ≠ some n)

theorem write_comm {d : Store} {v w : Write} (h : v.parent ≠ w.parent) :
    Disk.write (Disk.write d v) w = Disk.write (Disk.write d w) v := by
  cases v <;> cases w <;> simp only [Write.parent] at h <;> simp only [Disk.write, Store.mk.injEq] <;>
    refine ⟨?_, ?_⟩ <;> first | trivial | rfl | (funext q; grind) | (funext q j; grind)

theorem filter_comm' {l : List Listing} {x y : Str} :
    (l.filter fun a => a.id != x).filter (fun a => a.id != y) = (l.filter fun a => a.id != y).filter (fun a => a.id != x) := by
  rw [List.filter_filter, List.filter_filter]
  congr 1
  funext a
  exact Bool.and_comm _ _

theorem apply_comm {db : Db} {e f : Effect} (h : Apart e f) :
    Alike (apply (apply db e) f) (apply (apply db f) e) := by
  obtain ⟨h1, h2⟩ := h
  cases e with
  | blob v =>
    cases f with
    | blob w => exact ⟨write_comm fun hp => h2 _ rfl (by rw [hp]; rfl), .refl _⟩
    | put l => exact ⟨rfl, .refl _⟩
    | drop i => exact ⟨rfl, .refl _⟩
    | save => exact ⟨rfl, .refl _⟩
  | put a =>
    cases f with
    | blob w => exact ⟨rfl, .refl _⟩
    | put b =>
      have hne : a.id ≠ b.id := fun h => h1 a.id rfl (by rw [h]; rfl)
      refine ⟨rfl, ?_⟩
      show (b :: (a :: db.lists.filter fun x => x.id != a.id).filter fun x => x.id != b.id).Perm
        (a :: (b :: db.lists.filter fun x => x.id != b.id).filter fun x => x.id != a.id)
      rw [List.filter_cons_of_pos (by simpa using hne), List.filter_cons_of_pos (by simpa using hne.symm), filter_comm']
      exact .swap _ _ _
    | drop i =>
      have hne : a.id ≠ i := fun h => h1 a.id rfl (by rw [h]; rfl)
      refine ⟨rfl, ?_⟩
      show ((a :: db.lists.filter fun x => x.id != a.id).filter fun x => x.id != i).Perm
        (a :: (db.lists.filter fun x => x.id != i).filter fun x => x.id != a.id)
      rw [List.filter_cons_of_pos (by simpa using hne), filter_comm']
    | save => exact ⟨rfl, .refl _⟩
  | drop i =>
    cases f with
    | blob w => exact ⟨rfl, .refl _⟩
    | put b =>
      have hne : i ≠ b.id := fun h => h1 i rfl (by rw [h]; rfl)
      refine ⟨rfl, ?_⟩
      show (b :: (db.lists.filter fun x => x.id != i).filter fun x => x.id != b.id).Perm
        ((b :: db.lists.filter fun x => x.id != b.id).filter fun x => x.id != i)
      rw [List.filter_cons_of_pos (by simpa using hne.symm), filter_comm']
    | drop j =>
      refine ⟨rfl, ?_⟩
      show ((db.lists.filter fun x => x.id != i).filter fun x => x.id != j).Perm
        ((db.lists.filter fun x => x.id != j).filter fun x => x.id != i)
      rw [filter_comm']
    | save => exact ⟨rfl, .refl _⟩
  | save =>
    cases f with
    | blob w => exact ⟨rfl, .refl _⟩
    | put l => exact ⟨rfl, .refl _⟩
    | drop i => exact ⟨rfl, .refl _⟩
    | save => exact ⟨rfl, .refl _⟩

/-- A change can be made before changes that have nothing to do with it. -/
theorem apply_first {es : List Effect} {e : Effect} (db : Db) (h : ∀ x ∈ es, Apart x e) :
    Alike (applyAll db (es ++ [e])) (applyAll (apply db e) es) := by
  induction es generalizing db with
  | nil => exact Alike.refl _
  | cons x es ih =>
    have h1 := ih (apply db x) fun y hy => h y (List.mem_cons_of_mem _ hy)
    exact h1.trans (Alike.applyAll es (apply_comm (h x List.mem_cons_self)))

/-- What changes leave alone. -/
theorem applyAll_byID {es : List Effect} {id : Str} (db : Db) (h : ∀ e ∈ es, about e ≠ some id) :
    byID (applyAll db es).lists id = byID db.lists id := by
  induction es generalizing db with
  | nil => rfl
  | cons e es ih =>
    show byID (applyAll (apply db e) es).lists id = _
    rw [ih (apply db e) fun y hy => h y (List.mem_cons_of_mem _ hy)]
    have he := h e List.mem_cons_self
    cases e with
    | blob w => rfl
    | put l =>
      show byID (l :: db.lists.filter fun x => x.id != l.id) id = _
      rw [byID_put, if_neg]
      intro hid; exact he (by rw [hid]; rfl)
    | drop i =>
      show byID (db.lists.filter fun x => x.id != i) id = _
      apply byID_filter
      intro hid; exact he (by rw [hid]; rfl)
    | save => rfl

theorem applyAll_agree {es : List Effect} {n : Str} (db : Db) (h : ∀ e ∈ es, blobOf e ≠ some n) :
    Agree (applyAll db es).store db.store n := by
  induction es generalizing db with
  | nil => exact ⟨rfl, fun _ => rfl⟩
  | cons e es ih =>
    have h1 := ih (apply db e) fun y hy => h y (List.mem_cons_of_mem _ hy)
    have he := h e List.mem_cons_self
    have h2 : Agree (apply db e).store db.store n := by
      cases e with
      | blob w =>
        have hp : w.parent ≠ n := fun hp => he (by rw [← hp]; rfl)
        cases w <;> simp only [Write.parent] at hp <;> refine ⟨?_, ?_⟩ <;> simp only [apply, Disk.write] <;> grind
      | put l => exact ⟨rfl, fun _ => rfl⟩
      | drop i => exact ⟨rfl, fun _ => rfl⟩
      | save => exact ⟨rfl, fun _ => rfl⟩
    exact ⟨h1.1.trans h2.1, fun j => (h1.2 j).trans (h2.2 j)⟩

/-- Where the lists come from. -/
theorem applyAll_lists {es : List Effect} (db : Db) {l : Listing} (h : l ∈ (applyAll db es).lists) :
    l ∈ db.lists ∨ Effect.put l ∈ es := by
  induction es generalizing db with
  | nil => exact .inl h
  | cons e es ih =>
    rcases ih (apply db e) h with h | h
    · cases e with
      | blob w => exact .inl h
      | put a =>
        rcases List.mem_cons.1 h with h | h
        · exact .inr (by rw [h]; exact List.mem_cons_self)
        · exact .inl (List.mem_filter.1 h).1
      | drop i => exact .inl (List.mem_filter.1 h).1
      | save => exact .inl h
    · exact .inr (List.mem_cons_of_mem _ h)

theorem applyAll_ids {es : List Effect} (db : Db) (h : (db.lists.map (·.id)).Nodup) :
    ((applyAll db es).lists.map (·.id)).Nodup := by
  induction es generalizing db with
  | nil => exact h
  | cons e es ih =>
    apply ih
    have hf : ∀ x, ((db.lists.filter fun a => a.id != x).map (·.id)).Nodup := fun x =>
      List.Pairwise.sublist (List.filter_sublist.map _) h
    cases e with
    | blob w => exact h
    | put l =>
      show ((l :: db.lists.filter fun x => x.id != l.id).map (·.id)).Nodup
      rw [List.map_cons, List.nodup_cons]
      refine ⟨fun hm => ?_, hf _⟩
      obtain ⟨a, ha, hid⟩ := List.mem_map.1 hm
      have := (List.mem_filter.1 ha).2
      simp [hid] at this
    | drop i => exact hf _
    | save => exact h

/-- The names of the list that a request puts into the catalogue. -/
theorem handle_put {env : Env} {db : Db} {r : Request} {l : Listing} (h : Effect.put l ∈ (handle env db r).2) :
    ∀ n ∈ names l, n = env.scores ∨ n = env.index ∨ ∃ x ∈ db.lists, x.id = l.id ∧ n ∈ names x := by
  have hw : ∀ {id : Str} {f : Listing → ListState → Answer × List Effect}, Effect.put l ∈ (withList db id f).2 →
      ∃ a st, a ∈ db.lists ∧ a.id = id ∧ Effect.put l ∈ (f a st).2 := by
    intro id f h
    unfold withList at h
    cases hb : byID db.lists id with
    | none => rw [hb] at h; simp at h
    | some a =>
      rw [hb] at h
      dsimp only at h
      cases hr : Disk.reload db.store a.ent with
      | none => rw [hr] at h; simp at h
      | some st => rw [hr] at h; exact ⟨a, st, (byID_mem hb).1, (byID_mem hb).2, h⟩
  cases r with
  | create replace p =>
    have h : Effect.put l ∈ (create env db replace p).2 := h
    unfold create at h
    dsimp only at h
    split at h
    · simp at h
    · split at h
      · simp at h
      · split at h
        · simp at h
        · simp only [List.mem_append, List.mem_map, reduceCtorEq, and_false, exists_false, List.mem_singleton,
            Effect.put.injEq, false_or] at h
          subst h
          intro n hn
          simp only [names, listing, List.mem_cons, List.not_mem_nil, or_false] at hn
          rcases hn with hn | hn <;> simp [hn]
  | clone org p =>
    have h : Effect.put l ∈ (clone env db org p).2 := h
    unfold clone at h
    repeat' split at h
    all_goals first
      | (simp at h; done)
      | (simp only [List.mem_append, List.mem_map, reduceCtorEq, and_false, exists_false, List.mem_singleton,
            Effect.put.injEq, false_or] at h
         subst h
         intro n hn
         simp only [names, listing, List.mem_cons, List.not_mem_nil, or_false] at hn
         rcases hn with hn | hn <;> simp [hn])
  | delete id =>
    have h : Effect.put l ∈ (Server.delete env db id).2 := h
    unfold Server.delete at h
    split at h
    · simp at h
    · simp at h
  | save => simp [handle] at h
  | createElement id =>
    obtain ⟨a, st, -, -, h⟩ := hw h
    repeat' split at h
    all_goals simp at h
  | createElements id =>
    obtain ⟨a, st, -, -, h⟩ := hw h
    dsimp only at h
    repeat' split at h
    all_goals simp at h
  | putElements id =>
    obtain ⟨a, st, -, -, h⟩ := hw h
    simp at h
  | deleteElements id =>
    obtain ⟨a, st, -, -, h⟩ := hw h
    simp at h
  | split id =>
    obtain ⟨a, st, -, -, h⟩ := hw h
    simp at h
  | reindex id =>
    obtain ⟨a, st, ha, hid, h⟩ := hw h
    dsimp only at h
    split at h
    · simp at h
    · simp only [List.mem_append, List.mem_map, reduceCtorEq, and_false, exists_false, List.mem_singleton,
        Effect.put.injEq, false_or] at h
      subst h
      intro n hn
      simp only [names, List.mem_cons, List.not_mem_nil, or_false] at hn
      rcases hn with hn | hn
      · exact .inr (.inr ⟨a, ha, rfl, by simp [names, hn]⟩)
      · exact .inr (.inl hn)
  | repair id =>
    obtain ⟨a, st, ha, hid, h⟩ := hw h
    dsimp only at h
    split at h
    · simp at h
    · simp only [List.mem_append, List.mem_map, reduceCtorEq, and_false, exists_false, List.mem_singleton,
        Effect.put.injEq, false_or] at h
      subst h
      intro n hn
      simp only [names, List.mem_cons, List.not_mem_nil, or_false] at hn
      rcases hn with hn | hn
      · exact .inl hn
      · exact .inr (.inl hn)

/-! ### The pool -/

/-- `D` is the server after all requests that have arrived. -/
structure PoolOK (P : Pool) (D : Db) : Prop where
  good : Good D
  alike : Alike (applyAll P.db (P.running.flatMap (·.todo))) D
  ids : (P.db.lists.map (·.id)).Nodup
  own : ∀ R ∈ P.running, ∀ e ∈ R.todo, ∀ x, about e = some x → target R.req = some x ∧ Moves R.req x
  apart : P.running.Pairwise fun R S => ∀ e ∈ R.todo, ∀ f ∈ S.todo, Apart e f
  names : ∀ R ∈ P.running, ∀ e ∈ R.todo, ∀ n, blobOf e = some n → ∀ l ∈ D.lists, n ∈ names l → target R.req = some l.id

theorem byID_perm {a b : List Listing} (h : a.Perm b) (ha : (a.map (·.id)).Nodup) (id : Str) : byID a id = byID b id := by
  have hb : (b.map (·.id)).Nodup := (h.map _).nodup_iff.1 ha
  cases hc : byID b id with
  | none =>
    cases hd : byID a id with
    | none => rfl
    | some l =>
      obtain ⟨h1, h2⟩ := byID_mem hd
      exact absurd h2 (byID_none hc l (h.mem_iff.1 h1))
  | some l =>
    obtain ⟨h1, h2⟩ := byID_mem hc
    rw [← h2]
    exact byID_of_mem ha (h.mem_iff.2 h1)

/-- A list that nobody changes is as it is after all requests. -/
theorem PoolOK.free {P : Pool} {D : Db} (h : PoolOK P D) {id : Str} (hf : P.Free id) : SameFor P.db D id := by
  have hmem : ∀ e ∈ P.running.flatMap (·.todo), ∃ R ∈ P.running, e ∈ R.todo := fun e he => by
    obtain ⟨R, h1, h2⟩ := List.mem_flatMap.1 he
    exact ⟨R, h1, h2⟩
  have h1 : byID P.db.lists id = byID D.lists id := by
    rw [← byID_perm h.alike.lists (applyAll_ids _ h.ids), applyAll_byID]
    intro e he hab
    obtain ⟨R, hR, he⟩ := hmem e he
    exact hf R hR (h.own R hR e he id hab).1
  refine ⟨h1, fun l hl n hn => ?_⟩
  obtain ⟨l1, l2⟩ := byID_mem hl
  rw [← h.alike.store]
  have := applyAll_agree (es := P.running.flatMap (·.todo)) (n := n) P.db (by
    intro e he hb
    obtain ⟨R, hR, he⟩ := hmem e he
    exact hf R hR (l2 ▸ h.names R hR e he n hb l l1 hn))
  exact ⟨this.1.symm, fun j => (this.2 j).symm⟩

theorem meansTrace_snoc {L M N : Spec.Lists} {es : List Event} {rs : List Response} {e : Event} {r : Response}
    (h : MeansTrace L es rs M) (h' : MeansTrace M [e] [r] N) : MeansTrace L (es ++ [e]) (rs ++ [r]) N := by
  induction es generalizing L rs with
  | nil =>
    obtain ⟨rfl, rfl⟩ := h
    exact h'
  | cons x es ih =>
    cases x with
    | change env q =>
      obtain ⟨a, as, K, rfl, h1, h2⟩ := h
      exact ⟨a, _, K, rfl, h1, ih h2⟩
    | ask sch q =>
      obtain ⟨s, as, rfl, h1, h2⟩ := h
      exact ⟨s, _, rfl, h1, ih h2⟩

theorem pairwise_append_single {α} {R : α → α → Prop} {l : List α} {x : α} (h : l.Pairwise R) (hx : ∀ a ∈ l, R a x) :
    (l ++ [x]).Pairwise R := by
  rw [List.pairwise_append]
  exact ⟨h, List.pairwise_singleton _ _, fun a ha b hb => by rw [List.mem_singleton.1 hb]; exact hx a ha⟩

theorem target_uses {r : Request} {id : Str} (h : target r = some id) : id ∈ uses r := by
  cases r <;> simp_all [uses, target]

theorem pool_step {P Q : Pool} {o : Option (Event × Response)} {D : Db} (h : PoolOK P D) (hs : PoolStep P o Q) :
    ∃ D', PoolOK Q D' ∧ MeansTrace (look D) (o.toList.map (·.1)) (o.toList.map (·.2)) (look D') := by
  cases hs with
  | arrive env r hf ha hfree hread =>
    have hsame : ∀ id ∈ uses r, SameFor P.db { D with file := [] } id := fun id hid =>
      ⟨(h.free (hfree id hid)).entry, (h.free (hfree id hid)).blobs⟩
    have hg : Good { D with file := [] } := ⟨h.good.ids, h.good.own, h.good.names, h.good.readable, h.good.sizes⟩
    have hfits : Fits env { D with file := [] } := by
      refine ⟨hf.now, hf.differ, fun l hl => ?_, hf.reduce⟩
      rw [List.append_nil] at hl
      rcases applyAll_lists _ (h.alike.lists.mem_iff.2 hl) with h1 | h1
      · exact hf.fresh l h1
      · obtain ⟨R, hR, he⟩ := List.mem_flatMap.1 h1
        exact hf.pending R hR _ he
    have hal : Spec.Allowed { D with file := [] } r := allowed_congr hsame h.ids hg.ids ha
    obtain ⟨g1, g2⟩ := C70_request env _ r hg hfits hal
    have hh := handle_congr (env := env) hsame
    have hown := handle_own (r := r) hg hfits
    have hput : ∀ l, Effect.put l ∈ (handle env { D with file := [] } r).2 → _ := fun l => handle_put
    rw [hh]
    refine ⟨(serve env { D with file := [] } r).2, ⟨g1, ?_, h.ids, ?_, ?_, ?_⟩, ?_⟩
    · dsimp only
      rw [List.flatMap_append, applyAll_append, List.flatMap_singleton]
      exact Alike.applyAll _ ⟨h.alike.store, h.alike.lists⟩
    · intro R hR e he x hx
      rcases List.mem_append.1 hR with hR | hR
      · exact h.own R hR e he x hx
      · rw [List.mem_singleton.1 hR] at he ⊢
        have := hown e he
        cases e with
        | blob w => cases hx
        | put l => cases hx; exact this.symm
        | drop i => cases hx; exact this.symm
        | save => cases hx
    · refine pairwise_append_single h.apart fun R hR e he f hf' => ⟨fun x hx hx' => ?_, fun n hn hn' => ?_⟩
      · have h1 := (h.own R hR e he x hx).1
        have h2 : target r = some x := by
          have := hown f hf'
          cases f with
          | blob w => cases hx'
          | put l => cases hx'; exact this.2
          | drop i => cases hx'; exact this.2
          | save => cases hx'
        exact hfree x (target_uses h2) R hR h1
      · have hfr := hf.pending R hR e he
        have hne : n ∈ effectNames e := by
          cases e with
          | blob w => cases hn; simp [effectNames]
          | put l => cases hn
          | drop i => cases hn
          | save => cases hn
        have := hown f hf'
        cases f with
        | blob w =>
          cases hn'
          rcases this with h1 | h1 | ⟨x, hx, hxt, hxn⟩
          · exact hfr.1 (h1 ▸ hne)
          · exact hfr.2 (h1 ▸ hne)
          · exact hfree x.id (target_uses hxt) R hR (h.names R hR e he _ hn x hx hxn)
        | put l => cases hn'
        | drop i => cases hn'
        | save => cases hn'
    · intro R hR e he n hn l hl hnl
      have hne : n ∈ effectNames e := by
        cases e with
        | blob w => cases hn; simp [effectNames]
        | put l => cases hn
        | drop i => cases hn
        | save => cases hn
      rcases List.mem_append.1 hR with hR | hR
      · rcases applyAll_lists _ hl with h1 | h1
        · exact h.names R hR e he n hn l h1 hnl
        · have hfr := hf.pending R hR e he
          rcases hput l h1 n hnl with h2 | h2 | ⟨x, hx, hxi, hxn⟩
          · exact absurd (h2 ▸ hne) hfr.1
          · exact absurd (h2 ▸ hne) hfr.2
          · rw [← hxi]; exact h.names R hR e he n hn x hx hxn
      · rw [List.mem_singleton.1 hR] at he ⊢
        rcases applyAll_lists _ hl with h1 | h1
        · have := hown e he
          cases e with
          | blob w =>
            cases hn
            have hfr := hfits.fresh l (List.mem_append_left _ h1)
            rcases this with h2 | h2 | ⟨x, hx, hxt, hxn⟩
            · exact absurd (h2 ▸ hnl) hfr.1
            · exact absurd (h2 ▸ hnl) hfr.2
            · rw [← hg.names x hx l h1 _ hxn hnl]; exact hxt
          | put l => cases hn
          | drop i => cases hn
          | save => cases hn
        · exact (hown _ h1).2
    · exact ⟨_, _, _, rfl, g2, rfl, rfl⟩
  | @effect db a b env r e todo =>
    have hall : (a ++ ⟨env, r, e :: todo⟩ :: b).flatMap (·.todo) =
        (a.flatMap (·.todo) ++ [e]) ++ (todo ++ b.flatMap (·.todo)) := by simp
    have hmem : ∀ R ∈ a ++ ⟨env, r, todo⟩ :: b, ∃ R' ∈ a ++ ⟨env, r, e :: todo⟩ :: b, R'.req = R.req ∧ ∀ x ∈ R.todo, x ∈ R'.todo := by
      intro R hR
      rcases List.mem_append.1 hR with hR | hR
      · exact ⟨R, List.mem_append_left _ hR, rfl, fun _ h => h⟩
      · rcases List.mem_cons.1 hR with rfl | hR
        · exact ⟨_, List.mem_append_right _ List.mem_cons_self, rfl, fun _ h => List.mem_cons_of_mem _ h⟩
        · exact ⟨R, List.mem_append_right _ (List.mem_cons_of_mem _ hR), rfl, fun _ h => h⟩
    refine ⟨D, ⟨h.good, ?_, ?_, ?_, ?_, ?_⟩, rfl, rfl⟩
    · have h1 := h.alike
      dsimp only at h1 ⊢
      rw [hall, applyAll_append] at h1
      have : (a ++ ⟨env, r, todo⟩ :: b).flatMap (·.todo) = a.flatMap (·.todo) ++ (todo ++ b.flatMap (·.todo)) := by simp
      rw [this, applyAll_append]
      refine Alike.trans (Alike.applyAll _ ?_) h1
      refine (apply_first db fun x hx => ?_).symm
      obtain ⟨R, hR, hx⟩ := List.mem_flatMap.1 hx
      exact (List.pairwise_append.1 h.apart).2.2 R hR _ List.mem_cons_self x hx e List.mem_cons_self
    · exact applyAll_ids (es := [e]) db h.ids
    · intro R hR x hx y hy
      obtain ⟨R', h1, h2, h3⟩ := hmem R hR
      rw [← h2]
      exact h.own R' h1 x (h3 x hx) y hy
    · have h1 := h.apart
      dsimp only at h1 ⊢
      rw [List.pairwise_append, List.pairwise_cons] at h1 ⊢
      obtain ⟨p1, ⟨p2, p3⟩, p4⟩ := h1
      refine ⟨p1, ⟨fun S hS x hx f hf => p2 S hS x (List.mem_cons_of_mem _ hx) f hf, p3⟩, fun R hR S hS x hx f hf => ?_⟩
      rcases List.mem_cons.1 hS with rfl | hS
      · exact p4 R hR _ List.mem_cons_self x hx f (List.mem_cons_of_mem _ hf)
      · exact p4 R hR S (List.mem_cons_of_mem _ hS) x hx f hf
    · intro R hR x hx n hn l hl hnl
      obtain ⟨R', h1, h2, h3⟩ := hmem R hR
      rw [← h2]
      exact h.names R' h1 x (h3 x hx) n hn l hl hnl
  | @finish db a b env r =>
    have hsub : (a ++ b).Sublist (a ++ ⟨env, r, []⟩ :: b) := (List.Sublist.refl a).append (List.sublist_cons_self _ _)
    refine ⟨D, ⟨h.good, ?_, h.ids, fun R hR => h.own R (hsub.subset hR), List.Pairwise.sublist hsub h.apart,
      fun R hR => h.names R (hsub.subset hR)⟩, rfl, rfl⟩
    have h1 := h.alike
    simpa using h1
  | ask sch q ha hq hfree =>
    refine ⟨D, h, _, _, rfl, ?_, rfl, rfl⟩
    rw [ask_congr hq (h.free hfree)]
    exact C75_answers_partial sch D q h.good ha

theorem pool_start {db : Db} (h : Good db) : PoolOK ⟨db, []⟩ db :=
  ⟨h, Alike.refl _, h.ids, by simp, .nil, by simp⟩

theorem pool_run {P Q : Pool} {D : Db} {es : List (Event × Response)} (h : PoolOK P D) (hr : PoolRun P es Q) :
    ∃ D', PoolOK Q D' ∧ MeansTrace (look D) (es.map (·.1)) (es.map (·.2)) (look D') := by
  induction hr with
  | refl => exact ⟨D, h, rfl, rfl⟩
  | @step es Q R o _ hs ih =>
    obtain ⟨D', h1, h2⟩ := ih
    obtain ⟨D'', h3, h4⟩ := pool_step h1 hs
    refine ⟨D'', h3, ?_⟩
    cases o with
    | none =>
      obtain ⟨-, h5⟩ := h4
      rw [h5]
      simpa using h2
    | some x =>
      rw [List.map_append, List.map_append]
      exact meansTrace_snoc h2 h4

end RankDB.Server

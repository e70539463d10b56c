import Verif.Props.Server
/-
C71: what a server shows after it was stopped and started again.
-/
namespace RankDB.Props
open Spec Server Disk

/-- The requests that change the entry of a list in the catalogue. -/
def Moves (r : Request) (id : Str) : Prop :=
  match r with
  | .create _ p | .clone _ p => p.id = id
  | .delete i | .reindex i | .repair i => i = id
  | _ => False

instance (r : Request) (id : Str) : Decidable (Moves r id) := by
  cases r <;> unfold Moves <;> infer_instance

/-! ### The effects of a request -/

/-- An effect of a request about the list `t`. -/
def OwnEffect (env : Env) (db : Db) (r : Request) : Effect → Prop
  | .blob w => w.parent = env.scores ∨ w.parent = env.index ∨ ∃ x ∈ db.lists, target r = some x.id ∧ w.parent ∈ names x
  | .put l => Moves r l.id ∧ target r = some l.id
  | .drop id => Moves r id ∧ target r = some id
  | .save => r = .save

theorem own_withList {env : Env} {db : Db} {r : Request} {id : Str} {f : Listing → ListState → Answer × List Effect}
    (h : ∀ l st, l ∈ db.lists → l.id = id → reload db.store l.ent = some st → ∀ e ∈ (f l st).2, OwnEffect env db r e) :
    ∀ e ∈ (withList db id f).2, OwnEffect env db r e := by
  unfold withList
  cases hb : byID db.lists id with
  | none => simp
  | some l =>
    obtain ⟨h1, h2⟩ := byID_mem hb
    dsimp only
    cases hr : reload db.store l.ent with
    | none => simp
    | some st => exact h l st h1 h2 hr

theorem own_blobs {env : Env} {db : Db} {r : Request} {l : Listing} {ws : List Write} (hl : l ∈ db.lists)
    (ht : target r = some l.id) (hw : ∀ w ∈ ws, w.parent = l.ent.scores ∨ w.parent = l.ent.index) :
    ∀ e ∈ ws.map Effect.blob, OwnEffect env db r e := by
  intro e he
  obtain ⟨w, hwm, rfl⟩ := List.mem_map.1 he
  refine .inr (.inr ⟨l, hl, ht, ?_⟩)
  unfold names
  rcases hw w hwm with h1 | h1 <;> simp [h1]

theorem handle_own {env : Env} {db : Db} {r : Request} (h : Good db) (hf : Fits env db) :
    ∀ e ∈ (handle env db r).2, OwnEffect env db r e := by
  cases r with
  | create replace p =>
    show ∀ e ∈ (create env db replace p).2, _
    unfold create
    dsimp only
    split
    · simp
    · split
      · simp
      · split
        · simp
        · intro e he
          dsimp only at he
          rcases List.mem_append.1 he with he | he
          · obtain ⟨w, hw, rfl⟩ := List.mem_map.1 he
            rcases List.mem_append.1 hw with hw | hw
            · rcases parent_populateNew w hw with h1 | h1
              · exact .inl h1
              · exact .inr (.inl h1)
            · cases hb : byID db.lists p.id with
              | none => rw [hb] at hw; simp at hw
              | some o =>
                rw [hb] at hw
                obtain ⟨h1, h2⟩ := byID_mem hb
                refine .inr (.inr ⟨o, h1, by rw [h2]; rfl, ?_⟩)
                unfold names
                rcases parent_deleteAll w hw with h3 | h3 <;> simp [h3]
          · simp only [List.mem_singleton] at he
            subst he
            exact ⟨rfl, rfl⟩
  | clone org p =>
    show ∀ e ∈ (clone env db org p).2, _
    unfold clone
    split
    · simp
    · split
      · simp
      · split
        · simp
        · split
          · simp
          · split
            · simp
            · split
              · simp
              · intro e he
                dsimp only at he
                rcases List.mem_append.1 he with he | he
                · obtain ⟨w, hw, rfl⟩ := List.mem_map.1 he
                  rcases parent_cloneWrites w hw with h1 | h1
                  · exact .inl h1
                  · exact .inr (.inl h1)
                · simp only [List.mem_singleton] at he
                  subst he
                  exact ⟨rfl, rfl⟩
  | delete id =>
    show ∀ e ∈ (Server.delete env db id).2, _
    unfold Server.delete
    cases hb : byID db.lists id with
    | none => simp
    | some l =>
      obtain ⟨h1, h2⟩ := byID_mem hb
      intro e he
      rcases List.mem_cons.1 he with he | he
      · subst he; exact ⟨rfl, rfl⟩
      · exact own_blobs (r := .delete id) h1 (by rw [h2]; rfl) parent_deleteAll e he
  | createElement id x =>
    apply own_withList
    intro l st hl hid hr
    split
    · simp
    · split
      · simp
      · exact own_blobs (r := .createElement id x) hl (by rw [hid]; rfl) parent_insert
  | createElements id es =>
    apply own_withList
    intro l st hl hid hr
    dsimp only
    split
    · simp
    · split
      · simp
      · exact own_blobs (r := .createElements id es) hl (by rw [hid]; rfl) parent_insert
  | putElements id es =>
    apply own_withList
    intro l st hl hid hr
    exact own_blobs (r := .putElements id es) hl (by rw [hid]; rfl) parent_updateElements
  | deleteElements id ids =>
    apply own_withList
    intro l st hl hid hr
    exact own_blobs (r := .deleteElements id ids) hl (by rw [hid]; rfl) parent_deleteElements
  | reindex id =>
    apply own_withList
    intro l st hl hid hr
    dsimp only
    split
    · simp
    · intro e he
      dsimp only at he
      rcases List.mem_append.1 he with he | he
      · obtain ⟨w, hw, rfl⟩ := List.mem_map.1 he
        rcases parent_reindex (by rfl) w hw with h1 | h1 | h1
        · exact .inr (.inr ⟨l, hl, by rw [hid]; rfl, by simp [names, h1]⟩)
        · exact .inr (.inr ⟨l, hl, by rw [hid]; rfl, by simp [names, h1]⟩)
        · exact .inr (.inl h1)
      · simp only [List.mem_singleton] at he
        subst he
        exact ⟨hid.symm, by rw [← hid]; rfl⟩
  | repair id =>
    apply own_withList
    intro l st hl hid hr
    dsimp only
    split
    · simp
    · intro e he
      dsimp only at he
      rcases List.mem_append.1 he with he | he
      · obtain ⟨w, hw, rfl⟩ := List.mem_map.1 he
        rcases parent_populate w hw with (h1 | h1) | (h1 | h1)
        · exact .inr (.inr ⟨l, hl, by rw [hid]; rfl, by simp [names, h1]⟩)
        · exact .inr (.inr ⟨l, hl, by rw [hid]; rfl, by simp [names, h1]⟩)
        · exact .inl h1
        · exact .inr (.inl h1)
      · simp only [List.mem_singleton] at he
        subst he
        exact ⟨hid.symm, by rw [← hid]; rfl⟩
  | split id merge =>
    apply own_withList
    intro l st hl hid hr
    obtain ⟨st', h1, h2⟩ := h.readable l hl
    rw [hr] at h1
    cases h1
    exact own_blobs (r := .split id merge) hl (by rw [hid]; rfl) (parent_split (h.own l hl) hr h2 hf.now.2)
  | save =>
    intro e he
    have : e = .save := by simpa [handle] using he
    subst this
    exact rfl

/-- Effects leave the entry of a list alone that the request does not move, in memory and in the file, unless the
file is saved. -/
theorem applyAll_entry {env : Env} {d0 : Db} {r : Request} {id : Str} (es : List Effect) (db : Db)
    (hm : ¬ Moves r id) (h : ∀ e ∈ es, OwnEffect env d0 r e) :
    byID (applyAll db es).lists id = byID db.lists id ∧
    (byID db.file id = byID db.lists id → byID (applyAll db es).file id = byID db.lists id) := by
  induction es generalizing db with
  | nil => exact ⟨rfl, fun h => h⟩
  | cons e es ih =>
    obtain ⟨i1, i2⟩ := ih (apply db e) (fun x hx => h x (List.mem_cons_of_mem _ hx))
    have he := h e List.mem_cons_self
    have h1 : byID (apply db e).lists id = byID db.lists id := by
      cases e with
      | blob w => rfl
      | put l =>
        show byID (l :: db.lists.filter fun x => x.id != l.id) id = _
        rw [byID_put, if_neg]
        intro hid; rw [hid] at hm; exact hm he.1
      | drop i =>
        show byID (db.lists.filter fun x => x.id != i) id = _
        apply byID_filter
        intro hid; rw [hid] at hm; exact hm he.1
      | save => rfl
    refine ⟨i1.trans h1, fun hfile => ?_⟩
    show byID (applyAll (apply db e) es).file id = _
    rw [i2 ?_, h1]
    rw [h1]
    cases e with
    | blob w => exact hfile
    | put l => exact hfile
    | drop i => exact hfile
    | save => rfl

/-- Effects leave the content of the other lists alone. -/
theorem applyAll_content {env : Env} {d0 : Db} {r : Request} {l : Listing} (h0 : Good d0) (hf : Fits env d0) (hl : l ∈ d0.lists)
    (ht : target r ≠ some l.id) (es : List Effect) (db : Db) (h : ∀ e ∈ es, OwnEffect env d0 r e) :
    reload (applyAll db es).store l.ent = reload db.store l.ent := by
  induction es generalizing db with
  | nil => rfl
  | cons e es ih =>
    show reload (applyAll (apply db e) es).store l.ent = _
    rw [ih (apply db e) (fun x hx => h x (List.mem_cons_of_mem _ hx))]
    have he := h e List.mem_cons_self
    cases e with
    | blob w =>
      show reload (writes db.store [w]) l.ent = _
      apply reload_other
      intro w' hw'
      rw [List.mem_singleton.1 hw']
      have hno : w.parent ∉ names l := by
        intro hp
        have hfr := hf.fresh l (List.mem_append_left _ hl)
        rcases he with h1 | h1 | ⟨x, hx, hxt, hxn⟩
        · exact hfr.1 (h1 ▸ hp)
        · exact hfr.2 (h1 ▸ hp)
        · exact ht (by rw [hxt, h0.names x hx l hl _ hxn hp])
      simp only [names, List.mem_cons, List.not_mem_nil, or_false, not_or] at hno
      exact hno
    | put l => rfl
    | drop i => rfl
    | save => rfl

/-! ### What is kept -/

/-- After the catalogue was saved a restart changes nothing. This is how the server is shut down in an orderly
way. -/
theorem C71_saved (env : Env) (db : Db) (h : Good db) :
    look (restart (serve env db .save).2) = look db ∧ Good (restart (serve env db .save).2) :=
  ⟨rfl, ⟨h.ids, h.own, h.names, h.readable, h.sizes⟩⟩

theorem kept_history (rs : List (Env × Request)) (db : Db) (id : Str) (h : Good db) (hr : Ready db rs)
    (hk : byID db.file id = byID db.lists id) (hm : ∀ x ∈ rs, ¬ Moves x.2 id) :
    byID (serveAll db rs).2.file id = byID (serveAll db rs).2.lists id := by
  induction rs generalizing db with
  | nil => exact hk
  | cons x rs ih =>
    obtain ⟨env, r⟩ := x
    obtain ⟨h1, h2, h3⟩ := hr
    have hnm := hm _ List.mem_cons_self
    obtain ⟨e1, e2⟩ := applyAll_entry (handle env db r).2 db hnm (handle_own h h1)
    exact ih (serve env db r).2 (C70_request env db r h h1 h2).1 h3 ((e2 hk).trans e1.symm)
      (fun x hx => hm x (List.mem_cons_of_mem _ hx))

theorem serveAll_append (a b : List (Env × Request)) (db : Db) :
    (serveAll db (a ++ b)).2 = (serveAll (serveAll db a).2 b).2 := by
  induction a generalizing db with
  | nil => rfl
  | cons x a ih => exact ih _

theorem ready_append {a b : List (Env × Request)} {db : Db} (h : Ready db (a ++ b)) :
    Ready db a ∧ Ready (serveAll db a).2 b := by
  induction a generalizing db with
  | nil => exact ⟨trivial, h⟩
  | cons x a ih =>
    obtain ⟨h1, h2, h3⟩ := h
    obtain ⟨i1, i2⟩ := ih h3
    exact ⟨⟨h1, h2, i1⟩, i2⟩

/-- The server stops between two requests, at any point of any history. Every list that was not created, cloned to,
replaced, deleted, reindexed or repaired since the catalogue was last saved has exactly the content of the moment,
with everything that was acknowledged. Missing: the other lists, see the theorems below. -/
theorem C71_stopped_partial (db : Db) (before after : List (Env × Request)) (env : Env) (id : Str) (h : Good db)
    (hr : Ready db (before ++ (env, .save) :: after)) (hm : ∀ x ∈ after, ¬ Moves x.2 id) :
    look (restart (serveAll db (before ++ (env, .save) :: after)).2) id =
      look (serveAll db (before ++ (env, .save) :: after)).2 id := by
  have hk : byID (serveAll db (before ++ (env, .save) :: after)).2.file id =
      byID (serveAll db (before ++ (env, .save) :: after)).2.lists id := by
    rw [serveAll_append]
    obtain ⟨r1, r2, r3, r4⟩ := ready_append hr
    have g1 := (C70_history db before h r1).1
    have g2 := (C70_request env _ .save g1 r2 r3).1
    exact kept_history after _ id g2 r4 rfl hm
  unfold look
  show ((byID (serveAll db (before ++ (env, .save) :: after)).2.file id).bind _) = _
  rw [hk]
  rfl

/-- The server crashes at any point within a request. The lists that were not moved since the catalogue was saved
and that the request is not about have exactly the content they had. Missing: the list that the request is about,
see C51, C52 and C68. -/
theorem C71_crashed_partial (db : Db) (before after : List (Env × Request)) (env env' : Env) (r : Request) (k : Nat) (id : Str)
    (h : Good db) (hr : Ready db (before ++ (env, .save) :: after)) (hm : ∀ x ∈ after, ¬ Moves x.2 id)
    (hf : Fits env' (serveAll db (before ++ (env, .save) :: after)).2) (ht : target r ≠ some id) :
    look (crashed k env' (serveAll db (before ++ (env, .save) :: after)).2 r) id =
      look (serveAll db (before ++ (env, .save) :: after)).2 id := by
  have hk : byID (serveAll db (before ++ (env, .save) :: after)).2.file id =
      byID (serveAll db (before ++ (env, .save) :: after)).2.lists id := by
    rw [serveAll_append]
    obtain ⟨r1, r2, r3, r4⟩ := ready_append hr
    have g1 := (C70_history db before h r1).1
    have g2 := (C70_request env _ .save g1 r2 r3).1
    exact kept_history after _ id g2 r4 rfl hm
  have hg := (C70_history db _ h hr).1
  generalize (serveAll db (before ++ (env, .save) :: after)).2 = db' at *
  have hown : ∀ e ∈ (handle env' db' r).2.take k, OwnEffect env' db' r e :=
    fun e he => handle_own hg hf e (List.mem_of_mem_take he)
  have hnm : ¬ Moves r id := by
    intro hx
    apply ht
    cases r <;> simp only [Moves] at hx <;> first | exact hx.elim | (subst hx; rfl)
  obtain ⟨e1, e2⟩ := applyAll_entry _ db' hnm hown
  unfold look
  show ((byID (applyAll db' ((handle env' db' r).2.take k)).file id).bind fun l =>
    (reload (applyAll db' ((handle env' db' r).2.take k)).store l.ent).map _) = _
  rw [e2 hk]
  cases hb : byID db'.lists id with
  | none => rfl
  | some l =>
    obtain ⟨h1, h2⟩ := byID_mem hb
    simp only [Option.bind_some]
    rw [applyAll_content hg hf h1 (by rw [h2]; exact ht) _ _ hown]

/-- The example history: list 66 is not moved after the save until it is reindexed. -/
example : ∃ before after env, exHistory.take 9 = before ++ (env, .save) :: after ∧ after.length = 2 ∧
    (∀ x ∈ after, ¬ Moves x.2 [66]) ∧ Ready exDb (before ++ (env, .save) :: after) ∧
    (look (serveAll exDb (before ++ (env, .save) :: after)).2 [66]).isSome :=
  ⟨exHistory.take 6, (exHistory.drop 7).take 2, exEnvAt 7, rfl, rfl, by decide,
    (ready_append (a := exHistory.take 9) (b := exHistory.drop 9) exHistory_ready).1, by decide +kernel⟩

/-! ### What is not kept -/

theorem deleteAll_gone {sch : Sched} {d : Store} {ent : Entry} {st : ListState} (h : reload d ent = some st) :
    reload (writes d (deleteAll sch d ent)) ent = none := by
  have hh : ∃ s i, d.heads ent.scores = some s ∧ d.heads ent.index = some i := by
    unfold reload at h
    split at h
    · rename_i s i h1 h2
      unfold loadSegs at h1 h2
      cases hs : d.heads ent.scores with
      | none => rw [hs] at h1; simp at h1
      | some s0 =>
        cases hi : d.heads ent.index with
        | none => rw [hi] at h2; simp at h2
        | some i0 => exact ⟨s0, i0, rfl, rfl⟩
    · simp at h
  obtain ⟨s, i, h1, h2⟩ := hh
  unfold deleteAll
  rw [h1, h2]
  dsimp only
  rw [writes_append]
  unfold reload
  have : loadSegs (writes (writes d (deleteSegs sch ent.scores s.segs)) (deleteSegs sch ent.index i.segs)) ent.index = none := by
    unfold loadSegs
    rw [deleteSegs_gone]
  rw [this]
  cases loadSegs _ ent.scores <;> rfl

/-- A list that was in the saved catalogue and is deleted comes back when the server is stopped before the
catalogue is saved: its ID is in use, and its content cannot be read. This is so for every list. -/
theorem C71_deleted_returns (env env' : Env) (db : Db) (id : Str) (s : Seen) (p : Payload) (h : Good db) (hs : look db id = some s)
    (hfile : db.file = db.lists) (hp : p.id = id) :
    (serve env db (.delete id)).1 = .ok ∧
    look (restart (serve env db (.delete id)).2) id = none ∧
    (serve env' (restart (serve env db (.delete id)).2) (.create false p)).1 = .conflict ∧
    (serve env' (restart (serve env db (.delete id)).2) (.deleteElements id [])).1 = .failed := by
  rcases Server.Good.look h (id := id) with ⟨l, st, l1, l2, l3, l4, -, -⟩ | ⟨-, h2⟩
  · have hsv : serve env db (.delete id) = (.ok, { db with
        store := writes db.store (deleteAll env.sch db.store l.ent)
        lists := db.lists.filter fun x => x.id != id }) := by
      unfold serve
      show ((Server.delete env db id).1, applyAll db (Server.delete env db id).2) = _
      unfold Server.delete
      rw [l3]
      dsimp only
      show (Answer.ok, applyAll (apply db (.drop id)) _) = _
      rw [applyAll_blobs]
      rfl
    rw [hsv]
    have hb : byID (restart { db with
        store := writes db.store (deleteAll env.sch db.store l.ent)
        lists := db.lists.filter fun x => x.id != id }).lists id = some l := by
      show byID db.file id = _
      rw [hfile, l3]
    have hgone := deleteAll_gone (sch := env.sch) l4
    refine ⟨rfl, ?_, ?_, ?_⟩
    · unfold look
      dsimp only
      rw [hb]
      simp only [Option.bind_some]
      show (reload (writes db.store (deleteAll env.sch db.store l.ent)) l.ent).map _ = _
      rw [hgone]
      rfl
    · show (create _ _ _ _).1 = _
      unfold create
      dsimp only
      rw [hp, hb]
      rfl
    · show (withList _ _ _).1 = _
      unfold withList
      dsimp only
      rw [hb]
      dsimp only
      show (match reload (writes db.store (deleteAll env.sch db.store l.ent)) l.ent with
        | none => (Answer.failed, [])
        | some st => _).1 = _
      rw [hgone]
  · rw [h2] at hs; simp at hs

/-- A repaired list is lost with all elements when the server is stopped before the catalogue is saved. This is so
for every list. -/
theorem C71_repaired_lost (env : Env) (db : Db) (id : Str) (s : Seen) (h : Good db) (hf : Fits env db)
    (ha : Spec.Allowed db (.repair id)) (hs : look db id = some s) (hfile : db.file = db.lists) :
    (serve env db (.repair id)).1 = .ok ∧ look (serve env db (.repair id)).2 id = some s ∧
    look (restart (serve env db (.repair id)).2) id = none := by
  have hm := (C70_request env db _ h hf ha).2
  simp only [Means] at hm
  rw [hs] at hm
  refine ⟨by simpa using hm.1, by rw [hm.2, hs], ?_⟩
  have hok : (serve env db (.repair id)).1 = .ok := by simpa using hm.1
  rcases Server.Good.look h (id := id) with ⟨l, st, l1, l2, l3, l4, -, -⟩ | ⟨-, h2⟩
  · have hfr := hf.fresh l (List.mem_append_left _ l1)
    unfold serve at hok ⊢
    have hh : handle env db (.repair id) = (.ok, (repairWrites env.now env.sch env.shuffle env.reduce l.ent
          { l.ent with scores := env.scores, index := env.index } st).map .blob ++
        [.put { l with ent := { l.ent with scores := env.scores, index := env.index } }]) := by
      have hun : handle env db (.repair id) = (match Lists.repair env.now env.sch env.shuffle env.reduce (fun _ => false) st with
          | none => (Answer.stuck, [])
          | some _ => (.ok, (repairWrites env.now env.sch env.shuffle env.reduce l.ent
              { l.ent with scores := env.scores, index := env.index } st).map .blob ++
            [.put { l with ent := { l.ent with scores := env.scores, index := env.index } }])) := by
        show withList db id _ = _
        unfold withList
        rw [l3]
        dsimp only
        rw [l4]
        rfl
      rw [hun] at hok ⊢
      split at hok
      · simp at hok
      · rfl
    rw [hh]
    dsimp only
    rw [applyAll_append, applyAll_blobs]
    have hb : byID db.file id = some l := by rw [hfile, l3]
    unfold look
    show ((byID db.file id).bind fun x => (reload (writes db.store (repairWrites env.now env.sch env.shuffle env.reduce l.ent
          { l.ent with scores := env.scores, index := env.index } st)) x.ent).map _) = none
    rw [hb]
    simp only [Option.bind_some]
    have : reload (writes db.store (repairWrites env.now env.sch env.shuffle env.reduce l.ent
          { l.ent with scores := env.scores, index := env.index } st)) l.ent = none := by
      unfold repairWrites Disk.populate
      rw [writes_append, writes_append]
      have hgone : loadSegs (writes (writes (writes db.store (deleteSegs env.sch l.ent.scores st.scores.segs))
          (deleteSegs env.sch l.ent.index st.index.segs)) (populateNew env.now env.sch env.shuffle env.reduce
            { l.ent with scores := env.scores, index := env.index }
            (Elements.deduplicate (st.scores.segs.flatMap fun s => (Elements.deduplicate s.elems).1)).1)) l.ent.index = none := by
        rw [loadSegs_other]
        · unfold loadSegs
          rw [deleteSegs_gone]
        · intro w hw he
          rcases parent_populateNew w hw with h1 | h1
          · exact hfr.1 (by rw [show env.scores = _ from h1.symm.trans he]; simp [names])
          · exact hfr.2 (by rw [show env.index = _ from h1.symm.trans he]; simp [names])
      unfold reload
      rw [hgone]
      cases loadSegs _ l.ent.scores <;> rfl
    rw [this]
    rfl
  · rw [h2] at hs; simp at hs

/-- A list that is created is gone when the server is stopped before the catalogue is saved; if it replaced a list
that was saved, both are lost. This is so for all lists. -/
theorem C71_created_lost (env : Env) (db : Db) (p : Payload) (h : Good db) (hf : Fits env db)
    (ha : Spec.Allowed db (.create true p)) (hsize : p.mergeSize < p.splitSize) (hset : p.set ≠ [])
    (hfile : db.file = db.lists) :
    (serve env db (.create true p)).1 = .ok ∧ (look (serve env db (.create true p)).2 p.id).isSome ∧
    look (restart (serve env db (.create true p)).2) p.id = none := by
  obtain ⟨hok, ⟨es, -, hes⟩, -⟩ := C69_create env db true p h hf ha (.inr rfl) hsize hset
  refine ⟨hok, by rw [hes]; rfl, ?_⟩
  have hh : ∃ ws, (∀ w ∈ ws, w.parent = env.scores ∨ w.parent = env.index) ∧
      handle env db (.create true p) = (.ok, (ws ++ (match byID db.lists p.id with
        | none => []
        | some o => deleteAll env.sch (writes db.store ws) o.ent)).map .blob ++ [.put (listing env p)]) := by
    have hok' : (create env db true p).1 = .ok := hok
    unfold create at hok'
    refine ⟨populateNew env.now env.sch env.shuffle env.reduce (listing env p).ent (initial env p), parent_populateNew, ?_⟩
    show create env db true p = _
    unfold create
    simp only [Bool.not_true, Bool.and_false, Bool.false_eq_true, if_false] at hok' ⊢
    split at hok'
    · simp at hok'
    · rename_i hacc
      rw [if_neg hacc]
      split at hok'
      · simp at hok'
      · rfl
  obtain ⟨ws, hws, hh⟩ := hh
  unfold serve
  rw [hh]
  dsimp only
  rw [applyAll_append, applyAll_blobs]
  unfold look
  show ((byID db.file p.id).bind fun x => (reload (writes db.store (ws ++ (match byID db.lists p.id with
        | none => []
        | some o => deleteAll env.sch (writes db.store ws) o.ent))) x.ent).map _) = none
  rw [hfile]
  rcases Server.Good.look h (id := p.id) with ⟨l, st, l1, l2, l3, l4, -, -⟩ | ⟨h1, -⟩
  · rw [l3]
    simp only [Option.bind_some]
    rw [writes_append]
    have hfr := hf.fresh l (List.mem_append_left _ l1)
    have hsame : reload (writes db.store ws) l.ent = some st := by
      rw [reload_other, l4]
      intro w hw
      constructor
      · intro he
        rcases hws w hw with h1 | h1
        · exact hfr.1 (by rw [← h1, he]; simp [names])
        · exact hfr.2 (by rw [← h1, he]; simp [names])
      · intro he
        rcases hws w hw with h1 | h1
        · exact hfr.1 (by rw [← h1, he]; simp [names])
        · exact hfr.2 (by rw [← h1, he]; simp [names])
    rw [deleteAll_gone hsame]
    rfl
  · rw [h1]; rfl

example : Good exDb ∧ Fits exEnv exDb ∧ Spec.Allowed exDb (.repair [65]) ∧ (look exDb [65]).isSome ∧ exDb.file = exDb.lists ∧
    Spec.Allowed exDb (.create true { exPayload with id := [65] }) :=
  ⟨exDb_good, exEnv_fits, by
    intro l hl _ st hst
    simp only [exDb, List.mem_singleton] at hl
    subst hl
    have : st = exList := by
      have := exStore_reload
      simp only [exListing] at hst
      rw [show exDb.store = exStore from rfl, this] at hst
      exact (Option.some.inj hst).symm
    rw [this]
    decide +kernel, by decide +kernel, rfl, by unfold Spec.Allowed; decide +kernel⟩

end RankDB.Props

import Verif.Model.Memory
import Verif.Props.Restart
import Verif.Props.Answers
import Verif.Proofs.Pool
/-
C87: taking lists out of memory, second part: nobody notices.
-/
namespace RankDB.Props
open RankDB.Spec RankDB.Server RankDB.Disk

/-- The tables in memory are those in the storage. -/
def Synced (L : Live) : Prop :=
  ∀ l t, byID L.db.lists l.id = some l → L.mem l.id = some t →
    (L.db.store.heads l.ent.scores).map head = some t.1 ∧ (L.db.store.heads l.ent.index).map head = some t.2

theorem head_head (s : Segs) : head (head s) = head s := by simp [head, List.map_map, Function.comp_def]

theorem synced_head {L : Live} (hs : Synced L) {l : Listing} {t : Tables} (hl : byID L.db.lists l.id = some l)
    (ht : L.mem l.id = some t) : head t.1 = t.1 ∧ head t.2 = t.2 := by
  obtain ⟨h1, h2⟩ := hs l t hl ht
  constructor
  · cases hh : L.db.store.heads l.ent.scores with
    | none => rw [hh] at h1; cases h1
    | some s => rw [hh] at h1; simp only [Option.map_some, Option.some.injEq] at h1; rw [← h1, head_head]
  · cases hh : L.db.store.heads l.ent.index with
    | none => rw [hh] at h2; cases h2
    | some s => rw [hh] at h2; simp only [Option.map_some, Option.some.injEq] at h2; rw [← h2, head_head]

theorem found_agree {L : Live} (hs : Synced L) (h : Good L.db) (n : Str) : Agree L.found.store L.db.store n := by
  refine ⟨?_, fun _ => rfl⟩
  show ((match L.db.lists.find? fun (l : Listing) => (L.mem l.id).isSome && (l.ent.scores == n || l.ent.index == n) with
        | none => L.db.store.heads n
        | some l => (L.mem l.id).map fun (t : Tables) => if l.ent.scores = n then t.1 else t.2).map head) = _
  split
  · rfl
  · rename_i l hl
    have hm := List.mem_of_find?_eq_some hl
    have hp := List.find?_some hl
    simp only [Bool.and_eq_true, Bool.or_eq_true, beq_iff_eq] at hp
    obtain ⟨t, ht⟩ := Option.isSome_iff_exists.1 hp.1
    have hb := byID_of_mem h.ids hm
    obtain ⟨h1, h2⟩ := hs l t hb ht
    obtain ⟨h3, h4⟩ := synced_head hs hb ht
    rw [ht]
    simp only [Option.map_some]
    split
    · rename_i he; rw [← he, h1, h3]
    · rename_i he
      rcases hp.2 with h5 | h5
      · exact absurd h5 he
      · rw [← h5, h2, h4]

theorem found_same {L : Live} (hs : Synced L) (h : Good L.db) (id : Str) : SameFor L.found L.db id :=
  ⟨rfl, fun _ _ n _ => found_agree hs h n⟩

theorem found_handle {L : Live} (hs : Synced L) (h : Good L.db) (env : Env) (r : Request) :
    handle env L.found r = handle env L.db r := handle_congr fun id _ => found_same hs h id

theorem keep_congr {a b : Db} {id : Str} (h : SameFor a b id) (f : ListState → Option ListState) : keep a id f = keep b id f := by
  unfold keep
  rw [h.entry]
  cases hb : byID b.lists id with
  | none => rfl
  | some l => dsimp only; rw [h.reload hb]

theorem found_learn {L : Live} (hs : Synced L) (h : Good L.db) (env : Env) (r : Request) :
    learn env L.found r = learn env L.db r := by
  cases r with
  | create replace p =>
    have : create env L.found replace p = create env L.db replace p := found_handle hs h env (.create replace p)
    simp only [learn, this]
  | clone org p =>
    have h1 : clone env L.found org p = clone env L.db org p := found_handle hs h env (.clone org p)
    have h2 : ((byID L.found.lists org).bind fun o => reload L.found.store o.ent) =
        (byID L.db.lists org).bind fun o => reload L.db.store o.ent := by
      show ((byID L.db.lists org).bind fun o => reload L.found.store o.ent) = _
      cases hb : byID L.db.lists org with
      | none => rfl
      | some l => exact (found_same hs h org).reload hb
    simp only [learn, h1, h2]
  | delete id => rfl
  | save => rfl
  | _ => exact keep_congr (found_same hs h _) _

theorem found_ask {L : Live} (hs : Synced L) (h : Good L.db) (sch : Sched) (q : Query) :
    Server.ask sch L.found q = Server.ask sch L.db q := by
  cases hq : Query.list? q with
  | none => cases q <;> first | rfl | cases hq
  | some id => exact ask_congr hq (found_same hs h id)

theorem heads_of_reload {d : Store} {ent : Entry} {st : ListState} (h : reload d ent = some st) :
    (d.heads ent.scores).map head = some (tables st).1 ∧ (d.heads ent.index).map head = some (tables st).2 := by
  obtain ⟨⟨h1, -⟩, ⟨h2, -⟩, -, -⟩ := reload_iff.1 h
  exact ⟨h1, h2⟩

theorem serve_same {env : Env} {db : Db} {r : Request} {id : Str} (h : Good db) (hf : Fits env db) (ht : target r ≠ some id) :
    SameFor (serve env db r).2 db id := by
  have ho := handle_own (r := r) h hf
  refine ⟨applyAll_byID db ?_, ?_⟩
  · intro e he ha
    have := ho e he
    cases e with
    | put l => simp only [about, Option.some.injEq] at ha; subst ha; exact ht this.2
    | drop i => simp only [about, Option.some.injEq] at ha; subst ha; exact ht this.2
    | blob w => simp [about] at ha
    | save => simp [about] at ha
  · intro l hl n hn
    obtain ⟨hl1, hl2⟩ := byID_mem hl
    refine applyAll_agree db ?_
    intro e he hb
    have := ho e he
    cases e with
    | put l => simp [blobOf] at hb
    | drop i => simp [blobOf] at hb
    | save => simp [blobOf] at hb
    | blob w =>
      simp only [blobOf, Option.some.injEq] at hb
      have hfr := hf.fresh l (List.mem_append_left _ hl1)
      rcases this with h1 | h1 | ⟨x, hx, h1, h2⟩
      · exact hfr.1 (h1 ▸ hb ▸ hn)
      · exact hfr.2 (h1 ▸ hb ▸ hn)
      · have := h.names l hl1 x hx n hn (hb ▸ h2)
        exact ht (by rw [h1, ← this, hl2])

/-- What `learned` says of a request. -/
def Learned (env : Env) (db : Db) (r : Request) : Prop :=
  (∀ x ∈ learn env db r, ∀ t, x.2 = some t → ∀ l, byID (serve env db r).2.lists x.1 = some l →
      ((serve env db r).2.store.heads l.ent.scores).map head = some t.1 ∧
      ((serve env db r).2.store.heads l.ent.index).map head = some t.2) ∧
  (∀ id, (∀ x ∈ learn env db r, x.1 ≠ id) → SameFor (serve env db r).2 db id)

theorem same_refl (db : Db) (id : Str) : SameFor db db id := ⟨rfl, fun _ _ _ _ => ⟨rfl, fun _ => rfl⟩⟩

theorem learned_keep {env : Env} {db : Db} {r : Request} {id : Str} {f : ListState → Option ListState} (h : Good db)
    (hf : Fits env db) (ht : target r = some id) (hl : learn env db r = keep db id f)
    (hno : byID db.lists id = none → (serve env db r).2 = db)
    (hst : ∀ l st, l ∈ db.lists → l.id = id → byID db.lists id = some l → reload db.store l.ent = some st → ListOK st →
      ∃ l', byID (serve env db r).2.lists id = some l' ∧ reload (serve env db r).2.store l'.ent = some ((f st).getD st)) :
    Learned env db r := by
  unfold Learned
  rw [hl]
  rcases Server.Good.look h (id := id) with ⟨l, st, l1, l2, l3, l4, l5, -⟩ | ⟨h1, -⟩
  · have hk : keep db id f = [(id, some (tables ((f st).getD st)))] := by
      unfold keep
      rw [l3]
      dsimp only
      rw [l4]
    rw [hk]
    constructor
    · intro x hx t hxt m hm
      simp only [List.mem_singleton] at hx
      subst hx
      simp only [Option.some.injEq] at hxt
      obtain ⟨l', h1, h2⟩ := hst l st l1 l2 l3 l4 l5
      rw [h1] at hm
      cases hm
      rw [← hxt]
      exact heads_of_reload h2
    · intro id' hid
      apply serve_same h hf
      rw [ht]
      intro he
      exact hid _ List.mem_cons_self (by simpa using he)
  · have hk : keep db id f = [] := by
      unfold keep
      rw [h1]
    rw [hk, hno h1]
    exact ⟨by simp, fun id' _ => same_refl db id'⟩

theorem serve_withList {env : Env} {db : Db} {r : Request} {id : Str} {f : Listing → ListState → Answer × List Effect}
    (hr : handle env db r = withList db id f) :
    (byID db.lists id = none → (serve env db r).2 = db) ∧
    ∀ l st, byID db.lists id = some l → reload db.store l.ent = some st →
      (serve env db r).2 = applyAll db (f l st).2 := by
  constructor
  · intro hb
    unfold serve
    rw [hr]
    unfold withList
    rw [hb]
    rfl
  · intro l st hb hl
    unfold serve
    rw [hr]
    unfold withList
    rw [hb]
    dsimp only
    rw [hl]

theorem byID_put_self {lists : List Listing} {l : Listing} : byID (l :: lists.filter fun x => x.id != l.id) l.id = some l := by
  rw [byID_put, if_pos rfl]

/-- The tables that a request leaves in memory are those of the list as it is in the storage afterwards. -/
theorem learned {env : Env} {db : Db} {r : Request} (h : Good db) (hf : Fits env db) (ha : Spec.Allowed db r) :
    Learned env db r := by
  cases r with
  | create replace p =>
    obtain ⟨hsz, hst, hlen⟩ := ha
    have hc := initial_chosen env p
    obtain ⟨st', hpop⟩ := C14_populate_returns env.now env.sch env.shuffle env.reduce p.mergeSize p.splitSize (initial env p)
      hc.distinct (chosen_storable hc hst hf.now.2) (by have := chosen_length hc; omega) hf.reduce hsz
    by_cases hok : (create env db replace p).1 = .ok
    · have hl : learn env db (.create replace p) = [(p.id, some (tables st'))] := by simp only [learn, if_pos hok, hpop]
      refine ⟨?_, fun id' hid => serve_same h hf ?_⟩
      · rw [hl]
        intro x hx t ht m hm
        simp only [List.mem_singleton] at hx
        subst hx
        simp only [Option.some.injEq] at ht
        subst ht
        have hnew : reload (writes db.store (populateNew env.now env.sch env.shuffle env.reduce (listing env p).ent (initial env p)))
            (listing env p).ent = some st' :=
          populateNew_reload (new := (listing env p).ent) db.store hf.differ hpop hc.distinct
            (chosen_storable hc hst hf.now.2) (by have := chosen_length hc; omega)
        have hs : ∃ del, (∀ w ∈ del, ∃ x ∈ db.lists, w.parent ∈ names x) ∧
            (serve env db (.create replace p)).2 = { db with
              store := writes (writes db.store (populateNew env.now env.sch env.shuffle env.reduce (listing env p).ent (initial env p))) del
              lists := listing env p :: db.lists.filter fun x => x.id != (listing env p).id } := by
          unfold serve
          have hh : handle env db (.create replace p) = create env db replace p := rfl
          rw [hh]
          unfold create at hok ⊢
          dsimp only at hok ⊢
          split at hok
          · cases hok
          · split at hok
            · cases hok
            · rename_i c1 c2
              rw [if_neg c1, if_neg c2, hpop]
              dsimp only
              refine ⟨match byID db.lists p.id with
                | none => []
                | some o => deleteAll env.sch (writes db.store (populateNew env.now env.sch env.shuffle env.reduce
                    (listing env p).ent (initial env p))) o.ent, ?_, ?_⟩
              · intro w hw
                cases hb : byID db.lists p.id with
                | none => rw [hb] at hw; simp at hw
                | some o =>
                  rw [hb] at hw
                  refine ⟨o, (byID_mem hb).1, ?_⟩
                  unfold names
                  rcases parent_deleteAll w hw with h1 | h1 <;> simp [h1]
              · rw [applyAll_append, applyAll_blobs, writes_append]
                rfl
        obtain ⟨del, hd, hs⟩ := hs
        rw [hs] at hm ⊢
        have : m = listing env p := by
          have : byID (listing env p :: db.lists.filter fun x => x.id != (listing env p).id) (listing env p).id = some m := hm
          rw [byID_put_self] at this
          exact (Option.some.inj this).symm
        subst this
        refine heads_of_reload ?_
        show reload (writes (writes _ _) _) _ = _
        rw [reload_other, hnew]
        intro w hw
        obtain ⟨x, hx, hxn⟩ := hd w hw
        have : (listing env p).ent.scores ∉ names x ∧ (listing env p).ent.index ∉ names x := hf.fresh x (List.mem_append_left _ hx)
        exact ⟨fun he => this.1 (he ▸ hxn), fun he => this.2 (he ▸ hxn)⟩
      · intro he
        exact hid (p.id, some (tables st')) (by simp [hl]) (by simpa [target] using he)
    · have hl : learn env db (.create replace p) = [] := by simp only [learn, if_neg hok]
      have hs : (serve env db (.create replace p)).2 = db := by
        unfold serve
        have hh : handle env db (.create replace p) = create env db replace p := rfl
        rw [hh]
        unfold create at hok ⊢
        dsimp only at hok ⊢
        split
        · rfl
        · split
          · rfl
          · rename_i c1 c2
            rw [if_neg c1, if_neg c2, hpop] at hok
            exact absurd rfl hok
      unfold Learned
      rw [hl, hs]
      exact ⟨by simp, fun id' _ => same_refl db id'⟩
  | clone org p =>
    obtain ⟨hsz, hlim⟩ := ha
    have hh : handle env db (.clone org p) = clone env db org p := rfl
    by_cases hok : (clone env db org p).1 = .ok
    · have key : ∃ o st st', o ∈ db.lists ∧ byID db.lists org = some o ∧ byID db.lists p.id = none ∧
          reload db.store o.ent = some st ∧ Lists.clone env.now p.mergeSize p.splitSize st = some st' ∧
          (clone env db org p).2 = (cloneWrites (listing env p).ent st').map .blob ++ [.put (listing env p)] := by
        unfold clone at hok ⊢
        cases hb : byID db.lists org with
        | none => rw [hb] at hok; cases hok
        | some o =>
          rw [hb] at hok
          dsimp only at hok ⊢
          split at hok
          · cases hok
          · split at hok
            · cases hok
            · split at hok
              · cases hok
              · rename_i c1 c2 c3
                rw [if_neg c1, if_neg c2, if_neg c3]
                cases hr : reload db.store o.ent with
                | none => rw [hr] at hok; cases hok
                | some st =>
                  rw [hr] at hok
                  dsimp only at hok ⊢
                  cases hc : Lists.clone env.now p.mergeSize p.splitSize st with
                  | none => rw [hc] at hok; cases hok
                  | some st' => exact ⟨o, st, st', (byID_mem hb).1, rfl, by simpa using c1, hr, hc, rfl⟩
      obtain ⟨o, st, st', o1, o2, o3, o4, o5, o6⟩ := key
      obtain ⟨sx, r1, r2⟩ := h.readable o o1
      rw [r1] at o4
      cases o4
      obtain ⟨l1, l2⟩ := hlim o o1 (byID_mem o2).2 st r1
      obtain ⟨c1, c2, c3, c4⟩ := C20_clone env.now p.mergeSize p.splitSize st st' r2 l1 l2 o5
      have hl : learn env db (.clone org p) = [(org, some (tables st)), (p.id, some (tables st'))] := by
        simp only [learn, if_pos hok, o2, Option.bind_some, r1, o5]
      have hr : reload (writes db.store (cloneWrites (listing env p).ent st')) (listing env p).ent = some st' := by
        unfold cloneWrites
        rw [← List.append_assoc, writes_append]
        exact ready_save hf.differ (new_stored db.store hf.differ c1) c3.symm c4.symm
      have hne : org ≠ p.id := by intro he; rw [he, o3] at o2; cases o2
      refine ⟨?_, fun id' hid => serve_same h hf ?_⟩
      · rw [hl]
        intro x hx t ht m hm
        simp only [List.mem_cons, List.not_mem_nil, or_false] at hx
        rcases hx with hx | hx
        · subst hx
          simp only [Option.some.injEq] at ht
          subst ht
          have hsame : SameFor (serve env db (.clone org p)).2 db org :=
            serve_same h hf (by simpa [target] using fun he => hne he.symm)
          rw [hsame.entry, o2] at hm
          cases hm
          exact heads_of_reload (by rw [hsame.reload o2]; exact r1)
        · subst hx
          simp only [Option.some.injEq] at ht
          subst ht
          have hs : (serve env db (.clone org p)).2 = { db with
              store := writes db.store (cloneWrites (listing env p).ent st')
              lists := listing env p :: db.lists.filter fun x => x.id != (listing env p).id } := by
            unfold serve
            rw [hh, o6]
            dsimp only
            rw [applyAll_append, applyAll_blobs]
            rfl
          rw [hs] at hm ⊢
          have : m = listing env p := by
            have : byID (listing env p :: db.lists.filter fun x => x.id != (listing env p).id) (listing env p).id = some m := hm
            rw [byID_put_self] at this
            exact (Option.some.inj this).symm
          subst this
          exact heads_of_reload hr
      · intro he
        exact hid (p.id, some (tables st')) (by simp [hl]) (by simpa [target] using he)
    · have hl : learn env db (.clone org p) = [] := by simp only [learn, if_neg hok]
      have hs : (serve env db (.clone org p)).2 = db := by
        unfold serve
        rw [hh]
        unfold clone at hok ⊢
        repeat' split
        all_goals first
          | rfl
          | (exfalso; revert hok; simp_all)
      unfold Learned
      rw [hl, hs]
      exact ⟨by simp, fun id' _ => same_refl db id'⟩
  | delete id =>
    refine ⟨?_, fun id' hid => serve_same h hf ?_⟩
    · intro x hx t ht
      simp only [learn, List.mem_singleton] at hx
      subst hx
      cases ht
    · intro he
      exact hid (id, none) (by simp [learn]) (by simpa [target] using he)
  | save => exact ⟨by simp [learn], fun id' _ => serve_same h hf (by simp [target])⟩
  | createElement id e =>
    refine learned_keep h hf rfl rfl (serve_withList rfl).1 ?_
    intro l st l1 l2 l3 l4 l5
    refine ⟨l, ?_⟩
    rw [(serve_withList (r := .createElement id e) rfl).2 l st l3 l4]
    have hids : ∀ v ∈ [e.id], v < 2 ^ 64 := by simpa using ha.id
    obtain ⟨-, g2, g3⟩ := Lists.getElements_spec (sch := env.sch) l5 hids 0
    by_cases hex : (Lists.getElements env.sch st [e.id] 0).length > 0
    · rw [if_pos hex, if_pos hex]
      exact ⟨l3, l4⟩
    · rw [if_neg hex, if_neg hex]
      obtain ⟨-, -, m1, m2⟩ := reload_iff.1 l4
      obtain ⟨st', hi⟩ := C15_insert_returns env.now env.sch st (Elements.updateTime env.now [e]) l5
        (by rw [← m2]; exact h.sizes l l1)
      have hst : ∀ x ∈ Elements.updateTime env.now [e], Storable x := by
        intro x hx
        simp only [Elements.updateTime, List.map_cons, List.map_nil, List.mem_singleton] at hx
        subst hx
        exact ⟨ha.score, ha.id, ha.tie, hf.now.2⟩
      have hdd : DistinctIDs (st.content ++ Elements.updateTime env.now [e]) := by
        unfold DistinctIDs
        rw [List.map_append, List.nodup_append]
        refine ⟨l5.scores.distinct, by simp [Elements.updateTime], ?_⟩
        intro a hain b hb
        simp only [Elements.updateTime, List.map_cons, List.map_nil, List.mem_singleton] at hb
        intro hab
        rw [hab, hb] at hain
        obtain ⟨x, hx, hxe⟩ := List.mem_map.1 hain
        obtain ⟨r, hr, -⟩ := g3 x hx (by simp [hxe])
        exact hex (List.length_pos_of_mem hr)
      obtain ⟨i1, -, -⟩ := C67_insert_durable env.now env.sch db.store l.ent st st' _ (h.own l l1) l4 l5 hst hdd hi
      rw [hi]
      dsimp only
      rw [applyAll_blobs]
      exact ⟨l3, i1⟩
  | createElements id es =>
    refine learned_keep h hf rfl rfl (serve_withList rfl).1 ?_
    intro l st l1 l2 l3 l4 l5
    refine ⟨l, ?_⟩
    rw [(serve_withList (r := .createElements id es) rfl).2 l st l3 l4]
    have hc := chosen_before env.now es (fun e he => (ha e he).2)
    have hst := chosen_storable hc (fun e he => (ha e he).1) hf.now.2
    dsimp only
    generalize Elements.updateTime env.now (Elements.deduplicate es).1 = es' at hc hst
    have hids : ∀ v ∈ es'.map (·.id), v < 2 ^ 64 := by
      intro v hv
      obtain ⟨e, he, rfl⟩ := List.mem_map.1 hv
      exact (hst e he).id
    obtain ⟨-, g2, g3⟩ := Lists.getElements_spec (sch := env.sch) l5 hids 0
    by_cases hex : (Lists.getElements env.sch st (es'.map (·.id)) 0).length > 0
    · rw [if_pos hex, if_pos hex]
      exact ⟨l3, l4⟩
    · rw [if_neg hex, if_neg hex]
      obtain ⟨-, -, m1, m2⟩ := reload_iff.1 l4
      obtain ⟨st', hi⟩ := C15_insert_returns env.now env.sch st es' l5 (by rw [← m2]; exact h.sizes l l1)
      have hdd : DistinctIDs (st.content ++ es') := by
        unfold DistinctIDs
        rw [List.map_append, List.nodup_append]
        refine ⟨l5.scores.distinct, hc.distinct, ?_⟩
        intro a hain b hb hab
        obtain ⟨x, hx, hxe⟩ := List.mem_map.1 hain
        obtain ⟨r, hr, -⟩ := g3 x hx (by rw [hxe, hab]; exact hb)
        exact hex (List.length_pos_of_mem hr)
      obtain ⟨i1, -, -⟩ := C67_insert_durable env.now env.sch db.store l.ent st st' _ (h.own l l1) l4 l5 hst hdd hi
      rw [hi]
      dsimp only
      rw [applyAll_blobs]
      exact ⟨l3, i1⟩
  | putElements id es =>
    refine learned_keep h hf rfl rfl (serve_withList rfl).1 ?_
    intro l st l1 l2 l3 l4 l5
    refine ⟨l, ?_⟩
    rw [(serve_withList (r := .putElements id es) rfl).2 l st l3 l4]
    have hc := dedup_chosen env.now es
    obtain ⟨u1, -⟩ := C67_update_durable env.now env.sch db.store l.ent st _ (h.own l l1) l4 l5
      (chosen_storable hc ha hf.now.2) hc.distinct hf.now.2
    rw [applyAll_blobs]
    exact ⟨l3, u1⟩
  | deleteElements id ids =>
    refine learned_keep h hf rfl rfl (serve_withList rfl).1 ?_
    intro l st l1 l2 l3 l4 l5
    refine ⟨l, ?_⟩
    rw [(serve_withList (r := .deleteElements id ids) rfl).2 l st l3 l4]
    obtain ⟨u1, -⟩ := C67_delete_durable env.now env.sch db.store l.ent st ids (h.own l l1) l4 l5 ha
    rw [applyAll_blobs]
    exact ⟨l3, u1⟩
  | split id merge =>
    refine learned_keep h hf rfl rfl (serve_withList rfl).1 ?_
    intro l st l1 l2 l3 l4 l5
    refine ⟨l, ?_⟩
    rw [(serve_withList (r := .split id merge) rfl).2 l st l3 l4]
    obtain ⟨a1, a2⟩ := ha l l1 l2 st l4
    obtain ⟨u1, -, -⟩ := C67_split_durable env.now merge env.sch db.store l.ent st (h.own l l1) l4 l5 hf.now.2 a1 a2
    rw [applyAll_blobs]
    exact ⟨l3, u1⟩
  | reindex id =>
    refine learned_keep h hf rfl rfl (serve_withList rfl).1 ?_
    intro l st l1 l2 l3 l4 l5
    refine ⟨{ l with ent := { l.ent with index := env.index } }, ?_⟩
    rw [(serve_withList (r := .reindex id) rfl).2 l st l3 l4]
    obtain ⟨st', hi⟩ := C19_reindex_returns env.now env.sch st (by
      obtain ⟨-, -, m1, m2⟩ := reload_iff.1 l4; have := h.sizes l l1; omega)
    have hfr := hf.fresh l (List.mem_append_left _ l1)
    have hne1 : l.ent.scores ≠ env.index := fun he => hfr.2 (by simp [names, he])
    have hne2 : env.index ≠ l.ent.index := fun he => hfr.2 (by simp [names, he])
    obtain ⟨i1, -, -⟩ := C67_reindex_durable env.now env.sch db.store l.ent { l.ent with index := env.index } st st' l4 l5 rfl
      hne1 hne2 (h.own l l1) rfl rfl (ha l l1 l2 st l4) hi
    dsimp only
    rw [hi]
    dsimp only
    rw [applyAll_append, applyAll_blobs]
    refine ⟨?_, i1⟩
    rw [← l2]
    exact byID_put_self
  | repair id =>
    refine learned_keep h hf rfl rfl (serve_withList rfl).1 ?_
    intro l st l1 l2 l3 l4 l5
    refine ⟨{ l with ent := { l.ent with scores := env.scores, index := env.index } }, ?_⟩
    rw [(serve_withList (r := .repair id) rfl).2 l st l3 l4]
    obtain ⟨-, -, m1, m2⟩ := reload_iff.1 l4
    have hlim := ha l l1 l2 st l4
    obtain ⟨st', hi⟩ := C31_repair_returns env.now env.sch env.shuffle env.reduce (fun _ => false) st
      (fun s hs _ e he => l5.scores.storable e (mem_allElems.2 ⟨s, hs, he⟩)) hlim hf.reduce
      (by rw [← m2]; exact h.sizes l l1)
    have i1 : reload (writes db.store (repairWrites env.now env.sch env.shuffle env.reduce l.ent
        { l.ent with scores := env.scores, index := env.index } st)) { l.ent with scores := env.scores, index := env.index } = some st' := by
      unfold repairWrites
      have hpop := hi
      unfold Lists.repair at hpop
      have hfil : st.scores.segs.filter (fun _ => true) = st.scores.segs := List.filter_eq_self.2 (fun _ _ => rfl)
      simp only [Bool.not_false, hfil] at hpop
      rw [← m1, ← m2] at hpop
      obtain ⟨-, d2, d3, -, -⟩ := Elements.deduplicate_spec (st.scores.segs.flatMap fun s => (Elements.deduplicate s.elems).1)
      have hin : ∀ e ∈ (Elements.deduplicate (st.scores.segs.flatMap fun s => (Elements.deduplicate s.elems).1)).1, e ∈ st.content := by
        intro e he
        obtain ⟨s, hs, hes⟩ := List.mem_flatMap.1 (d3 e he)
        exact mem_allElems.2 ⟨s, hs, (Elements.deduplicate_spec s.elems).2.2.1 e hes⟩
      refine populate_reload db.store hf.differ rfl rfl hpop d2 (fun e he => l5.scores.storable e (hin e he)) ?_
      have : ((Elements.deduplicate (st.scores.segs.flatMap fun s => (Elements.deduplicate s.elems).1)).1.map (·.id)).length
          ≤ (st.content.map (·.id)).length := by
        apply nodup_length_le d2
        intro i hid
        obtain ⟨e, he, rfl⟩ := List.mem_map.1 hid
        exact List.mem_map.2 ⟨e, hin e he, rfl⟩
      simp only [List.length_map] at this
      omega
    dsimp only
    rw [hi]
    dsimp only
    rw [applyAll_append, applyAll_blobs]
    refine ⟨?_, i1⟩
    rw [← l2]
    exact byID_put_self

theorem remember_cases (mem : Str → Option Tables) (xs : List (Str × Option Tables)) (id : Str) :
    (∃ x ∈ xs, x.1 = id ∧ remember mem xs id = x.2) ∨ ((∀ x ∈ xs, x.1 ≠ id) ∧ remember mem xs id = mem id) := by
  unfold remember
  cases hx : xs.find? fun x => x.1 == id with
  | none =>
    right
    refine ⟨fun x hxm he => ?_, rfl⟩
    have := List.find?_eq_none.1 hx x hxm
    simp [he] at this
  | some x =>
    left
    refine ⟨x, List.mem_of_find?_eq_some hx, by simpa using List.find?_some hx, rfl⟩

/-- A request to a server with tables in memory is served as if there were none. -/
theorem live_serve {env : Env} {L : Live} {r : Request} (hs : Synced L) (h : Good L.db) (hf : Fits env L.db)
    (ha : Spec.Allowed L.db r) :
    (L.serve env r).1 = (serve env L.db r).1 ∧ (L.serve env r).2.db = (serve env L.db r).2 ∧ Synced (L.serve env r).2 := by
  have h1 := found_handle hs h env r
  have h2 := found_learn hs h env r
  have hdb : (L.serve env r).2.db = (serve env L.db r).2 := by unfold Live.serve serve; rw [h1]
  refine ⟨by unfold Live.serve serve; rw [h1], hdb, ?_⟩
  intro l t hl ht
  rw [hdb] at hl ⊢
  obtain ⟨g1, g2⟩ := learned h hf ha
  have ht : remember L.mem (learn env L.found r) l.id = some t := ht
  rw [h2] at ht
  rcases remember_cases L.mem (learn env L.db r) l.id with ⟨x, hx, he, hr⟩ | ⟨hno, hr⟩
  · exact g1 x hx t (by rw [← hr]; exact ht) l (by rw [he]; exact hl)
  · have hsame := g2 l.id hno
    rw [hsame.entry] at hl
    obtain ⟨i1, i2⟩ := hs l t hl (by rw [← hr]; exact ht)
    exact ⟨(hsame.blobs l hl _ (by simp [names])).1.trans i1, (hsame.blobs l hl _ (by simp [names])).1.trans i2⟩

theorem synced_keep {L : Live} (hs : Synced L) (h : Good L.db) (id : Str) :
    Synced { L with mem := remember L.mem (keep L.found id some) } := by
  intro l t hl ht
  have ht : remember L.mem (keep L.found id some) l.id = some t := ht
  rw [keep_congr (found_same hs h id)] at ht
  rcases remember_cases L.mem (keep L.db id some) l.id with ⟨x, hx, he, hr⟩ | ⟨hno, hr⟩
  · rw [hr] at ht
    unfold keep at hx
    cases hb : byID L.db.lists id with
    | none => rw [hb] at hx; simp at hx
    | some m =>
      rw [hb] at hx
      dsimp only at hx
      cases hrl : reload L.db.store m.ent with
      | none => rw [hrl] at hx; simp at hx
      | some st =>
        rw [hrl] at hx
        simp only [List.mem_singleton] at hx
        subst hx
        dsimp only at he ht
        simp only [Option.some.injEq] at ht
        subst ht
        have hl : byID L.db.lists l.id = some l := hl
        rw [← he, hb] at hl
        cases hl
        exact heads_of_reload hrl
  · exact hs l t hl (by rw [← hr]; exact ht)

theorem synced_ask {sch : Sched} {L : Live} {q : Query} (hs : Synced L) (h : Good L.db) :
    Synced (L.ask sch q).2 := by
  cases q with
  | page => exact hs
  | _ => exact synced_keep hs h _

theorem synced_prune {skip : Str → Bool} {L : Live} (hs : Synced L) : Synced (L.prune skip) := by
  intro l t hl ht
  refine hs l t hl ?_
  unfold Live.prune at ht
  dsimp only at ht
  have hl : byID L.db.lists l.id = some l := hl
  rw [hl] at ht
  dsimp only at ht
  split at ht
  · exact ht
  · cases ht

theorem live_trace {L : Live} {es : List LiveEvent} (hs : Synced L) (h : Good L.db) (hr : ReadyTrace L.db (clients es)) :
    (liveTrace L es).1 = (trace L.db (clients es)).1 ∧ (liveTrace L es).2.db = (trace L.db (clients es)).2 := by
  induction es generalizing L with
  | nil => exact ⟨rfl, rfl⟩
  | cons e es ih =>
    cases e with
    | prune skip => exact ih (L := L.prune skip) (synced_prune hs) h hr
    | client e =>
      cases e with
      | change env r =>
        obtain ⟨hf, ha, hr⟩ := hr
        obtain ⟨g1, g2, g3⟩ := live_serve hs h hf ha
        obtain ⟨i1, i2⟩ := ih (L := (L.serve env r).2) g3 (by rw [g2]; exact (C70_request env L.db r h hf ha).1)
          (by rw [g2]; exact hr)
        rw [g2] at i1 i2
        refine ⟨?_, i2⟩
        show Response.answer (L.serve env r).1 :: (liveTrace (L.serve env r).2 es).1 = .answer (serve env L.db r).1 :: _
        rw [g1, i1]
        rfl
      | ask sch q =>
        obtain ⟨-, hr⟩ := hr
        obtain ⟨i1, i2⟩ := ih (L := (L.ask sch q).2) (synced_ask hs h) h hr
        refine ⟨?_, i2⟩
        show Response.shown (Server.ask sch L.found q) :: (liveTrace (L.ask sch q).2 es).1 = .shown (Server.ask sch L.db q) :: _
        rw [found_ask hs h, i1]
        rfl

/-- Whenever lists are taken out of memory, clients see what the rankings are: after any history of changes and queries
with any number of releases of any lists in between, all answers are those of the map of rankings. -/
theorem C87_release_invisible (db : Db) (es : List LiveEvent) (h : Good db) (hr : ReadyTrace db (clients es)) :
    Good (liveTrace (started db) es).2.db ∧
    MeansTrace (look db) (clients es) (liveTrace (started db) es).1 (look (liveTrace (started db) es).2.db) := by
  obtain ⟨h1, h2⟩ := live_trace (L := started db) (es := es) (fun _ _ _ ht => by cases ht) h hr
  rw [h1, h2]
  exact C75_trace_partial db (clients es) h hr

/-- Two servers that differ in what they have released, and when, give the same answers and store the same. -/
theorem C87_release_same (db : Db) (es fs : List LiveEvent) (h : Good db) (hr : ReadyTrace db (clients es))
    (heq : clients es = clients fs) :
    (liveTrace (started db) es).1 = (liveTrace (started db) fs).1 ∧
    (liveTrace (started db) es).2.db = (liveTrace (started db) fs).2.db := by
  have hs : Synced (started db) := fun _ _ _ ht => by cases ht
  obtain ⟨h1, h2⟩ := live_trace (L := started db) (es := es) hs h hr
  obtain ⟨h3, h4⟩ := live_trace (L := started db) (es := fs) hs h (by rw [← heq]; exact hr)
  rw [h1, h2, h3, h4, heq]
  exact ⟨rfl, rfl⟩

/-- The history `exTrace` with releases of all lists, and of all lists but the first, in between. -/
def exReleases : List LiveEvent :=
  exTrace.flatMap fun e => [.prune fun _ => false, .client e, .prune fun id => id == [65], .prune fun _ => true]

/-- The tables of the first list are in memory after a query and gone after a release; the list that is deleted at the
end was in memory until then. -/
example : Good exDb ∧ ReadyTrace exDb (clients exReleases) ∧
    (liveTrace (started exDb) exReleases).1.map brief =
      [[-3], [-1], [3, 0, 2, 2], [2, 1, 8], [-1], [1, 3], [2], [9, 3, 4], [1, 0, 1], [8, 6, 2, 5, 7], [-1], [-3], [9, 6, 4]] ∧
    ((liveTrace (started exDb) exReleases).2.mem [65]).isSome = true ∧
    (((liveTrace (started exDb) exReleases).2.prune fun _ => false).mem [65]).isSome = false ∧
    ((liveTrace (started exDb) ((exTrace.take 9).map .client)).2.mem [66]).isSome = true := by
  refine ⟨exDb_good, ?_, by decide +kernel, by decide +kernel, by decide +kernel, by decide +kernel⟩
  have : clients exReleases = exTrace := rfl
  rw [this]
  exact exTrace_ready

end RankDB.Props

import Verif.Proofs.Server
import Verif.Props.ApiUpdates
/-
C69, C70: requests to the server as a whole.
-/
namespace RankDB.Props
open Spec Server Disk

/-! ### One request -/

theorem dedup_chosen (now : Nat) (es : List Element) :
    Chosen now es (Elements.deduplicate (Elements.updateTime now es)).1 := by
  obtain ⟨-, d2, d3, d4, -⟩ := Elements.deduplicate_spec (Elements.updateTime now es)
  refine ⟨d2, ?_, ?_⟩
  · intro e he
    have := d3 e he
    unfold Elements.updateTime at this
    obtain ⟨x, hx, rfl⟩ := List.mem_map.1 this
    exact ⟨x, hx, rfl⟩
  · intro x hx
    obtain ⟨k, hk, h1, h2⟩ := d4 { x with updated := now } (List.mem_map.2 ⟨x, hx, rfl⟩)
    obtain ⟨y, hy, hyk⟩ := List.mem_map.1 (d3 k hk)
    refine ⟨k, hk, h1, ?_⟩
    have hku : k.updated = now := by rw [← hyk]
    dsimp only at h2
    omega

theorem chosen_before (now : Nat) (es : List Element) (h0 : ∀ e ∈ es, e.updated = 0) :
    Chosen now es (Elements.updateTime now (Elements.deduplicate es).1) := by
  obtain ⟨-, d2, d3, d4, -⟩ := Elements.deduplicate_spec es
  unfold Elements.updateTime
  refine ⟨?_, ?_, ?_⟩
  · unfold DistinctIDs
    rw [List.map_map]
    exact d2
  · intro e he
    obtain ⟨x, hx, rfl⟩ := List.mem_map.1 he
    exact ⟨x, d3 x hx, rfl⟩
  · intro x hx
    obtain ⟨k, hk, h1, h2⟩ := d4 x hx
    refine ⟨_, List.mem_map.2 ⟨k, hk, rfl⟩, h1, ?_⟩
    have := h0 k (d3 k hk)
    show k.score ≤ x.score
    omega

theorem stamped {now : Nat} {es es' : List Element} (h : Chosen now es es') : Elements.updateTime now es' = es' := by
  unfold Elements.updateTime
  conv => rhs; rw [← List.map_id es']
  apply List.map_congr_left
  intro e he
  obtain ⟨x, -, rfl⟩ := h.given e he
  rfl

theorem chosen_storable {now : Nat} {es es' : List Element} (h : Chosen now es es') (hes : ∀ e ∈ es, Storable e)
    (hnow : now < 2 ^ 32 - 1) : ∀ e ∈ es', Storable e := by
  intro e he
  obtain ⟨x, hx, rfl⟩ := h.given e he
  have := hes x hx
  exact ⟨this.score, this.id, this.tie, hnow⟩

theorem chosen_length {now : Nat} {es es' : List Element} (h : Chosen now es es') : es'.length ≤ es.length := by
  have h1 : (es'.map (·.id)).length ≤ (es.map (·.id)).length := by
    apply nodup_length_le h.distinct
    intro i hi
    obtain ⟨e, he, rfl⟩ := List.mem_map.1 hi
    obtain ⟨x, hx, rfl⟩ := h.given e he
    exact List.mem_map.2 ⟨x, hx, rfl⟩
  simpa using h1

theorem initial_chosen (env : Env) (p : Payload) : Chosen env.now (p.populate.getD []) (initial env p) := by
  unfold initial
  cases p.populate with
  | none => exact ⟨by simp [DistinctIDs], by simp, by simp⟩
  | some l =>
    have := dedup_chosen env.now l
    simp only [Option.getD_some]
    rw [stamped this]; exact this

theorem accepted_iff {p : Payload} : accepted p = true ↔ ¬ (p.splitSize ≤ p.mergeSize ∨ p.set = []) := by
  unfold accepted Lists.mergeSplitSize
  by_cases h : p.mergeSize ≥ p.splitSize
  · simp [h]
  · have : ¬ p.splitSize ≤ p.mergeSize := by omega
    rw [if_neg h]; simp [this]

/-- Every request has exactly the effect and the answer that the specification gives, and leaves the server in
good order. -/
theorem C70_request (env : Env) (db : Db) (r : Request) (h : Good db) (hf : Fits env db) (ha : Spec.Allowed db r) :
    Good (serve env db r).2 ∧ Means env.now (look db) r (serve env db r).1 (look (serve env db r).2) := by
  have hnil : ∀ a : Answer, handle env db r = (a, []) → serve env db r = (a, db) := by
    intro a hh; unfold serve; rw [hh]; rfl
  cases r with
  | create replace p =>
    obtain ⟨hsz, hst, hlen⟩ := ha
    have hc := initial_chosen env p
    obtain ⟨st', hpop⟩ := C14_populate_returns env.now env.sch env.shuffle env.reduce p.mergeSize p.splitSize (initial env p)
      hc.distinct (chosen_storable hc hst hf.now.2) (by have := chosen_length hc; omega) hf.reduce hsz
    obtain ⟨hok, hcon⟩ := C14_populate env.now env.sch env.shuffle env.reduce p.mergeSize p.splitSize (initial env p) st'
      hc.distinct (chosen_storable hc hst hf.now.2) (by have := chosen_length hc; omega) hpop
    have hsome : (byID db.lists p.id).isSome = (look db p.id).isSome := by
      rcases Server.Good.look h (id := p.id) with ⟨l, st, -, -, h3, -, -, h6⟩ | ⟨h1, h2⟩
      · rw [h3, h6]; rfl
      · rw [h1, h2]; rfl
    unfold Means
    dsimp only
    by_cases hcf : (look db p.id).isSome ∧ replace = false
    · have : handle env db (.create replace p) = (.conflict, []) := by
        show create env db replace p = _
        unfold create
        rw [if_pos (by rw [hsome, hcf.1, hcf.2]; rfl)]
      rw [hnil _ this, if_pos hcf]
      exact ⟨h, rfl, rfl⟩
    · rw [if_neg hcf]
      have hcf' : ¬ ((byID db.lists p.id).isSome && !replace) = true := by
        rw [hsome]
        intro hx
        simp only [Bool.and_eq_true, Bool.not_eq_true'] at hx
        exact hcf hx
      by_cases hbad : p.splitSize ≤ p.mergeSize ∨ p.set = []
      · have : handle env db (.create replace p) = (.badRequest, []) := by
          show create env db replace p = _
          unfold create
          rw [if_neg hcf', if_pos]
          cases hacc : accepted p with
          | false => rfl
          | true => exact absurd hbad (accepted_iff.1 hacc)
        rw [hnil _ this, if_pos hbad]
        exact ⟨h, rfl, rfl⟩
      · rw [if_neg hbad]
        have hacc := accepted_iff.2 hbad
        have hfresh : ∀ x ∈ db.lists, (listing env p).ent.scores ∉ names x ∧ (listing env p).ent.index ∉ names x :=
          fun x hx => hf.fresh x (List.mem_append_left _ hx)
        have hnew : reload (writes db.store (populateNew env.now env.sch env.shuffle env.reduce (listing env p).ent (initial env p)))
            (listing env p).ent = some st' :=
          populateNew_reload (new := (listing env p).ent) db.store hf.differ hpop hc.distinct
            (chosen_storable hc hst hf.now.2) (by have := chosen_length hc; omega)
        generalize hws : populateNew env.now env.sch env.shuffle env.reduce (listing env p).ent (initial env p) = ws at hnew
        have hwp : ∀ w ∈ ws, w.parent ∈ names (listing env p) := by
          intro w hw
          rw [← hws] at hw
          unfold names
          rcases parent_populateNew w hw with h1 | h1 <;> simp [h1]
        generalize hdel : (match byID db.lists p.id with
          | none => []
          | some o => deleteAll env.sch (writes db.store ws) o.ent) = del
        have hdp : ∀ w ∈ del, ∃ x ∈ db.lists, x.id = p.id ∧ w.parent ∈ names x := by
          intro w hw
          cases hb : byID db.lists p.id with
          | none => rw [hb] at hdel; rw [← hdel] at hw; simp at hw
          | some o =>
            rw [hb] at hdel; rw [← hdel] at hw
            obtain ⟨h1, h2⟩ := byID_mem hb
            refine ⟨o, h1, h2, ?_⟩
            unfold names
            rcases parent_deleteAll w hw with h1 | h1 <;> simp [h1]
        have hh : handle env db (.create replace p) = (.ok, (ws ++ del).map .blob ++ [.put (listing env p)]) := by
          show create env db replace p = _
          unfold create
          rw [if_neg hcf', if_neg (by rw [hacc]; simp), hpop]
          dsimp only
          rw [hws]
          cases hb : byID db.lists p.id with
          | none => rw [hb] at hdel; rw [← hdel]
          | some o => rw [hb] at hdel; rw [← hdel]
        have hs : serve env db (.create replace p) = (.ok, { db with
            store := writes db.store (ws ++ del)
            lists := listing env p :: db.lists.filter fun x => x.id != (listing env p).id }) := by
          unfold serve
          rw [hh]
          dsimp only
          rw [applyAll_append, applyAll_blobs]
          rfl
        have hr2 : reload (writes db.store (ws ++ del)) (listing env p).ent = some st' := by
          rw [writes_append, reload_other, hnew]
          intro w hw
          obtain ⟨x, hx, -, hxn⟩ := hdp w hw
          have := hfresh x hx
          exact ⟨fun he => this.1 (he ▸ hxn), fun he => this.2 (he ▸ hxn)⟩
        have hg := good_put (l := listing env p) (ws := ws ++ del) h hf.differ hsz (fun x hx _ => hfresh x hx)
          (by
            intro w hw
            rcases List.mem_append.1 hw with h1 | h1
            · exact .inl (hwp w h1)
            · exact .inr (hdp w h1)) hr2 hok
        rw [hs]
        refine ⟨hg.1, rfl, initial env p, hc, ?_⟩
        dsimp only
        rw [hg.2]
        show (look db).set p.id _ = _
        congr 2
        unfold viewOf seen
        rw [hcon]
        rfl
  | clone org p =>
    obtain ⟨hsz, hlim⟩ := ha
    unfold Means
    dsimp only
    rcases Server.Good.look h (id := org) with ⟨o, st, o1, o2, o3, o4, o5, o6⟩ | ⟨h1, h2⟩
    · rw [o6]
      dsimp only
      have hsome : (byID db.lists p.id).isSome = (look db p.id).isSome := by
        rcases Server.Good.look h (id := p.id) with ⟨l, st, -, -, h3, -, -, h6⟩ | ⟨h1, h2⟩
        · rw [h3, h6]; rfl
        · rw [h1, h2]; rfl
      by_cases hcf : (look db p.id).isSome
      · have : handle env db (.clone org p) = (.conflict, []) := by
          show clone env db org p = _
          unfold clone
          rw [o3]
          dsimp only
          rw [if_pos (by rw [hsome]; exact hcf)]
        rw [hnil _ this, if_pos hcf]
        exact ⟨h, rfl, rfl⟩
      · rw [if_neg hcf]
        by_cases hp : p.populate.isSome
        · have : handle env db (.clone org p) = (.badRequest, []) := by
            show clone env db org p = _
            unfold clone
            rw [o3]
            dsimp only
            rw [if_neg (by rw [hsome]; exact hcf), if_pos hp]
          rw [hnil _ this, if_pos hp]
          exact ⟨h, rfl, rfl⟩
        · rw [if_neg hp]
          by_cases hbad : p.splitSize ≤ p.mergeSize ∨ p.set = []
          · have : handle env db (.clone org p) = (.failed, []) := by
              show clone env db org p = _
              unfold clone
              rw [o3]
              dsimp only
              rw [if_neg (by rw [hsome]; exact hcf), if_neg hp, if_pos]
              cases hacc : accepted p with
              | false => rfl
              | true => exact absurd hbad (accepted_iff.1 hacc)
            rw [hnil _ this, if_pos hbad]
            exact ⟨h, rfl, rfl⟩
          · rw [if_neg hbad]
            have hacc := accepted_iff.2 hbad
            obtain ⟨l1, l2⟩ := hlim o o1 o2 st o4
            obtain ⟨st', hcl⟩ := C20_clone_returns env.now p.mergeSize p.splitSize st (by omega)
            obtain ⟨c1, c2, c3, c4⟩ := C20_clone env.now p.mergeSize p.splitSize st st' o5 l1 l2 hcl
            have hh : handle env db (.clone org p) =
                (.ok, (cloneWrites (listing env p).ent st').map .blob ++ [.put (listing env p)]) := by
              show clone env db org p = _
              unfold clone
              rw [o3]
              dsimp only
              rw [if_neg (by rw [hsome]; exact hcf), if_neg hp, if_neg (by rw [hacc]; simp), o4]
              dsimp only
              rw [hcl]
            have hs : serve env db (.clone org p) = (.ok, { db with
                store := writes db.store (cloneWrites (listing env p).ent st')
                lists := listing env p :: db.lists.filter fun x => x.id != (listing env p).id }) := by
              unfold serve
              rw [hh]
              dsimp only
              rw [applyAll_append, applyAll_blobs]
              rfl
            have hr : reload (writes db.store (cloneWrites (listing env p).ent st')) (listing env p).ent = some st' := by
              unfold cloneWrites
              rw [← List.append_assoc, writes_append]
              exact ready_save hf.differ (new_stored db.store hf.differ c1) c3.symm c4.symm
            have hg := good_put (l := listing env p) (ws := cloneWrites (listing env p).ent st') h hf.differ hsz
              (fun x hx _ => hf.fresh x (List.mem_append_left _ hx))
              (by
                intro w hw
                left
                unfold names
                rcases parent_cloneWrites w hw with h1 | h1 <;> simp [h1]) hr c1
            rw [hs]
            refine ⟨hg.1, rfl, ?_⟩
            dsimp only
            rw [hg.2]
            show (look db).set p.id _ = _
            congr 2
            unfold viewOf seen
            rw [c2]
            rfl
    · rw [h2]
      have : handle env db (.clone org p) = (.notFound, []) := by
        show clone env db org p = _
        unfold clone
        rw [h1]
      rw [hnil _ this]
      exact ⟨h, rfl, rfl⟩
  | delete id =>
    unfold Means
    dsimp only
    rcases Server.Good.look h (id := id) with ⟨l, st, l1, l2, l3, -, -, -⟩ | ⟨h1, h2⟩
    · have hs : serve env db (.delete id) = (.ok, { db with
          store := writes db.store (deleteAll env.sch db.store l.ent)
          lists := db.lists.filter fun x => x.id != l.id }) := by
        unfold serve
        show ((Server.delete env db id).1, applyAll db (Server.delete env db id).2) = _
        unfold Server.delete
        rw [l3]
        dsimp only
        show (Answer.ok, applyAll (apply db (.drop id)) _) = _
        rw [applyAll_blobs, ← l2]
        rfl
      have hg := good_drop (ws := deleteAll env.sch db.store l.ent) h l1 parent_deleteAll
      rw [hs]
      refine ⟨hg.1, rfl, ?_⟩
      dsimp only
      rw [hg.2, l2]
    · have : handle env db (.delete id) = (.ok, []) := by
        show Server.delete env db id = _
        unfold Server.delete
        rw [h1]
      rw [hnil _ this]
      refine ⟨h, rfl, ?_⟩
      funext x
      unfold Lists.set
      split
      · rename_i hx; rw [hx, h2]
      · rfl
  | createElement id e =>
    unfold Means
    dsimp only
    rcases Server.Good.look h (id := id) with ⟨l, st, l1, l2, l3, l4, l5, l6⟩ | ⟨h1, h2⟩
    · rw [l6]
      have hids : ∀ v ∈ [e.id], v < 2 ^ 64 := by simpa using ha.id
      obtain ⟨-, g2, g3⟩ := Lists.getElements_spec (sch := env.sch) l5 hids 0
      have hiff : (Lists.getElements env.sch st [e.id] 0).length > 0 ↔ e.id ∈ st.content.map (·.id) := by
        constructor
        · intro hp
          obtain ⟨r, hr⟩ := List.exists_mem_of_length_pos hp
          obtain ⟨r1, r2⟩ := g2 r hr
          simp only [List.mem_singleton] at r2
          exact List.mem_map.2 ⟨r.elem, r1.mem, r2⟩
        · intro hm
          obtain ⟨x, hx, hxe⟩ := List.mem_map.1 hm
          obtain ⟨r, hr, -⟩ := g3 x hx (by simp [hxe])
          exact List.length_pos_of_mem hr
      have hh : handle env db (.createElement id e) =
          (if (Lists.getElements env.sch st [e.id] 0).length > 0 then (.conflict, [])
            else match Lists.insert env.now env.sch st (Elements.updateTime env.now [e]) with
              | none => (.stuck, [])
              | some _ => (.ok, (Disk.insert env.now env.sch l.ent st (Elements.updateTime env.now [e])).map .blob)) := by
        show withList db id _ = _
        unfold withList
        rw [l3]
        dsimp only
        rw [l4]
        rfl
      by_cases hex : e.id ∈ st.content.map (·.id)
      · rw [if_pos (hiff.2 hex)] at hh
        rw [hnil _ hh]
        dsimp only
        rw [if_pos (by exact hex)]
        exact ⟨h, rfl, rfl⟩
      · rw [if_neg (fun hx => hex (hiff.1 hx))] at hh
        obtain ⟨-, -, m1, m2⟩ := reload_iff.1 l4
        obtain ⟨st', hi⟩ := C15_insert_returns env.now env.sch st (Elements.updateTime env.now [e]) l5
          (by rw [← m2]; exact h.sizes l l1)
        rw [hi] at hh
        have hst : ∀ x ∈ Elements.updateTime env.now [e], Storable x := by
          intro x hx
          simp only [Elements.updateTime, List.map_cons, List.map_nil, List.mem_singleton] at hx
          subst hx
          exact ⟨ha.score, ha.id, ha.tie, hf.now.2⟩
        have hdd : DistinctIDs (st.content ++ Elements.updateTime env.now [e]) := by
          unfold DistinctIDs
          rw [List.map_append, List.nodup_append]
          refine ⟨l5.scores.distinct, by simp [Elements.updateTime], ?_⟩
          intro a hain b hb
          simp only [Elements.updateTime, List.map_cons, List.map_nil, List.mem_singleton] at hb
          intro hab
          rw [hab, hb] at hain
          exact hex hain
        obtain ⟨i1, i2, i3⟩ := C67_insert_durable env.now env.sch db.store l.ent st st' _ (h.own l l1) l4 l5 hst hdd hi
        have hg := good_change h l1 parent_insert i1 i2
        have hs : serve env db (.createElement id e) = (.ok, { db with
            store := writes db.store (Disk.insert env.now env.sch l.ent st (Elements.updateTime env.now [e])) }) := by
          unfold serve
          rw [hh]
          dsimp only
          rw [applyAll_blobs]
        rw [hs]
        dsimp only
        rw [if_neg (by exact hex)]
        refine ⟨hg.1, rfl, ?_⟩
        rw [hg.2, l2]
        congr 2
        unfold viewOf
        rw [i3]
        rfl
    · rw [h2]
      have : handle env db (.createElement id e) = (.notFound, []) := by
        show withList db id _ = _
        unfold withList
        rw [h1]
      rw [hnil _ this]
      exact ⟨h, rfl, rfl⟩
  | createElements id es =>
    unfold Means
    dsimp only
    rcases Server.Good.look h (id := id) with ⟨l, st, l1, l2, l3, l4, l5, l6⟩ | ⟨h1, h2⟩
    · rw [l6]
      have hc := chosen_before env.now es (fun e he => (ha e he).2)
      have hst := chosen_storable hc (fun e he => (ha e he).1) hf.now.2
      have hh : handle env db (.createElements id es) =
          (if (Lists.getElements env.sch st ((Elements.updateTime env.now (Elements.deduplicate es).1).map (·.id)) 0).length > 0
            then (.conflict, [])
            else match Lists.insert env.now env.sch st (Elements.updateTime env.now (Elements.deduplicate es).1) with
              | none => (.stuck, [])
              | some _ => (.ok, (Disk.insert env.now env.sch l.ent st
                  (Elements.updateTime env.now (Elements.deduplicate es).1)).map .blob)) := by
        show withList db id _ = _
        unfold withList
        rw [l3]
        dsimp only
        rw [l4]
        rfl
      generalize Elements.updateTime env.now (Elements.deduplicate es).1 = es' at hc hst hh
      have hids : ∀ v ∈ es'.map (·.id), v < 2 ^ 64 := by
        intro v hv
        obtain ⟨e, he, rfl⟩ := List.mem_map.1 hv
        exact (hst e he).id
      obtain ⟨-, g2, g3⟩ := Lists.getElements_spec (sch := env.sch) l5 hids 0
      have hiff : (Lists.getElements env.sch st (es'.map (·.id)) 0).length > 0 ↔ ∃ e ∈ es, e.id ∈ st.content.map (·.id) := by
        constructor
        · intro hp
          obtain ⟨r, hr⟩ := List.exists_mem_of_length_pos hp
          obtain ⟨r1, r2⟩ := g2 r hr
          obtain ⟨e, he, hee⟩ := List.mem_map.1 r2
          obtain ⟨x, hx, rfl⟩ := hc.given e he
          exact ⟨x, hx, List.mem_map.2 ⟨r.elem, r1.mem, hee.symm⟩⟩
        · rintro ⟨x, hx, hm⟩
          obtain ⟨e, he, hee, -⟩ := hc.all x hx
          obtain ⟨y, hy, hye⟩ := List.mem_map.1 hm
          obtain ⟨r, hr, -⟩ := g3 y hy (List.mem_map.2 ⟨e, he, by rw [hee]; exact hye.symm⟩)
          exact List.length_pos_of_mem hr
      by_cases hex : ∃ e ∈ es, e.id ∈ st.content.map (·.id)
      · rw [if_pos (hiff.2 hex)] at hh
        rw [hnil _ hh]
        dsimp only
        rw [if_pos (by exact hex)]
        exact ⟨h, rfl, rfl⟩
      · rw [if_neg (fun hx => hex (hiff.1 hx))] at hh
        obtain ⟨-, -, m1, m2⟩ := reload_iff.1 l4
        obtain ⟨st', hi⟩ := C15_insert_returns env.now env.sch st es' l5 (by rw [← m2]; exact h.sizes l l1)
        rw [hi] at hh
        have hdd : DistinctIDs (st.content ++ es') := by
          unfold DistinctIDs
          rw [List.map_append, List.nodup_append]
          refine ⟨l5.scores.distinct, hc.distinct, ?_⟩
          intro a hain b hb hab
          obtain ⟨e, he, hee⟩ := List.mem_map.1 hb
          obtain ⟨x, hx, rfl⟩ := hc.given e he
          exact hex ⟨x, hx, by rw [hab, ← hee] at hain; exact hain⟩
        obtain ⟨i1, i2, i3⟩ := C67_insert_durable env.now env.sch db.store l.ent st st' _ (h.own l l1) l4 l5 hst hdd hi
        have hg := good_change h l1 parent_insert i1 i2
        have hs : serve env db (.createElements id es) = (.ok, { db with
            store := writes db.store (Disk.insert env.now env.sch l.ent st es') }) := by
          unfold serve
          rw [hh]
          dsimp only
          rw [applyAll_blobs]
        rw [hs]
        dsimp only
        rw [if_neg (by exact hex)]
        refine ⟨hg.1, rfl, es', hc, ?_⟩
        rw [hg.2, l2]
        congr 2
        unfold viewOf
        rw [i3]
    · rw [h2]
      have : handle env db (.createElements id es) = (.notFound, []) := by
        show withList db id _ = _
        unfold withList
        rw [h1]
      rw [hnil _ this]
      exact ⟨h, rfl, rfl⟩
  | putElements id es =>
    unfold Means
    dsimp only
    rcases Server.Good.look h (id := id) with ⟨l, st, l1, l2, l3, l4, l5, l6⟩ | ⟨h1, h2⟩
    · rw [l6]
      have hc := dedup_chosen env.now es
      generalize hes' : (Elements.deduplicate (Elements.updateTime env.now es)).1 = es' at hc
      have hstamp : es'.map (stamp env.now) = es' := by
        conv => rhs; rw [← List.map_id es']
        apply List.map_congr_left
        intro e he
        obtain ⟨x, hx, rfl⟩ := hc.given e he
        unfold stamp
        rw [if_neg (by show ¬ env.now = 0; have := hf.now.1; omega)]
        rfl
      obtain ⟨u1, u2⟩ := C67_update_durable env.now env.sch db.store l.ent st es' (h.own l l1) l4 l5
        (chosen_storable hc ha hf.now.2) hc.distinct hf.now.2
      obtain ⟨u3, -⟩ := C16_update_upserts env.now env.sch st es' l5 (chosen_storable hc ha hf.now.2) hc.distinct hf.now.2
      have hg := good_change h l1 parent_updateElements u1 u3
      have hs : serve env db (.putElements id es) = (.ok, { db with
          store := writes db.store (Disk.updateElements env.now env.sch l.ent st es') }) := by
        unfold serve
        have hh : handle env db (.putElements id es) = (.ok, (Disk.updateElements env.now env.sch l.ent st es').map .blob) := by
          show withList db id _ = _
          unfold withList
          rw [l3]
          dsimp only
          rw [l4, ← hes']
        rw [hh]
        dsimp only
        rw [applyAll_blobs]
      rw [hs]
      refine ⟨hg.1, rfl, es', hc, ?_⟩
      dsimp only
      rw [hg.2, l2]
      congr 2
      unfold viewOf
      rw [u2, hstamp]
    · rw [h2]
      have : handle env db (.putElements id es) = (.notFound, []) := by
        show withList db id _ = _
        unfold withList
        rw [h1]
      rw [hnil _ this]
      exact ⟨h, rfl, rfl⟩
  | deleteElements id ids =>
    unfold Means
    dsimp only
    rcases Server.Good.look h (id := id) with ⟨l, st, l1, l2, l3, l4, l5, l6⟩ | ⟨h1, h2⟩
    · rw [l6]
      obtain ⟨u1, u2⟩ := C67_delete_durable env.now env.sch db.store l.ent st ids (h.own l l1) l4 l5 ha
      obtain ⟨u3, -⟩ := C17_delete env.now env.sch st ids l5 ha
      have hg := good_change h l1 parent_deleteElements u1 u3
      have hs : serve env db (.deleteElements id ids) = (.ok, { db with
          store := writes db.store (Disk.deleteElements env.now env.sch l.ent st ids) }) := by
        unfold serve
        have hh : handle env db (.deleteElements id ids) = (.ok, (Disk.deleteElements env.now env.sch l.ent st ids).map .blob) := by
          show withList db id _ = _
          unfold withList
          rw [l3]
          dsimp only
          rw [l4]
        rw [hh]
        dsimp only
        rw [applyAll_blobs]
      rw [hs]
      refine ⟨hg.1, rfl, ?_⟩
      dsimp only
      rw [hg.2, l2]
      congr 2
      unfold viewOf
      rw [u2]
    · rw [h2]
      have : handle env db (.deleteElements id ids) = (.notFound, []) := by
        show withList db id _ = _
        unfold withList
        rw [h1]
      rw [hnil _ this]
      exact ⟨h, rfl, rfl⟩
  | reindex id =>
    unfold Means
    dsimp only
    rcases Server.Good.look h (id := id) with ⟨l, st, l1, l2, l3, l4, l5, l6⟩ | ⟨h1, h2⟩
    · rw [l6]
      obtain ⟨-, -, m1, m2⟩ := reload_iff.1 l4
      obtain ⟨st', hi⟩ := C19_reindex_returns env.now env.sch st (by have := h.sizes l l1; omega)
      have hfr := hf.fresh l (List.mem_append_left _ l1)
      have hne1 : l.ent.scores ≠ env.index := fun he => hfr.2 (by simp [names, he])
      have hne2 : env.index ≠ l.ent.index := fun he => hfr.2 (by simp [names, he])
      obtain ⟨i1, i2, i3⟩ := C67_reindex_durable env.now env.sch db.store l.ent { l.ent with index := env.index } st st' l4 l5 rfl
        hne1 hne2 (h.own l l1) rfl rfl (ha l l1 l2 st l4) hi
      have hs : serve env db (.reindex id) = (.ok, { db with
          store := writes db.store (Disk.reindex env.now env.sch l.ent { l.ent with index := env.index } st)
          lists := { l with ent := { l.ent with index := env.index } } :: db.lists.filter fun x => x.id != l.id }) := by
        unfold serve
        have hh : handle env db (.reindex id) = (.ok, (Disk.reindex env.now env.sch l.ent { l.ent with index := env.index } st).map .blob ++
            [.put { l with ent := { l.ent with index := env.index } }]) := by
          show withList db id _ = _
          unfold withList
          rw [l3]
          dsimp only
          rw [l4]
          dsimp only
          rw [hi]
        rw [hh]
        dsimp only
        rw [applyAll_append, applyAll_blobs]
        rfl
      have hg := good_put (l := { l with ent := { l.ent with index := env.index } })
        (ws := Disk.reindex env.now env.sch l.ent { l.ent with index := env.index } st) h hne1 (h.sizes l l1)
        (fun x hx hxl => ⟨fun hm => hxl (h.names x hx l l1 _ hm (by simp [names])), (hf.fresh x (List.mem_append_left _ hx)).2⟩)
        (by
          intro w hw
          rcases parent_reindex (by rfl) w hw with h1 | h1 | h1
          · exact .inl (by simp [names, h1])
          · exact .inr ⟨l, l1, rfl, by simp [names, h1]⟩
          · exact .inl (by simp [names, h1]))
        i1 i2
      rw [hs]
      refine ⟨hg.1, by simp, ?_⟩
      dsimp only
      rw [hg.2]
      dsimp only
      rw [l2]
      funext x
      unfold Lists.set
      split
      · rename_i hx; rw [hx, l6]; unfold viewOf; rw [i3]
      · rfl
    · rw [h2]
      have : handle env db (.reindex id) = (.notFound, []) := by
        show withList db id _ = _
        unfold withList
        rw [h1]
      rw [hnil _ this]
      exact ⟨h, rfl, rfl⟩
  | repair id =>
    unfold Means
    dsimp only
    rcases Server.Good.look h (id := id) with ⟨l, st, l1, l2, l3, l4, l5, l6⟩ | ⟨h1, h2⟩
    · rw [l6]
      obtain ⟨-, -, m1, m2⟩ := reload_iff.1 l4
      have hlim := ha l l1 l2 st l4
      obtain ⟨st', hi⟩ := C31_repair_returns env.now env.sch env.shuffle env.reduce (fun _ => false) st
        (fun s hs _ e he => l5.scores.storable e (mem_allElems.2 ⟨s, hs, he⟩)) hlim hf.reduce
        (by rw [← m2]; exact h.sizes l l1)
      obtain ⟨i2, i3⟩ := C31_repair_wellformed env.now env.sch env.shuffle env.reduce st st' l5 hlim hi
      have hfr := hf.fresh l (List.mem_append_left _ l1)
      generalize hnew : { l.ent with scores := env.scores, index := env.index } = new at *
      have hn1 : new.scores = env.scores := by rw [← hnew]
      have hn2 : new.index = env.index := by rw [← hnew]
      have hn3 : new.mergeSize = l.ent.mergeSize := by rw [← hnew]
      have hn4 : new.splitSize = l.ent.splitSize := by rw [← hnew]
      have i1 : reload (writes db.store (repairWrites env.now env.sch env.shuffle env.reduce l.ent new st)) new = some st' := by
        unfold repairWrites
        have hpop := hi
        unfold Lists.repair at hpop
        have hfil : st.scores.segs.filter (fun _ => true) = st.scores.segs := List.filter_eq_self.2 (fun _ _ => rfl)
        simp only [Bool.not_false, hfil] at hpop
        rw [← m1, ← m2] at hpop
        obtain ⟨-, d2, d3, -, -⟩ := Elements.deduplicate_spec (st.scores.segs.flatMap fun s => (Elements.deduplicate s.elems).1)
        have hin : ∀ e ∈ (Elements.deduplicate (st.scores.segs.flatMap fun s => (Elements.deduplicate s.elems).1)).1, e ∈ st.content := by
          intro e he
          obtain ⟨s, hs, hes⟩ := List.mem_flatMap.1 (d3 e he)
          exact mem_allElems.2 ⟨s, hs, (Elements.deduplicate_spec s.elems).2.2.1 e hes⟩
        refine populate_reload db.store (by rw [hn1, hn2]; exact hf.differ) hn3 hn4 hpop d2 (fun e he => l5.scores.storable e (hin e he)) ?_
        have : ((Elements.deduplicate (st.scores.segs.flatMap fun s => (Elements.deduplicate s.elems).1)).1.map (·.id)).length
            ≤ (st.content.map (·.id)).length := by
          apply nodup_length_le d2
          intro i hid
          obtain ⟨e, he, rfl⟩ := List.mem_map.1 hid
          exact List.mem_map.2 ⟨e, hin e he, rfl⟩
        simp only [List.length_map] at this
        omega
      have hs : serve env db (.repair id) = (.ok, { db with
          store := writes db.store (repairWrites env.now env.sch env.shuffle env.reduce l.ent new st)
          lists := { l with ent := new } :: db.lists.filter fun x => x.id != l.id }) := by
        unfold serve
        have hh : handle env db (.repair id) = (.ok, (repairWrites env.now env.sch env.shuffle env.reduce l.ent new st).map .blob ++
            [.put { l with ent := new }]) := by
          show withList db id _ = _
          unfold withList
          rw [l3]
          dsimp only
          rw [l4]
          dsimp only
          rw [hi, hnew]
        rw [hh]
        dsimp only
        rw [applyAll_append, applyAll_blobs]
        rfl
      have hg := good_put (l := { l with ent := new })
        (ws := repairWrites env.now env.sch env.shuffle env.reduce l.ent new st) h (by show new.scores ≠ new.index; rw [hn1, hn2]; exact hf.differ)
        (by show 4 ≤ new.splitSize; rw [hn4]; exact h.sizes l l1)
        (fun x hx hxl => by
          show new.scores ∉ _ ∧ new.index ∉ _
          rw [hn1, hn2]
          exact hf.fresh x (List.mem_append_left _ hx))
        (by
          intro w hw
          rcases parent_populate w hw with (h1 | h1) | (h1 | h1)
          · exact .inr ⟨l, l1, rfl, by simp [names, h1]⟩
          · exact .inr ⟨l, l1, rfl, by simp [names, h1]⟩
          · exact .inl (by simp [names, h1])
          · exact .inl (by simp [names, h1]))
        i1 i2
      rw [hs]
      refine ⟨hg.1, by simp, ?_⟩
      dsimp only
      rw [hg.2]
      dsimp only
      rw [l2]
      funext x
      unfold Lists.set
      split
      · rename_i hx; rw [hx, l6]; unfold viewOf; rw [i3]; dsimp only; rw [hn3, hn4]
      · rfl
    · rw [h2]
      have : handle env db (.repair id) = (.notFound, []) := by
        show withList db id _ = _
        unfold withList
        rw [h1]
      rw [hnil _ this]
      exact ⟨h, rfl, rfl⟩
  | split id merge =>
    unfold Means
    dsimp only
    rcases Server.Good.look h (id := id) with ⟨l, st, l1, l2, l3, l4, l5, l6⟩ | ⟨h1, h2⟩
    · rw [l6]
      obtain ⟨a1, a2⟩ := ha l l1 l2 st l4
      obtain ⟨u1, u2, u3⟩ := C67_split_durable env.now merge env.sch db.store l.ent st (h.own l l1) l4 l5 hf.now.2 a1 a2
      have hg := good_change h l1 (parent_split (merge := merge) (sch := env.sch) (h.own l l1) l4 l5 hf.now.2) u1 u2
      have hs : serve env db (.split id merge) = (.ok, { db with
          store := writes db.store (Disk.split env.now merge env.sch l.ent st) }) := by
        unfold serve
        have hh : handle env db (.split id merge) = (.ok, (Disk.split env.now merge env.sch l.ent st).map .blob) := by
          show withList db id _ = _
          unfold withList
          rw [l3]
          dsimp only
          rw [l4]
        rw [hh]
        dsimp only
        rw [applyAll_blobs]
      rw [hs]
      refine ⟨hg.1, by simp, ?_⟩
      dsimp only
      rw [hg.2, l2]
      funext x
      unfold Lists.set
      split
      · rename_i hx; rw [hx, l6]; unfold viewOf; rw [u3]
      · rfl
    · rw [h2]
      have : handle env db (.split id merge) = (.notFound, []) := by
        show withList db id _ = _
        unfold withList
        rw [h1]
      rw [hnil _ this]
      exact ⟨h, rfl, rfl⟩
  | save =>
    refine ⟨⟨h.ids, h.own, h.names, h.readable, h.sizes⟩, rfl, rfl⟩

/-! ### Histories -/

/-- Any history of requests, from any server in good order: all answers and the lists afterwards are what the
specification gives, request by request. -/
theorem C70_history (db : Db) (rs : List (Env × Request)) (h : Good db) (hr : Ready db rs) :
    Good (serveAll db rs).2 ∧
    MeansAll (look db) (rs.map fun x => (x.1.now, x.2)) (serveAll db rs).1 (look (serveAll db rs).2) := by
  induction rs generalizing db with
  | nil => exact ⟨h, rfl, rfl⟩
  | cons x rs ih =>
    obtain ⟨env, r⟩ := x
    obtain ⟨h1, h2, h3⟩ := hr
    obtain ⟨g1, g2⟩ := C70_request env db r h h1 h2
    obtain ⟨i1, i2⟩ := ih _ g1 h3
    exact ⟨i1, _, _, _, rfl, g2, i2⟩

theorem noLists_good : Good noLists :=
  ⟨by simp [noLists], by simp [noLists], by simp [noLists], by simp [noLists], by simp [noLists]⟩

/-- Starting with nothing: the server is a map from list IDs to rankings, whatever happens. -/
theorem C70_from_nothing (rs : List (Env × Request)) (hr : Ready noLists rs) :
    MeansAll (fun _ => none) (rs.map fun x => (x.1.now, x.2)) (serveAll noLists rs).1 (look (serveAll noLists rs).2) := by
  have := (C70_history noLists rs noLists_good hr).2
  have h0 : look noLists = fun _ => none := by funext id; rfl
  rwa [h0] at this

/-- What a request means is about one list. -/
theorem means_other {now : Nat} {L L' : Spec.Lists} {r : Request} {a : Answer} {id : Str} (hm : Means now L r a L')
    (hid : target r ≠ some id) : L' id = L id := by
  have hset : ∀ (i : Str) (v : Option Seen), some i ≠ some id → L.set i v id = L id := by
    intro i v hi
    unfold Lists.set
    rw [if_neg]
    intro he; exact hi (by rw [he])
  cases r with
  | create replace p =>
    simp only [Means] at hm
    split at hm
    · rw [hm.2]
    · split at hm
      · rw [hm.2]
      · obtain ⟨-, es, -, hm⟩ := hm
        rw [hm]; exact hset _ _ hid
  | clone org p =>
    simp only [Means] at hm
    split at hm
    · rw [hm.2]
    · repeat' split at hm
      all_goals rw [hm.2]
      exact hset _ _ hid
  | delete i => rw [hm.2]; exact hset _ _ hid
  | createElement i e =>
    simp only [Means] at hm
    split at hm
    · rw [hm.2]
    · split at hm
      all_goals rw [hm.2]
      exact hset _ _ hid
  | createElements i es =>
    simp only [Means] at hm
    split at hm
    · rw [hm.2]
    · split at hm
      · rw [hm.2]
      · obtain ⟨-, es, -, hm⟩ := hm
        rw [hm]; exact hset _ _ hid
  | putElements i es =>
    simp only [Means] at hm
    split at hm
    · rw [hm.2]
    · obtain ⟨-, es, -, hm⟩ := hm
      rw [hm]; exact hset _ _ hid
  | deleteElements i es =>
    simp only [Means] at hm
    split at hm
    · rw [hm.2]
    · rw [hm.2]; exact hset _ _ hid
  | reindex i => rw [hm.2]
  | repair i => rw [hm.2]
  | split i m => rw [hm.2]
  | save => rw [hm.2]

/-- A request changes at most the list that it is about. -/
theorem C70_others (env : Env) (db : Db) (r : Request) (id : Str) (h : Good db) (hf : Fits env db) (ha : Spec.Allowed db r)
    (hid : target r ≠ some id) : look (serve env db r).2 id = look db id :=
  means_other (C70_request env db r h hf ha).2 hid

/-! ### Creating and cloning -/

/-- Creating a list with an ID in use is refused unless replacing was asked for, and then nothing at all is
changed, neither in memory nor in the storage. -/
theorem C69_conflict (env : Env) (db : Db) (p : Payload) (h : Good db) (hid : (look db p.id).isSome) :
    serve env db (.create false p) = (.conflict, db) := by
  have hsome : (byID db.lists p.id).isSome := by
    rcases Server.Good.look h (id := p.id) with ⟨l, st, -, -, h3, -, -, h6⟩ | ⟨h1, h2⟩
    · rw [h3]; rfl
    · rw [h2] at hid; simp at hid
  have : handle env db (.create false p) = (.conflict, []) := by
    show create env db false p = _
    unfold create
    rw [if_pos (by rw [hsome]; rfl)]
  unfold serve
  rw [this]
  rfl

/-- Creating or replacing a list with usable options: the list has the given elements, with the lowest score if an
ID was given more than once, and all other lists are as before. -/
theorem C69_create (env : Env) (db : Db) (replace : Bool) (p : Payload) (h : Good db) (hf : Fits env db)
    (ha : Spec.Allowed db (.create replace p)) (hfree : (look db p.id).isNone ∨ replace = true) (hsize : p.mergeSize < p.splitSize)
    (hset : p.set ≠ []) :
    (serve env db (.create replace p)).1 = .ok ∧
    (∃ es, Chosen env.now (p.populate.getD []) es ∧
      look (serve env db (.create replace p)).2 p.id = some (seen p (ranking es))) ∧
    ∀ id, id ≠ p.id → look (serve env db (.create replace p)).2 id = look db id := by
  have hm := (C70_request env db _ h hf ha).2
  simp only [Means] at hm
  rw [if_neg, if_neg] at hm
  · obtain ⟨h1, es, h2, h3⟩ := hm
    refine ⟨h1, ⟨es, h2, ?_⟩, ?_⟩
    · rw [h3]; simp [Lists.set]
    · intro id hne
      rw [h3]; simp [Lists.set, hne]
  · rintro (h1 | h1)
    · omega
    · exact hset h1
  · rintro ⟨h1, h2⟩
    rcases hfree with h3 | h3
    · rw [Option.isNone_iff_eq_none] at h3; rw [h3] at h1; simp at h1
    · rw [h3] at h2; simp at h2

/-- Cloning never replaces a list. -/
theorem C69_clone_conflict (env : Env) (db : Db) (org : Str) (p : Payload) (h : Good db) (horg : (look db org).isSome)
    (hid : (look db p.id).isSome) : serve env db (.clone org p) = (.conflict, db) := by
  have hin : ∀ id, (look db id).isSome → (byID db.lists id).isSome := by
    intro id hid
    rcases Server.Good.look h (id := id) with ⟨l, st, -, -, h3, -, -, h6⟩ | ⟨h1, h2⟩
    · rw [h3]; rfl
    · rw [h2] at hid; simp at hid
  obtain ⟨o, ho⟩ := Option.isSome_iff_exists.1 (hin org horg)
  have : handle env db (.clone org p) = (.conflict, []) := by
    show clone env db org p = _
    unfold clone
    rw [ho]
    dsimp only
    rw [if_pos (hin p.id hid)]
  unfold serve
  rw [this]
  rfl

/-- Cloning a list to a free ID: the copy has exactly the elements of the original with the new options, and the
original and all other lists are as before. -/
theorem C69_clone (env : Env) (db : Db) (org : Str) (o : Seen) (p : Payload) (h : Good db) (hf : Fits env db)
    (ha : Spec.Allowed db (.clone org p)) (horg : look db org = some o) (hfree : look db p.id = none)
    (hpop : p.populate = none) (hsize : p.mergeSize < p.splitSize) (hset : p.set ≠ []) :
    (serve env db (.clone org p)).1 = .ok ∧
    look (serve env db (.clone org p)).2 p.id = some (seen p o.content) ∧
    look (serve env db (.clone org p)).2 org = some o ∧
    ∀ id, id ≠ p.id → look (serve env db (.clone org p)).2 id = look db id := by
  have hm := (C70_request env db _ h hf ha).2
  simp only [Means] at hm
  rw [horg] at hm
  dsimp only at hm
  rw [if_neg (by rw [hfree]; simp), if_neg (by rw [hpop]; simp), if_neg] at hm
  · have hoth : ∀ id, id ≠ p.id → look (serve env db (.clone org p)).2 id = look db id := by
      intro id hne
      rw [hm.2]; simp [Lists.set, hne]
    refine ⟨hm.1, ?_, ?_, hoth⟩
    · rw [hm.2]; simp [Lists.set]
    · rw [hoth org, horg]
      intro he
      rw [he, hfree] at horg
      simp at horg
  · rintro (h1 | h1)
    · omega
    · exact hset h1

/-- Deleting a list removes it, and no other. -/
theorem C69_delete (env : Env) (db : Db) (id : Str) (h : Good db) (hf : Fits env db) :
    look (serve env db (.delete id)).2 id = none ∧
    ∀ x, x ≠ id → look (serve env db (.delete id)).2 x = look db x := by
  have hm := (C70_request env db (.delete id) h hf trivial).2
  simp only [Means] at hm
  refine ⟨by rw [hm.2]; simp [Lists.set], fun x hx => by rw [hm.2]; simp [Lists.set, hx]⟩

/-! ### An example -/

/-- A list in use. -/
def exListing : Listing := { id := [65], set := [1], metadata := none, loadIndex := false, ent := exEntry }

/-- A server with this list. -/
def exDb : Db := { store := exStore, lists := [exListing], file := [exListing] }

/-- The environment of a request. -/
def exEnv : Env :=
  { now := 300, sch := .reversed, shuffle := .inOrder, reduce := fun n => n, scores := [120], index := [121] }

/-- Further names. -/
def exEnv2 : Env := { exEnv with now := 301, scores := [122], index := [123] }

/-- A list that is to be created. -/
def exPayload : Payload :=
  { id := [66], set := [1], metadata := none, mergeSize := 2, splitSize := 4, loadIndex := true
    populate := some [⟨5, 1, [7], 0, 0⟩, ⟨9, 2, [], 0, 0⟩, ⟨3, 1, [8], 0, 0⟩, ⟨9, 3, [], 1, 0⟩] }

theorem exDb_good : Good exDb := by
  refine ⟨by decide, by decide, ?_, ?_, by decide⟩
  · intro l hl l' hl' _ _ _
    simp only [exDb, List.mem_singleton] at hl hl'
    rw [hl, hl']
  · intro l hl
    simp only [exDb, List.mem_singleton] at hl
    rw [hl]
    exact ⟨exList, exStore_reload, exList_ok⟩

theorem exEnv_fits : Fits exEnv exDb := ⟨by decide, by decide, by decide, fun _ h => h⟩

example : Good exDb ∧ Fits exEnv exDb ∧ Spec.Allowed exDb (.create false exPayload) ∧ (look exDb exPayload.id).isNone ∧
    exPayload.mergeSize < exPayload.splitSize ∧ exPayload.set ≠ [] ∧ (look exDb [65]).isSome :=
  ⟨exDb_good, exEnv_fits, by unfold Spec.Allowed; decide +kernel, by decide +kernel, by decide, by decide, by decide +kernel⟩

/-- The created list has element 1 once, with the lower score. -/
example : ((look (serve exEnv exDb (.create false exPayload)).2 [66]).map fun s => s.content.map fun e => (e.id, e.score, e.updated)) =
    some [(3, 9, 300), (2, 9, 300), (1, 3, 300)] := by decide +kernel

/-- Environments with names of their own. -/
def exEnvAt (k : Nat) : Env := { exEnv with now := 300 + k, scores := [200, k.toUInt8], index := [201, k.toUInt8] }

/-- A history with creates, updates, a clone, a deletion and jobs. -/
def exHistory : List (Env × Request) :=
  [(exEnvAt 1, .create false exPayload), (exEnvAt 2, .putElements [65] [⟨99, 6, [], 0, 0⟩, ⟨1, 77, [], 0, 0⟩]),
   (exEnvAt 3, .clone [65] { exPayload with id := [67], populate := none }), (exEnvAt 4, .split [66] true),
   (exEnvAt 5, .deleteElements [67] [6]), (exEnvAt 6, .delete [65]), (exEnvAt 7, .save),
   (exEnvAt 8, .createElement [67] ⟨8, 6, [], 0, 0⟩), (exEnvAt 9, .repair [67]), (exEnvAt 10, .reindex [66]),
   (exEnvAt 11, .createElement [65] ⟨8, 6, [], 0, 0⟩)]

/-- A test for the conditions on a history. -/
def readyTest (db : Db) : List (Env × Request) → Bool
  | [] => true
  | (env, r) :: rs =>
    decide (0 < env.now ∧ env.now < 2 ^ 32 - 1) && decide (env.scores ≠ env.index) &&
    ((db.lists ++ db.file).all fun l => decide (env.scores ∉ names l ∧ env.index ∉ names l)) &&
    (match r with
      | .create _ p => decide (4 ≤ p.splitSize) && decide (∀ e ∈ p.populate.getD [], Storable e) &&
          decide ((p.populate.getD []).length + 2 ≤ 2 ^ 32)
      | .clone _ p => decide (4 ≤ p.splitSize) && db.lists.all fun l => (reload db.store l.ent).all fun st =>
          decide (st.content.length + 2 ≤ 2 ^ 32 ∧ st.scores.segs.length + 1 ≤ 2 ^ 32)
      | .createElement _ e => decide (Storable e)
      | .createElements _ es => decide (∀ e ∈ es, Storable e ∧ e.updated = 0)
      | .putElements _ es => decide (∀ e ∈ es, Storable e)
      | .deleteElements _ ids => decide (∀ v ∈ ids, v < 2 ^ 64)
      | .reindex _ | .repair _ => db.lists.all fun l => (reload db.store l.ent).all fun st =>
          decide (st.content.length + 2 ≤ 2 ^ 32)
      | .split _ _ => db.lists.all fun l => (reload db.store l.ent).all fun st =>
          decide (st.scores.nextID ≤ 2 ^ 31 ∧ st.index.nextID ≤ 2 ^ 31)
      | .delete _ | .save => true) &&
    readyTest (serve env db r).2 rs

theorem ready_of_test (db : Db) (rs : List (Env × Request)) (hred : ∀ x ∈ rs, x.1.reduce = fun n => n)
    (h : readyTest db rs = true) : Ready db rs := by
  induction rs generalizing db with
  | nil => trivial
  | cons x rs ih =>
    obtain ⟨env, r⟩ := x
    unfold readyTest at h
    simp only [Bool.and_eq_true, decide_eq_true_eq, List.all_eq_true] at h
    obtain ⟨⟨⟨⟨h1, h2⟩, h3⟩, h4⟩, h5⟩ := h
    refine ⟨⟨h1, h2, h3, ?_⟩, ?_, ih _ (fun x hx => hred x (List.mem_cons_of_mem _ hx)) h5⟩
    · intro n hn
      rw [hred _ List.mem_cons_self]; exact hn
    · have hst : ∀ (P : ListState → Prop) [DecidablePred P],
          (∀ l ∈ db.lists, (reload db.store l.ent).all (fun st => decide (P st)) = true) →
          ∀ (id : Str), ∀ l ∈ db.lists, l.id = id → ∀ st, reload db.store l.ent = some st → P st := by
        intro P _ hP id l hl _ st hst
        have := hP l hl
        rw [hst] at this
        simpa using this
      cases r with
      | create _ p =>
        simp only [Bool.and_eq_true, decide_eq_true_eq] at h4
        exact ⟨h4.1.1, h4.1.2, h4.2⟩
      | clone org p =>
        simp only [Bool.and_eq_true, decide_eq_true_eq, List.all_eq_true] at h4
        exact ⟨h4.1, hst _ h4.2 org⟩
      | createElement _ e => simp only [decide_eq_true_eq] at h4; exact h4
      | createElements _ es => simp only [decide_eq_true_eq] at h4; exact h4
      | putElements _ es => simp only [decide_eq_true_eq] at h4; exact h4
      | deleteElements _ ids => simp only [decide_eq_true_eq] at h4; exact h4
      | reindex id => simp only [List.all_eq_true] at h4; exact hst _ h4 id
      | repair id => simp only [List.all_eq_true] at h4; exact hst _ h4 id
      | split id _ => simp only [List.all_eq_true] at h4; exact hst _ h4 id
      | delete _ => trivial
      | save => trivial

theorem exHistory_ready : Ready exDb exHistory :=
  ready_of_test _ _ (by
    intro x hx
    simp only [exHistory, List.mem_cons, List.not_mem_nil, or_false] at hx
    rcases hx with h | h | h | h | h | h | h | h | h | h | h <;> (rw [h]; rfl)) (by decide +kernel)

/-- What becomes of it. -/
example : Good exDb ∧ Ready exDb exHistory ∧
    (serveAll exDb exHistory).1 = [.ok, .ok, .ok, .ok, .ok, .ok, .ok, .ok, .ok, .ok, .notFound] ∧
    ([[65], [66], [67]].map fun id => (look (serveAll exDb exHistory).2 id).map fun s => s.content.map (·.id)) =
      [none, some [3, 2, 1], some [3, 1, 2, 9, 5, 8, 7, 4, 6, 77]] :=
  ⟨exDb_good, exHistory_ready, by decide +kernel, by decide +kernel⟩

/-- The same with a server without lists. -/
example : Ready noLists [(exEnvAt 1, .create false exPayload), (exEnvAt 2, .clone [66] { exPayload with id := [67], populate := none })] :=
  ready_of_test _ _ (by
    intro x hx
    simp only [List.mem_cons, List.not_mem_nil, or_false] at hx
    rcases hx with h | h <;> (rw [h]; rfl)) (by decide +kernel)

end RankDB.Props

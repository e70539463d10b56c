import Verif.Proofs.Tidy
import Verif.Props.Restart
/-
C107: no blob is left in the storage that belongs to no list.
-/
namespace RankDB.Props
open Spec Server Disk

/-! ### Requests -/

theorem tidy_withList {env : Env} {db : Db} {r : Request} {id : Str} {f : Listing → ListState → Answer × List Effect} (h : Tidy db)
    (hh : handle env db r = withList db id f)
    (hf : ∀ l st, l ∈ db.lists → l.id = id → reload db.store l.ent = some st → Tidy (applyAll db (f l st).2)) :
    Tidy (serve env db r).2 := by
  show Tidy (applyAll db (handle env db r).2)
  rw [hh]
  unfold withList
  cases hb : byID db.lists id with
  | none => exact h
  | some l =>
    obtain ⟨h1, h2⟩ := byID_mem hb
    dsimp only
    cases hr : reload db.store l.ent with
    | none => exact h
    | some st => exact hf l st h1 h2 hr

/-- The names of a request are not in use, so there is nothing under them. -/
theorem tidy_fresh {env : Env} {db : Db} (h : Tidy db) (hf : Fits env db) : Gone db.store env.scores ∧ Gone db.store env.index :=
  ⟨Tidy.gone h fun l hl => (hf.fresh l (List.mem_append_left _ hl)).1,
    Tidy.gone h fun l hl => (hf.fresh l (List.mem_append_left _ hl)).2⟩

/-- Requests leave no blob that belongs to no list. -/
theorem C107_request (env : Env) (db : Db) (r : Request) (h : Good db) (ht : Tidy db) (hf : Fits env db) (ha : Spec.Allowed db r) :
    Tidy (serve env db r).2 := by
  have hgood := (C70_request env db r h hf ha).1
  obtain ⟨fs, fi⟩ := tidy_fresh ht hf
  cases r with
  | create replace p =>
    obtain ⟨hsz, hst, hlen⟩ := ha
    have hc := initial_chosen env p
    have hh : (handle env db (.create replace p)).2 = (create env db replace p).2 := rfl
    unfold serve at hgood ⊢
    rw [hh] at hgood ⊢
    unfold create at hgood ⊢
    dsimp only at hgood ⊢
    split
    · exact ht
    · rename_i hcf
      rw [if_neg hcf] at hgood
      split
      · exact ht
      · rename_i hacc
        rw [if_neg hacc] at hgood
        cases hpop : Lists.populate env.now env.sch env.shuffle env.reduce p.mergeSize p.splitSize (initial env p) with
        | none => exact ht
        | some st' =>
          rw [hpop] at hgood
          dsimp only at hgood ⊢
          have hfresh : ∀ x ∈ db.lists, (listing env p).ent.scores ∉ names x ∧ (listing env p).ent.index ∉ names x :=
            fun x hx => hf.fresh x (List.mem_append_left _ hx)
          have hnew : reload (writes db.store (populateNew env.now env.sch env.shuffle env.reduce (listing env p).ent (initial env p)))
              (listing env p).ent = some st' :=
            populateNew_reload (new := (listing env p).ent) db.store hf.differ hpop hc.distinct
              (chosen_storable hc hst hf.now.2) (by have := chosen_length hc; omega)
          have hex := exact_populateNew (new := (listing env p).ent) hf.differ (Gone.only fs) (Gone.only fi) hpop
          have hwp : ∀ w ∈ populateNew env.now env.sch env.shuffle env.reduce (listing env p).ent (initial env p),
              w.parent ∈ names (listing env p) := by
            intro w hw
            unfold names
            rcases parent_populateNew w hw with h1 | h1 <;> simp [h1]
          generalize populateNew env.now env.sch env.shuffle env.reduce (listing env p).ent (initial env p) = ws at hnew hex hwp hgood ⊢
          cases hb : byID db.lists p.id with
          | none =>
            rw [hb] at hgood
            dsimp only at hgood ⊢
            rw [List.append_nil, applyAll_append, applyAll_blobs] at hgood ⊢
            refine tidy_put h ht hgood (fun w hw => .inl (hwp w hw)) hnew hex ?_
            intro x hx hxl
            exact absurd hxl (byID_none hb x hx)
          | some o =>
            rw [hb] at hgood
            dsimp only at hgood ⊢
            rw [applyAll_append, applyAll_blobs] at hgood ⊢
            obtain ⟨o1, o2⟩ := byID_mem hb
            obtain ⟨so, ro, -⟩ := h.readable o o1
            have hdp : ∀ w ∈ deleteAll env.sch (writes db.store ws) o.ent, w.parent ∈ names o := by
              intro w hw
              unfold names
              rcases parent_deleteAll w hw with h1 | h1 <;> simp [h1]
            have hws : ∀ w ∈ ws, w.parent ∉ names o := by
              intro w hw hm
              have := hwp w hw
              unfold names at this
              simp only [List.mem_cons, List.not_mem_nil, or_false] at this
              rcases this with h1 | h1
              · exact (hfresh o o1).1 (h1 ▸ hm)
              · exact (hfresh o o1).2 (h1 ▸ hm)
            have hdl : ∀ w ∈ deleteAll env.sch (writes db.store ws) o.ent,
                w.parent ≠ (listing env p).ent.scores ∧ w.parent ≠ (listing env p).ent.index :=
              fun w hw => ⟨fun he => (hfresh o o1).1 (he ▸ hdp w hw), fun he => (hfresh o o1).2 (he ▸ hdp w hw)⟩
            have hor : reload (writes db.store ws) o.ent = some so := by
              rw [reload_other, ro]
              intro w hw
              exact ⟨fun he => hws w hw (by simp [names, he]), fun he => hws w hw (by simp [names, he])⟩
            have hoe : Exact (writes db.store ws) o.ent so :=
              ⟨only_other (Tidy.exact ht ro).1 fun w hw he => hws w hw (by simp [names, he]),
                only_other (Tidy.exact ht ro).2 fun w hw he => hws w hw (by simp [names, he])⟩
            have hgone := gone_deleteAll (sch := env.sch) (h.own o o1) hor hoe
            rw [← writes_append] at hgone
            refine tidy_put h ht hgood ?_ (st' := st') ?_ ?_ ?_
            · intro w hw
              rcases List.mem_append.1 hw with h1 | h1
              · exact .inl (hwp w h1)
              · exact .inr ⟨o, o1, o2, hdp w h1⟩
            · rw [writes_append, reload_other hdl, hnew]
            · rw [writes_append]
              exact ⟨only_other hex.1 fun w hw => (hdl w hw).1, only_other hex.2 fun w hw => (hdl w hw).2⟩
            · intro x hx hxl n hn _
              have := mem_unique h.ids hx o1 (hxl.trans o2.symm)
              subst this
              unfold names at hn
              simp only [List.mem_cons, List.not_mem_nil, or_false] at hn
              rcases hn with rfl | rfl
              · exact hgone.1
              · exact hgone.2
  | clone org p =>
    obtain ⟨hsz, hlim⟩ := ha
    have hh : (handle env db (.clone org p)).2 = (clone env db org p).2 := rfl
    unfold serve at hgood ⊢
    rw [hh] at hgood ⊢
    unfold clone at hgood ⊢
    cases ho : byID db.lists org with
    | none => exact ht
    | some o =>
      rw [ho] at hgood
      dsimp only at hgood ⊢
      obtain ⟨o1, o2⟩ := byID_mem ho
      split
      · exact ht
      · rename_i hn
        rw [if_neg hn] at hgood
        split
        · exact ht
        · rename_i hpp
          rw [if_neg hpp] at hgood
          split
          · exact ht
          · rename_i hacc
            rw [if_neg hacc] at hgood
            obtain ⟨so, ro, so2⟩ := h.readable o o1
            rw [ro] at hgood ⊢
            dsimp only at hgood ⊢
            cases hcl : Lists.clone env.now p.mergeSize p.splitSize so with
            | none => exact ht
            | some st' =>
              rw [hcl] at hgood
              dsimp only at hgood ⊢
              obtain ⟨l1, l2⟩ := hlim o o1 o2 so ro
              obtain ⟨c1, c2, c3, c4⟩ := C20_clone env.now p.mergeSize p.splitSize so st' so2 l1 l2 hcl
              rw [applyAll_append, applyAll_blobs] at hgood ⊢
              refine tidy_put (st' := st') h ht hgood ?_ ?_ ?_ ?_
              · intro w hw
                left
                unfold names
                rcases parent_cloneWrites w hw with h1 | h1 <;> simp [h1]
              · unfold cloneWrites
                rw [← List.append_assoc, writes_append]
                exact ready_save hf.differ (new_stored db.store hf.differ c1) c3.symm c4.symm
              · unfold cloneWrites
                rw [← List.append_assoc, writes_append]
                exact exact_writes (exact_new (ent := (listing env p).ent) hf.differ (Gone.only fs) (Gone.only fi))
                  (inner_save _ _ _) rfl rfl
              · intro x hx hxl
                exfalso
                apply hn
                rw [show p.id = x.id from hxl.symm, byID_of_mem h.ids hx]
                rfl
  | delete id =>
    have hh : (handle env db (.delete id)).2 = (Server.delete env db id).2 := rfl
    unfold serve
    rw [hh]
    unfold Server.delete
    cases hb : byID db.lists id with
    | none => exact ht
    | some l =>
      obtain ⟨l1, l2⟩ := byID_mem hb
      obtain ⟨st, hr, -⟩ := h.readable l l1
      dsimp only
      show Tidy (applyAll (apply db (.drop id)) _)
      rw [applyAll_blobs, ← l2]
      have hg := gone_deleteAll (sch := env.sch) (h.own l l1) hr (Tidy.exact ht hr)
      refine tidy_drop h ht l1 parent_deleteAll ?_
      intro n hn
      unfold names at hn
      simp only [List.mem_cons, List.not_mem_nil, or_false] at hn
      rcases hn with rfl | rfl
      · exact hg.1
      · exact hg.2
  | createElement id e =>
    refine tidy_withList ht rfl fun l st hl hid hr => ?_
    obtain ⟨st0, hr0, hok⟩ := h.readable l hl
    obtain rfl : st0 = st := by rw [hr] at hr0; exact (Option.some.inj hr0).symm
    split
    · exact ht
    · rename_i hex
      cases hi : Lists.insert env.now env.sch st0 (Elements.updateTime env.now [e]) with
      | none => exact ht
      | some st' =>
        dsimp only
        rw [applyAll_blobs]
        have hids : ∀ v ∈ [e.id], v < 2 ^ 64 := by simpa using ha.id
        obtain ⟨-, -, g3⟩ := Lists.getElements_spec (sch := env.sch) hok hids 0
        have hst : ∀ x ∈ Elements.updateTime env.now [e], Storable x := by
          intro x hx
          simp only [Elements.updateTime, List.map_cons, List.map_nil, List.mem_singleton] at hx
          subst hx
          exact ⟨ha.score, ha.id, ha.tie, hf.now.2⟩
        have hdd : DistinctIDs (st0.content ++ Elements.updateTime env.now [e]) := by
          unfold DistinctIDs
          rw [List.map_append, List.nodup_append]
          refine ⟨hok.scores.distinct, by simp [Elements.updateTime], ?_⟩
          intro a hain b hb
          simp only [Elements.updateTime, List.map_cons, List.map_nil, List.mem_singleton] at hb
          intro hab
          rw [hab, hb] at hain
          obtain ⟨x, hx, hxe⟩ := List.mem_map.1 hain
          obtain ⟨r, hr, -⟩ := g3 x hx (by simp [hxe])
          exact hex (List.length_pos_of_mem hr)
        obtain ⟨i1, i2, -⟩ := C67_insert_durable env.now env.sch db.store l.ent st0 st' _ (h.own l hl) hr hok hst hdd hi
        exact tidy_change h ht hl parent_insert i1 i2 (exact_insert (h.own l hl) (Tidy.exact ht hr) hi)
  | createElements id es =>
    refine tidy_withList ht rfl fun l st hl hid hr => ?_
    obtain ⟨st0, hr0, hok⟩ := h.readable l hl
    obtain rfl : st0 = st := by rw [hr] at hr0; exact (Option.some.inj hr0).symm
    dsimp only
    have hc := chosen_before env.now es (fun e he => (ha e he).2)
    have hst := chosen_storable hc (fun e he => (ha e he).1) hf.now.2
    generalize Elements.updateTime env.now (Elements.deduplicate es).1 = es' at hc hst ⊢
    split
    · exact ht
    · rename_i hex
      cases hi : Lists.insert env.now env.sch st0 es' with
      | none => exact ht
      | some st' =>
        dsimp only
        rw [applyAll_blobs]
        have hids : ∀ v ∈ es'.map (·.id), v < 2 ^ 64 := by
          intro v hv
          obtain ⟨e, he, rfl⟩ := List.mem_map.1 hv
          exact (hst e he).id
        obtain ⟨-, -, g3⟩ := Lists.getElements_spec (sch := env.sch) hok hids 0
        have hdd : DistinctIDs (st0.content ++ es') := by
          unfold DistinctIDs
          rw [List.map_append, List.nodup_append]
          refine ⟨hok.scores.distinct, hc.distinct, ?_⟩
          intro a hain b hb hab
          obtain ⟨x, hx, hxe⟩ := List.mem_map.1 hain
          obtain ⟨r, hr, -⟩ := g3 x hx (by rw [hxe, hab]; exact hb)
          exact hex (List.length_pos_of_mem hr)
        obtain ⟨i1, i2, -⟩ := C67_insert_durable env.now env.sch db.store l.ent st0 st' _ (h.own l hl) hr hok hst hdd hi
        exact tidy_change h ht hl parent_insert i1 i2 (exact_insert (h.own l hl) (Tidy.exact ht hr) hi)
  | putElements id es =>
    refine tidy_withList ht rfl fun l st hl hid hr => ?_
    obtain ⟨st0, hr0, hok⟩ := h.readable l hl
    obtain rfl : st0 = st := by rw [hr] at hr0; exact (Option.some.inj hr0).symm
    dsimp only
    rw [applyAll_blobs]
    have hc := dedup_chosen env.now es
    generalize (Elements.deduplicate (Elements.updateTime env.now es)).1 = es' at hc ⊢
    have hs := chosen_storable hc ha hf.now.2
    obtain ⟨u1, -⟩ := C67_update_durable env.now env.sch db.store l.ent st0 es' (h.own l hl) hr hok hs hc.distinct hf.now.2
    obtain ⟨u3, -⟩ := C16_update_upserts env.now env.sch st0 es' hok hs hc.distinct hf.now.2
    refine tidy_change h ht hl parent_updateElements u1 u3 ?_
    obtain ⟨ws, hws, hstep⟩ := updateElements_step (sch := env.sch) (ent := l.ent) hok hs hc.distinct hf.now.2
    rw [hws]
    exact exact_step (h.own l hl) (Tidy.exact ht hr) hstep
  | deleteElements id ids =>
    refine tidy_withList ht rfl fun l st hl hid hr => ?_
    obtain ⟨st0, hr0, hok⟩ := h.readable l hl
    obtain rfl : st0 = st := by rw [hr] at hr0; exact (Option.some.inj hr0).symm
    dsimp only
    rw [applyAll_blobs]
    obtain ⟨u1, -⟩ := C67_delete_durable env.now env.sch db.store l.ent st0 ids (h.own l hl) hr hok ha
    obtain ⟨u3, -⟩ := C17_delete env.now env.sch st0 ids hok ha
    refine tidy_change h ht hl parent_deleteElements u1 u3 ?_
    obtain ⟨ws, hws, hstep⟩ := deleteElements_step env.now env.sch l.ent st0 ids
    rw [hws]
    exact exact_step (h.own l hl) (Tidy.exact ht hr) hstep
  | reindex id =>
    obtain hh : handle env db (.reindex id) = withList db id _ := rfl
    cases hb : byID db.lists id with
    | none =>
      unfold serve; rw [hh]; unfold withList; rw [hb]; exact ht
    | some l =>
      obtain ⟨l1, l2⟩ := byID_mem hb
      obtain ⟨st, hr, hok⟩ := h.readable l l1
      unfold serve at hgood ⊢
      rw [hh] at hgood ⊢
      unfold withList at hgood ⊢
      rw [hb] at hgood ⊢
      dsimp only at hgood ⊢
      rw [hr] at hgood ⊢
      dsimp only at hgood ⊢
      cases hi : Lists.reindex env.now env.sch st with
      | none => exact ht
      | some st' =>
        rw [hi] at hgood
        dsimp only at hgood ⊢
        rw [applyAll_append, applyAll_blobs] at hgood ⊢
        have hfr := hf.fresh l (List.mem_append_left _ l1)
        have hne1 : l.ent.scores ≠ env.index := fun he => hfr.2 (by simp [names, he])
        have hne2 : env.index ≠ l.ent.index := fun he => hfr.2 (by simp [names, he])
        obtain ⟨i1, i2, i3⟩ := C67_reindex_durable env.now env.sch db.store l.ent { l.ent with index := env.index } st st' hr hok rfl
          hne1 hne2 (h.own l l1) rfl rfl (ha l l1 l2 st hr) hi
        have hex := Tidy.exact ht hr
        have hsc : st'.scores = st.scores := by
          unfold Lists.reindex at hi
          simp only [Option.map_eq_some_iff] at hi
          obtain ⟨_, -, hi⟩ := hi
          rw [← hi]
        refine tidy_put (l := { l with ent := { l.ent with index := env.index } }) (st' := st') h ht hgood ?_ i1 ?_ ?_
        · intro w hw
          rcases parent_reindex (by rfl) w hw with h1 | h1 | h1
          · exact .inl (by simp [names, h1])
          · exact .inr ⟨l, l1, rfl, by simp [names, h1]⟩
          · exact .inl (by simp [names, h1])
        · unfold Disk.reindex
          rw [hi]
          dsimp only
          constructor
          · refine only_writes hex.1 ?_ fun i hm => .inl (by rw [hsc]; exact hm)
            refine (into_other fun w hw => ?_).append (Into.append (into_other fun w hw => ?_)
              (Into.append (into_other fun w hw => ?_) (into_save _ _ _ _)))
            · rw [parent_newSegs w hw]; exact Ne.symm hne1
            · rw [List.mem_singleton.1 hw]; exact Ne.symm hne1
            · rw [parent_deleteSegs w hw]; exact Ne.symm (h.own l l1)
          · refine only_writes (Gone.only fi) ?_ (by simp)
            refine (into_newSegs _ _).append (Into.append ?_ (Into.append (into_other fun w hw => ?_) (into_save _ _ _ _)))
            · intro i l hm; simp at hm
            · rw [parent_deleteSegs w hw]; exact Ne.symm hne2
        · intro x hx hxl n hn hno
          have := mem_unique h.ids hx l1 hxl
          subst this
          have hni : n = x.ent.index := by
            unfold names at hn hno
            simp only [List.mem_cons, List.not_mem_nil, or_false, not_or] at hn hno
            exact hn.resolve_left hno.1
          subst hni
          unfold Disk.reindex
          rw [hi]
          dsimp only
          rw [writes_append, writes_append, writes_append]
          refine gone_other (gone_deleteSegs _ (only_other (only_other hex.2 fun w hw => ?_) fun w hw => ?_)) fun w hw => ?_
          · rw [parent_newSegs w hw]; exact hne2
          · rw [List.mem_singleton.1 hw]; exact hne2
          · rcases parent_save w hw with h1 | h1
            · rw [h1]; exact h.own x l1
            · rw [h1]; exact hne2
  | repair id =>
    obtain hh : handle env db (.repair id) = withList db id _ := rfl
    cases hb : byID db.lists id with
    | none =>
      unfold serve; rw [hh]; unfold withList; rw [hb]; exact ht
    | some l =>
      obtain ⟨l1, l2⟩ := byID_mem hb
      obtain ⟨st, hr, hok⟩ := h.readable l l1
      unfold serve at hgood ⊢
      rw [hh] at hgood ⊢
      unfold withList at hgood ⊢
      rw [hb] at hgood ⊢
      dsimp only at hgood ⊢
      rw [hr] at hgood ⊢
      dsimp only at hgood ⊢
      cases hi : Lists.repair env.now env.sch env.shuffle env.reduce (fun _ => false) st with
      | none => exact ht
      | some st' =>
        rw [hi] at hgood
        dsimp only at hgood ⊢
        rw [applyAll_append, applyAll_blobs] at hgood ⊢
        have hfr := hf.fresh l (List.mem_append_left _ l1)
        obtain ⟨-, -, m1, m2⟩ := reload_iff.1 hr
        have hlim := ha l l1 l2 st hr
        generalize hnew : { l.ent with scores := env.scores, index := env.index } = new at hgood ⊢
        have hn1 : new.scores = env.scores := by rw [← hnew]
        have hn2 : new.index = env.index := by rw [← hnew]
        have hn3 : new.mergeSize = l.ent.mergeSize := by rw [← hnew]
        have hn4 : new.splitSize = l.ent.splitSize := by rw [← hnew]
        have hne : new.scores ≠ new.index := by rw [hn1, hn2]; exact hf.differ
        have hpop := hi
        unfold Lists.repair at hpop
        have hfil : st.scores.segs.filter (fun _ => true) = st.scores.segs := List.filter_eq_self.2 (fun _ _ => rfl)
        simp only [Bool.not_false, hfil] at hpop
        rw [← m1, ← m2, ← hn3, ← hn4] at hpop
        have hex := Tidy.exact ht hr
        have hdiff : ∀ n ∈ names l, n ≠ new.scores ∧ n ≠ new.index := by
          intro n hn
          rw [hn1, hn2]
          exact ⟨fun he => hfr.1 (he ▸ hn), fun he => hfr.2 (he ▸ hn)⟩
        have hs1 := hdiff l.ent.scores (by simp [names])
        have hs2 := hdiff l.ent.index (by simp [names])
        obtain ⟨st1, hr1, hok1⟩ := hgood.readable { l with ent := new } List.mem_cons_self
        change reload (writes db.store (repairWrites env.now env.sch env.shuffle env.reduce l.ent new st)) new = some st1 at hr1
        have hexact : Exact (writes db.store (repairWrites env.now env.sch env.shuffle env.reduce l.ent new st)) new st' := by
          unfold repairWrites Disk.populate
          rw [writes_append, writes_append]
          refine exact_populateNew hne ?_ ?_ hpop
          · refine only_other (only_other (by rw [hn1]; exact Gone.only fs) fun w hw => ?_) fun w hw => ?_
            · rw [parent_deleteSegs w hw]; exact hs1.1
            · rw [parent_deleteSegs w hw]; exact hs2.1
          · refine only_other (only_other (by rw [hn2]; exact Gone.only fi) fun w hw => ?_) fun w hw => ?_
            · rw [parent_deleteSegs w hw]; exact hs1.2
            · rw [parent_deleteSegs w hw]; exact hs2.2
        have hreload : reload (writes db.store (repairWrites env.now env.sch env.shuffle env.reduce l.ent new st)) new = some st' := by
          unfold repairWrites
          obtain ⟨-, d2, d3, -, -⟩ := Elements.deduplicate_spec (st.scores.segs.flatMap fun s => (Elements.deduplicate s.elems).1)
          have hin : ∀ e ∈ (Elements.deduplicate (st.scores.segs.flatMap fun s => (Elements.deduplicate s.elems).1)).1, e ∈ st.content := by
            intro e he
            obtain ⟨s, hs, hes⟩ := List.mem_flatMap.1 (d3 e he)
            exact mem_allElems.2 ⟨s, hs, (Elements.deduplicate_spec s.elems).2.2.1 e hes⟩
          rw [hn3, hn4] at hpop
          refine populate_reload db.store hne hn3 hn4 hpop d2 (fun e he => hok.scores.storable e (hin e he)) ?_
          have : ((Elements.deduplicate (st.scores.segs.flatMap fun s => (Elements.deduplicate s.elems).1)).1.map (·.id)).length
              ≤ (st.content.map (·.id)).length := by
            apply nodup_length_le d2
            intro i hid
            obtain ⟨e, he, rfl⟩ := List.mem_map.1 hid
            exact List.mem_map.2 ⟨e, hin e he, rfl⟩
          simp only [List.length_map] at this
          omega
        refine tidy_put (l := { l with ent := new }) (st' := st') h ht hgood ?_ hreload hexact ?_
        · intro w hw
          rcases parent_populate w hw with (h1 | h1) | (h1 | h1)
          · exact .inr ⟨l, l1, rfl, by simp [names, h1]⟩
          · exact .inr ⟨l, l1, rfl, by simp [names, h1]⟩
          · exact .inl (by simp [names, h1])
          · exact .inl (by simp [names, h1])
        · intro x hx hxl n hn hno
          have := mem_unique h.ids hx l1 hxl
          subst this
          have hpn : ∀ w ∈ populateNew env.now env.sch env.shuffle env.reduce new
              (Elements.deduplicate (st.scores.segs.flatMap fun s => (Elements.deduplicate s.elems).1)).1, w.parent ≠ n := by
            intro w hw he
            rcases parent_populateNew w hw with h1 | h1
            · exact (hdiff n hn).1 (he ▸ h1)
            · exact (hdiff n hn).2 (he ▸ h1)
          unfold repairWrites Disk.populate
          rw [writes_append, writes_append]
          refine gone_other ?_ hpn
          unfold names at hn
          simp only [List.mem_cons, List.not_mem_nil, or_false] at hn
          rcases hn with rfl | rfl
          · refine gone_other (gone_deleteSegs _ hex.1) fun w hw => ?_
            rw [parent_deleteSegs w hw]; exact Ne.symm (h.own x l1)
          · refine gone_deleteSegs _ (only_other hex.2 fun w hw => ?_)
            rw [parent_deleteSegs w hw]; exact h.own x l1
  | split id merge =>
    refine tidy_withList ht rfl fun l st hl hid hr => ?_
    obtain ⟨st0, hr0, hok⟩ := h.readable l hl
    obtain rfl : st0 = st := by rw [hr] at hr0; exact (Option.some.inj hr0).symm
    dsimp only
    rw [applyAll_blobs]
    obtain ⟨a1, a2⟩ := ha l hl hid st0 hr
    obtain ⟨u1, u2, -⟩ := C67_split_durable env.now merge env.sch db.store l.ent st0 (h.own l hl) hr hok hf.now.2 a1 a2
    exact tidy_change h ht hl (parent_split (h.own l hl) hr hok hf.now.2) u1 u2
      (exact_split (h.own l hl) hok hf.now.2 hr (Tidy.exact ht hr))
  | save => exact ⟨ht.heads, ht.elems⟩

/-! ### Histories -/

/-- Whatever the history of requests, no blob is left that belongs to no list. -/
theorem C107_history (db : Db) (rs : List (Env × Request)) (h : Good db) (ht : Tidy db) (hr : Ready db rs) :
    Tidy (serveAll db rs).2 := by
  induction rs generalizing db with
  | nil => exact ht
  | cons x rs ih =>
    obtain ⟨env, r⟩ := x
    obtain ⟨h1, h2, h3⟩ := hr
    exact ih _ (C70_request env db r h h1 h2).1 (C107_request env db r h ht h1 h2) h3

theorem C107_from_nothing (rs : List (Env × Request)) (hr : Ready noLists rs) : Tidy (serveAll noLists rs).2 :=
  C107_history noLists rs noLists_good ⟨by simp [noLists], by simp [noLists]⟩ hr

/-- A server that started with nothing and shows no list has no blob of a list in its storage. -/
theorem C107_all_deleted (rs : List (Env × Request)) (hr : Ready noLists rs)
    (hno : ∀ id, look (serveAll noLists rs).2 id = none) (n : Str) : Gone (serveAll noLists rs).2.store n := by
  refine Tidy.gone (C107_from_nothing rs hr) ?_
  intro l hl _
  have hg := (C70_history noLists rs noLists_good hr).1
  obtain ⟨st, h1, -⟩ := hg.readable l hl
  have := hno l.id
  rw [look_of (byID_of_mem hg.ids hl) h1] at this
  simp at this

/-- The blobs of a list are gone when it has been deleted. -/
theorem C107_deleted (env : Env) (db : Db) (l : Listing) (h : Good db) (ht : Tidy db) (hf : Fits env db) (hl : l ∈ db.lists) :
    ∀ n ∈ names l, Gone (serve env db (.delete l.id)).2.store n := by
  intro n hn
  have hs : (serve env db (.delete l.id)).2.lists = db.lists.filter fun x => x.id != l.id := by
    unfold serve
    show (applyAll db (Server.delete env db l.id).2).lists = _
    unfold Server.delete
    rw [byID_of_mem h.ids hl]
    dsimp only
    show (applyAll (apply db (.drop l.id)) _).lists = _
    rw [applyAll_blobs]
    rfl
  refine Tidy.gone (C107_request env db (.delete l.id) h ht hf trivial) ?_
  intro x hx hm
  rw [hs] at hx
  obtain ⟨h1, h2⟩ := List.mem_filter.1 hx
  exact absurd (h.names x h1 l hl n hm hn) (by simpa using h2)

/-! ### Deleting a list whose index is missing -/

/-- A list without index can be deleted completely if all its elements can be read, whatever else is in the storage. -/
theorem C107_delete_without_index (sch : Sched) (d : Store) (ent : Entry) (s : Segs) (hs : d.heads ent.scores = some s)
    (hi : d.heads ent.index = none) (hall : ∀ g ∈ s.segs, d.elems ent.scores g.id ≠ none)
    (hblobs : ∀ i, d.elems ent.scores i ≠ none → i ∈ s.segs.map (·.id)) :
    Gone (writes d (deleteAll sch d ent)) ent.scores := by
  unfold deleteAll
  rw [hs, hi]
  dsimp only
  rw [if_pos]
  · exact gone_deleteSegs sch hblobs
  · unfold complete
    rw [List.all_eq_true]
    intro g hg
    rw [Option.isSome_iff_ne_none]
    exact hall g hg

/-- If one segment cannot be read, then nothing of the list is deleted, although the list is removed from the
catalogue. -/
theorem C107_delete_broken_leaves (env : Env) (db : Db) (l : Listing) (s : Segs) (g : Seg) (hl : byID db.lists l.id = some l)
    (hs : db.store.heads l.ent.scores = some s) (hi : db.store.heads l.ent.index = none) (hg : g ∈ s.segs)
    (hmiss : db.store.elems l.ent.scores g.id = none) :
    (serve env db (.delete l.id)).1 = .ok ∧ (serve env db (.delete l.id)).2.store = db.store ∧
    byID (serve env db (.delete l.id)).2.lists l.id = none := by
  have hdel : deleteAll env.sch db.store l.ent = [] := by
    unfold deleteAll
    rw [hs, hi]
    dsimp only
    rw [if_neg]
    unfold complete
    rw [List.all_eq_true]
    intro hc
    have := hc g hg
    rw [hmiss] at this
    simp at this
  have hh : handle env db (.delete l.id) = (.ok, [.drop l.id]) := by
    show Server.delete env db l.id = _
    unfold Server.delete
    rw [hl]
    dsimp only
    rw [hdel]
    rfl
  unfold serve
  rw [hh]
  exact ⟨rfl, rfl, byID_filter_self⟩

/-! ### What is left after a restart -/

/-- A list that is not in the saved catalogue: after a restart its blobs belong to no list. -/
theorem C107_restart_leaves (db : Db) (l : Listing) (h : Good db) (hl : l ∈ db.lists)
    (hfile : ∀ x ∈ db.file, ∀ n ∈ names l, n ∉ names x) : ¬ Tidy (restart db) := by
  intro ht
  obtain ⟨st, hr, -⟩ := h.readable l hl
  obtain ⟨h1, -⟩ := reload_iff.1 hr
  obtain ⟨t, ht1, -⟩ := ids_of_holds h1
  obtain ⟨x, hx, hm⟩ := ht.heads l.ent.scores t ht1
  exact hfile x hx _ (by simp [names]) hm

/-- Effects of requests leave blobs alone that have none of the names in use. -/
theorem applyAll_waste {env : Env} {d0 : Db} {r : Request} {n : Str} (hs : n ≠ env.scores) (hi : n ≠ env.index)
    (hn : ∀ x ∈ d0.lists, n ∉ names x) (es : List Effect) (db : Db) (h : ∀ e ∈ es, OwnEffect env d0 r e) :
    (applyAll db es).store.heads n = db.store.heads n ∧ ∀ i, (applyAll db es).store.elems n i = db.store.elems n i := by
  induction es generalizing db with
  | nil => exact ⟨rfl, fun _ => rfl⟩
  | cons e es ih =>
    obtain ⟨i1, i2⟩ := ih (apply db e) (fun x hx => h x (List.mem_cons_of_mem _ hx))
    have he := h e List.mem_cons_self
    have key : (apply db e).store.heads n = db.store.heads n ∧ ∀ i, (apply db e).store.elems n i = db.store.elems n i := by
      cases e with
      | blob w =>
        refine writes_other (ws := [w]) db.store ?_
        intro w' hw' hp
        rw [List.mem_singleton.1 hw'] at hp
        rcases he with h1 | h1 | ⟨x, hx, -, hxn⟩
        · exact hs (hp ▸ h1)
        · exact hi (hp ▸ h1)
        · exact hn x hx (hp ▸ hxn)
      | put l => exact ⟨rfl, fun _ => rfl⟩
      | drop i => exact ⟨rfl, fun _ => rfl⟩
      | save => exact ⟨rfl, fun _ => rfl⟩
    exact ⟨i1.trans key.1, fun i => (i2 i).trans (key.2 i)⟩

/-- The names of an entry that a request puts into the catalogue are new or those of a list that was there. -/
theorem put_names {env : Env} {db : Db} {r : Request} {l : Listing} (h : Effect.put l ∈ (handle env db r).2) :
    ∀ n ∈ names l, n = env.scores ∨ n = env.index ∨ ∃ x ∈ db.lists, n ∈ names x := by
  have hblobs : ∀ ws : List Write, Effect.put l ∉ ws.map Effect.blob := by
    intro ws hm
    obtain ⟨w, -, he⟩ := List.mem_map.1 hm
    simp at he
  have hlist : ∀ {id : Str} {f : Listing → ListState → Answer × List Effect}, Effect.put l ∈ (withList db id f).2 →
      ∃ x st, x ∈ db.lists ∧ Effect.put l ∈ (f x st).2 := by
    intro id f hm
    unfold withList at hm
    cases hb : byID db.lists id with
    | none => rw [hb] at hm; simp at hm
    | some x =>
      rw [hb] at hm
      dsimp only at hm
      cases hr : reload db.store x.ent with
      | none => rw [hr] at hm; simp at hm
      | some st => rw [hr] at hm; exact ⟨x, st, (byID_mem hb).1, hm⟩
  have hnew : ∀ {p : Payload}, l = listing env p → ∀ n ∈ names l, n = env.scores ∨ n = env.index ∨ ∃ x ∈ db.lists, n ∈ names x := by
    intro p hl n hn
    subst hl
    simp only [names, listing, List.mem_cons, List.not_mem_nil, or_false] at hn
    rcases hn with hn | hn
    · exact .inl hn
    · exact .inr (.inl hn)
  cases r with
  | create replace p =>
    change Effect.put l ∈ (create env db replace p).2 at h
    unfold create at h
    dsimp only at h
    split at h
    · simp at h
    · split at h
      · simp at h
      · split at h
        · simp at h
        · rcases List.mem_append.1 h with h | h
          · exact absurd h (hblobs _)
          · exact hnew (by simpa using h)
  | clone org p =>
    change Effect.put l ∈ (clone env db org p).2 at h
    unfold clone at h
    split at h
    · simp at h
    · split at h
      · simp at h
      · split at h
        · simp at h
        · split at h
          · simp at h
          · split at h
            · simp at h
            · split at h
              · simp at h
              · rcases List.mem_append.1 h with h | h
                · exact absurd h (hblobs _)
                · exact hnew (by simpa using h)
  | delete id =>
    change Effect.put l ∈ (Server.delete env db id).2 at h
    unfold Server.delete at h
    split at h
    · simp at h
    · rcases List.mem_cons.1 h with h | h
      · simp at h
      · exact absurd h (hblobs _)
  | createElement id e =>
    obtain ⟨x, st, -, hm⟩ := hlist h
    split at hm
    · simp at hm
    · split at hm
      · simp at hm
      · exact absurd hm (hblobs _)
  | createElements id es =>
    obtain ⟨x, st, -, hm⟩ := hlist h
    dsimp only at hm
    split at hm
    · simp at hm
    · split at hm
      · simp at hm
      · exact absurd hm (hblobs _)
  | putElements id es =>
    obtain ⟨x, st, -, hm⟩ := hlist h
    exact absurd hm (hblobs _)
  | deleteElements id ids =>
    obtain ⟨x, st, -, hm⟩ := hlist h
    exact absurd hm (hblobs _)
  | reindex id =>
    obtain ⟨x, st, hx, hm⟩ := hlist h
    dsimp only at hm
    split at hm
    · simp at hm
    · rcases List.mem_append.1 hm with h | h
      · exact absurd h (hblobs _)
      · simp only [List.mem_singleton, Effect.put.injEq] at h
        subst h
        intro n hn
        simp only [names, List.mem_cons, List.not_mem_nil, or_false] at hn
        rcases hn with hn | hn
        · exact .inr (.inr ⟨x, hx, by simp [names, hn]⟩)
        · exact .inr (.inl hn)
  | repair id =>
    obtain ⟨x, st, hx, hm⟩ := hlist h
    dsimp only at hm
    split at hm
    · simp at hm
    · rcases List.mem_append.1 hm with h | h
      · exact absurd h (hblobs _)
      · simp only [List.mem_singleton, Effect.put.injEq] at h
        subst h
        intro n hn
        simp only [names, List.mem_cons, List.not_mem_nil, or_false] at hn
        rcases hn with hn | hn
        · exact .inl hn
        · exact .inr (.inl hn)
  | split id merge =>
    obtain ⟨x, st, -, hm⟩ := hlist h
    exact absurd hm (hblobs _)
  | save => simp [handle] at h

/-- Lists after some effects were there before or were put. -/
theorem applyAll_lists {x : Listing} (es : List Effect) (db : Db) (h : x ∈ (applyAll db es).lists) : x ∈ db.lists ∨ Effect.put x ∈ es := by
  induction es generalizing db with
  | nil => exact .inl h
  | cons e es ih =>
    rcases ih (apply db e) h with h1 | h1
    · cases e with
      | blob w => exact .inl h1
      | put l =>
        rcases List.mem_cons.1 h1 with h2 | h2
        · right; rw [h2]; exact List.mem_cons_self
        · exact .inl (List.mem_filter.1 h2).1
      | drop i => exact .inl (List.mem_filter.1 h1).1
      | save => exact .inl h1
    · exact .inr (List.mem_cons_of_mem _ h1)

/-- Blobs under a name that no list has are never deleted: no request changes them, unless it draws the same name
again. -/
theorem C107_waste_stays (rs : List (Env × Request)) (db : Db) (n : Str) (h : Good db) (hr : Ready db rs)
    (hn : ∀ x ∈ db.lists, n ∉ names x) (hd : ∀ x ∈ rs, n ≠ x.1.scores ∧ n ≠ x.1.index) :
    (serveAll db rs).2.store.heads n = db.store.heads n ∧ ∀ i, (serveAll db rs).2.store.elems n i = db.store.elems n i := by
  induction rs generalizing db with
  | nil => exact ⟨rfl, fun _ => rfl⟩
  | cons x rs ih =>
    obtain ⟨env, r⟩ := x
    obtain ⟨h1, h2, h3⟩ := hr
    have hd0 := hd _ List.mem_cons_self
    obtain ⟨a1, a2⟩ := applyAll_waste hd0.1 hd0.2 hn (handle env db r).2 db (handle_own h h1)
    obtain ⟨b1, b2⟩ := ih (serve env db r).2 (C70_request env db r h h1 h2).1 h3 (by
      intro y hy hm
      rcases applyAll_lists _ _ hy with h4 | h4
      · exact hn y h4 hm
      · rcases put_names h4 n hm with h5 | h5 | ⟨z, hz, h5⟩
        · exact hd0.1 h5
        · exact hd0.2 h5
        · exact hn z hz h5) (fun x hx => hd x (List.mem_cons_of_mem _ hx))
    exact ⟨b1.trans a1, fun i => (b2 i).trans (a2 i)⟩

/-- A list that is created and not in the catalogue when the server is stopped: its blobs stay in the storage for
ever, whatever requests follow, and belong to no list. -/
theorem C107_lost_for_ever (db : Db) (rs : List (Env × Request)) (l : Listing) (h : Good db) (h' : Good (restart db)) (hl : l ∈ db.lists)
    (hfile : ∀ x ∈ db.file, ∀ n ∈ names l, n ∉ names x) (hr : Ready (restart db) rs)
    (hd : ∀ x ∈ rs, l.ent.scores ≠ x.1.scores ∧ l.ent.scores ≠ x.1.index) :
    ∃ s, (serveAll (restart db) rs).2.store.heads l.ent.scores = some s ∧ ∀ g ∈ s.segs,
      (serveAll (restart db) rs).2.store.elems l.ent.scores g.id ≠ none := by
  obtain ⟨st, hrl, -⟩ := h.readable l hl
  obtain ⟨h1, -⟩ := reload_iff.1 hrl
  obtain ⟨t, ht1, hids⟩ := ids_of_holds h1
  obtain ⟨a, b⟩ := C107_waste_stays rs (restart db) l.ent.scores h' hr (fun x hx => hfile x hx _ (by simp [names])) hd
  refine ⟨t, a.trans ht1, fun g hg => ?_⟩
  rw [b]
  have : g.id ∈ st.scores.segs.map (·.id) := by rw [← hids]; exact List.mem_map.2 ⟨g, hg, rfl⟩
  obtain ⟨o, ho, hoe⟩ := List.mem_map.1 this
  rw [← hoe]
  show db.store.elems _ _ ≠ none
  rw [h1.elems o ho]
  simp

/-! ### Examples -/

/-- A history that starts with nothing: lists are created, replaced, changed, rebuilt, cloned and deleted. -/
def tidyHistory : List (Env × Request) :=
  [(exEnvAt 1, .create false exPayload), (exEnvAt 2, .putElements [66] [⟨99, 6, [], 0, 0⟩, ⟨1, 77, [], 0, 0⟩]),
   (exEnvAt 3, .split [66] true), (exEnvAt 4, .create true exPayload), (exEnvAt 5, .reindex [66]),
   (exEnvAt 6, .clone [66] { exPayload with id := [67], populate := none }), (exEnvAt 7, .repair [67]),
   (exEnvAt 8, .deleteElements [67] [1])]

theorem tidyHistory_ready : Ready noLists tidyHistory :=
  ready_of_test _ _ (by
    intro x hx
    simp only [tidyHistory, List.mem_cons, List.not_mem_nil, or_false] at hx
    rcases hx with h | h | h | h | h | h | h | h <;> (rw [h]; rfl)) (by decide +kernel)

/-- The names used by the history, and those under which there is something at the end. -/
example : (serveAll noLists tidyHistory).1 = [.ok, .ok, .ok, .ok, .ok, .ok, .ok, .ok] ∧
    ([1, 2, 3, 4, 5, 6, 7, 8].map fun k => (((serveAll noLists tidyHistory).2.store.heads [200, k]).isSome,
      ((serveAll noLists tidyHistory).2.store.heads [201, k]).isSome)) =
    [(false, false), (false, false), (false, false), (true, false), (false, true), (false, false), (true, true), (false, false)] := by
  decide +kernel

/-- The same with both lists deleted at the end. -/
def emptyHistory : List (Env × Request) := tidyHistory ++ [(exEnvAt 9, .delete [66]), (exEnvAt 10, .delete [67])]

example : Ready noLists emptyHistory ∧ (serveAll noLists emptyHistory).2.lists = [] :=
  ⟨ready_of_test _ _ (by
    intro x hx
    simp only [emptyHistory, tidyHistory, List.cons_append, List.nil_append, List.mem_cons, List.not_mem_nil, or_false] at hx
    rcases hx with h | h | h | h | h | h | h | h | h | h <;> (rw [h]; rfl)) (by decide +kernel), by decide +kernel⟩

/-- The server is stopped after the first request: the list is lost, its blobs are not, and later requests do not
delete them either. -/
example : Good (serveAll noLists (tidyHistory.take 1)).2 ∧ Good (restart (serveAll noLists (tidyHistory.take 1)).2) ∧
    (serveAll noLists (tidyHistory.take 1)).2.lists.map names = [[[200, 1], [201, 1]]] ∧
    (serveAll noLists (tidyHistory.take 1)).2.file = [] ∧
    Ready (restart (serveAll noLists (tidyHistory.take 1)).2) (emptyHistory.drop 3) := by
  refine ⟨(C70_history noLists _ noLists_good (ready_append (a := tidyHistory.take 1) (b := tidyHistory.drop 1) tidyHistory_ready).1).1,
    ?_, by decide +kernel, by decide +kernel, ?_⟩
  · have : (restart (serveAll noLists (tidyHistory.take 1)).2).lists = [] := by decide +kernel
    exact ⟨by rw [this]; simp, by rw [this]; simp, by rw [this]; simp, by rw [this]; simp, by rw [this]; simp⟩
  · refine ready_of_test _ _ ?_ (by decide +kernel)
    intro x hx
    simp only [emptyHistory, tidyHistory, List.cons_append, List.nil_append, List.drop_succ_cons, List.drop_zero, List.mem_cons,
      List.not_mem_nil, or_false] at hx
    rcases hx with h | h | h | h | h | h | h <;> (rw [h]; rfl)

/-- A list without index: with a missing segment nothing of it is deleted, otherwise everything is. -/
def noIndexStore : Store := { exStore with heads := fun n => if n = exEntry.index then none else exStore.heads n }

example : (noIndexStore.heads exEntry.scores).isSome ∧ noIndexStore.heads exEntry.index = none ∧
    (∀ s, noIndexStore.heads exEntry.scores = some s → 1 < s.segs.length ∧ ∀ g ∈ s.segs, noIndexStore.elems exEntry.scores g.id ≠ none) := by
  refine ⟨by decide +kernel, by decide +kernel, ?_⟩
  intro s hs
  have : (noIndexStore.heads exEntry.scores).all (fun s => decide (1 < s.segs.length) &&
      s.segs.all fun g => (noIndexStore.elems exEntry.scores g.id).isSome) = true := by decide +kernel
  rw [hs] at this
  simp only [Option.all_some, Bool.and_eq_true, decide_eq_true_eq, List.all_eq_true] at this
  exact ⟨this.1, fun g hg => Option.isSome_iff_ne_none.1 (this.2 g hg)⟩

end RankDB.Props

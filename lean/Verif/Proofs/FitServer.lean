import Verif.Proofs.FitWrites
import Verif.Spec.Sizes
/-
Everything that a request to the server writes fits its stored form.
-/
namespace RankDB.Props
open Spec Server Disk

theorem chosen_fine {now : Nat} {es es' : List Element} (h : Chosen now es es') (hes : ∀ e ∈ es, Storable e)
    (hp : ∀ e ∈ es, e.payload.length < 2 ^ 32) (hnow : 0 < now ∧ now < 2 ^ 32 - 1) : ∀ e ∈ es', Fine e := by
  intro e he
  have hs := chosen_storable h hes hnow.2 e he
  obtain ⟨x, hx, rfl⟩ := h.given e he
  exact ⟨hs, hnow.1, hp x hx⟩

theorem writes_withList {P : Write → Prop} {db : Db} {id : Str} {f : Listing → ListState → Answer × List Effect}
    (h : ∀ l st, l ∈ db.lists → l.id = id → byID db.lists id = some l → reload db.store l.ent = some st → ∀ w, Effect.blob w ∈ (f l st).2 → P w) :
    ∀ w, Effect.blob w ∈ (withList db id f).2 → P w := by
  unfold withList
  cases hb : byID db.lists id with
  | none => simp
  | some l =>
    obtain ⟨h1, h2⟩ := byID_mem hb
    dsimp only
    cases hr : reload db.store l.ent with
    | none => simp
    | some st => exact h l st h1 h2 hb hr

theorem handle_fits {env : Env} {db : Db} {r : Request} (h : Good db) (hs : StoreFits db.store) (hf : Fits env db)
    (ha : Spec.Allowed db r) (hr : Room db r) : ∀ w, Effect.blob w ∈ (handle env db r).2 → WriteFits w := by
  have hblob : ∀ {ws : List Write} {w : Write}, Effect.blob w ∈ ws.map Effect.blob → w ∈ ws := by
    intro ws w hw
    obtain ⟨x, hx, he⟩ := List.mem_map.1 hw
    cases he; exact hx
  have hbl : ∀ {ws : List Write} {l : Listing} {w : Write}, Effect.blob w ∈ ws.map Effect.blob ++ [.put l] → w ∈ ws := by
    intro ws l w hw
    rcases List.mem_append.1 hw with hw | hw
    · exact hblob hw
    · simp at hw
  have hlist : ∀ {l : Listing} {st : ListState} {id : Str}, l ∈ db.lists → l.id = id → byID db.lists id = some l → reload db.store l.ent = some st → id ∈ uses r →
      ListOK st ∧ ListFits st ∧ st.content.length + (elementsOf r).length + 3 ≤ 2 ^ 32 := by
    intro l st id hl _ hb hrl hu
    obtain ⟨st', h1, h2⟩ := h.readable l hl
    rw [hrl] at h1; cases h1
    exact ⟨h2, fits_reload hs hrl, hr.lists id hu _ (look_of hb hrl)⟩
  cases r with
  | create replace p =>
    have hc := initial_chosen env p
    obtain ⟨hsz, hst, hlen⟩ := ha
    have hlc := chosen_length hc
    have hfw := fits_populateNew (sch := env.sch) (shuffle := env.shuffle) (reduce := env.reduce) (new := (listing env p).ent) hf.now
      (chosen_fine hc hst hr.payloads hf.now) hc.distinct (by have := hr.count; simp only [elementsOf] at this; omega)
    show ∀ w, Effect.blob w ∈ (create env db replace p).2 → _
    unfold create
    dsimp only
    split
    · simp
    · split
      · simp
      · split
        · simp
        · intro w hw
          rcases List.mem_append.1 (hbl hw) with hw | hw
          · exact hfw w hw
          · cases hb : byID db.lists p.id with
            | none => rw [hb] at hw; simp at hw
            | some o => rw [hb] at hw; exact fits_deleteAll (hs.writes hfw) w hw
  | clone org p =>
    show ∀ w, Effect.blob w ∈ (clone env db org p).2 → _
    unfold clone
    cases hb : byID db.lists org with
    | none => simp
    | some o =>
      dsimp only
      obtain ⟨o1, o2⟩ := byID_mem hb
      split
      · simp
      · split
        · simp
        · split
          · simp
          · cases hrl : reload db.store o.ent with
            | none => simp
            | some st =>
              dsimp only
              obtain ⟨l1, l2, l3⟩ := hlist o1 o2 hb hrl (by simp [uses])
              cases hcl : Lists.clone env.now p.mergeSize p.splitSize st with
              | none => simp
              | some st' =>
                intro w hw
                have := ids_length l1.scores l1.scoresIDs
                have := l2.scores.next
                exact fits_clone hf.now l1 l2 (by omega) (by omega) hcl w (hbl hw)
  | delete id =>
    show ∀ w, Effect.blob w ∈ (Server.delete env db id).2 → _
    unfold Server.delete
    cases hb : byID db.lists id with
    | none => simp
    | some l =>
      intro w hw
      simp only [List.mem_cons] at hw
      rcases hw with hw | hw
      · cases hw
      · exact fits_deleteAll hs w (hblob hw)
  | createElement id e =>
    apply writes_withList
    intro l st hl hid hb hrl
    obtain ⟨l1, l2, l3⟩ := hlist hl hid hb hrl (by simp [uses, target])
    split
    · simp
    · rename_i hno
      split
      · simp
      · intro w hw
        have hids : ∀ v ∈ [e.id], v < 2 ^ 64 := by simpa using ha.id
        obtain ⟨-, -, g3⟩ := Lists.getElements_spec (sch := env.sch) l1 hids 0
        refine fits_insert hf.now l1 l2 ?_ ?_ ?_ w (hblob hw)
        · intro x hx
          simp only [Elements.updateTime, List.map_cons, List.map_nil, List.mem_singleton] at hx
          subst hx
          exact ⟨⟨ha.score, ha.id, ha.tie, hf.now.2⟩, hf.now.1, hr.payloads e (by simp [elementsOf])⟩
        · unfold DistinctIDs
          rw [List.map_append, List.nodup_append]
          refine ⟨l1.scores.distinct, by simp [Elements.updateTime], ?_⟩
          intro a hain b hb hab
          simp only [Elements.updateTime, List.map_cons, List.map_nil, List.mem_singleton] at hb
          rw [hab, hb] at hain
          obtain ⟨x, hx, hxe⟩ := List.mem_map.1 hain
          obtain ⟨r, hr, -⟩ := g3 x hx (by simp [hxe])
          exact hno (List.length_pos_of_mem hr)
        · simp only [elementsOf, List.length_singleton] at l3
          simp only [Elements.updateTime, List.length_map, List.length_singleton]
          omega
  | createElements id es =>
    apply writes_withList
    intro l st hl hid hb hrl
    obtain ⟨l1, l2, l3⟩ := hlist hl hid hb hrl (by simp [uses, target])
    have hc := chosen_before env.now es (fun e he => (ha e he).2)
    have hfine := chosen_fine hc (fun e he => (ha e he).1) hr.payloads hf.now
    have hlc := chosen_length hc
    dsimp only
    generalize Elements.updateTime env.now (Elements.deduplicate es).1 = es' at *
    split
    · simp
    · rename_i hno
      split
      · simp
      · intro w hw
        have hids : ∀ v ∈ es'.map (·.id), v < 2 ^ 64 := by
          intro v hv
          obtain ⟨e, he, rfl⟩ := List.mem_map.1 hv
          exact (hfine e he).storable.id
        obtain ⟨-, -, g3⟩ := Lists.getElements_spec (sch := env.sch) l1 hids 0
        refine fits_insert hf.now l1 l2 hfine ?_ ?_ w (hblob hw)
        · unfold DistinctIDs
          rw [List.map_append, List.nodup_append]
          refine ⟨l1.scores.distinct, hc.distinct, ?_⟩
          intro a hain b hb hab
          rw [hab] at hain
          obtain ⟨x, hx, hxe⟩ := List.mem_map.1 hain
          obtain ⟨r, hr, -⟩ := g3 x hx (by rw [hxe]; exact hb)
          exact hno (List.length_pos_of_mem hr)
        · simp only [elementsOf] at l3
          omega
  | putElements id es =>
    apply writes_withList
    intro l st hl hid hb hrl w hw
    obtain ⟨l1, l2, l3⟩ := hlist hl hid hb hrl (by simp [uses, target])
    have hc := dedup_chosen env.now es
    have hlc := chosen_length hc
    simp only [elementsOf] at l3
    exact fits_updateElements hf.now l1 l2 (chosen_fine hc ha hr.payloads hf.now) hc.distinct (by omega) w (hblob hw)
  | deleteElements id ids =>
    apply writes_withList
    intro l st hl hid hb hrl w hw
    obtain ⟨l1, l2, l3⟩ := hlist hl hid hb hrl (by simp [uses, target])
    exact fits_deleteElements hf.now l1 l2 ha (by omega) w (hblob hw)
  | reindex id =>
    apply writes_withList
    intro l st hl hid hb hrl
    obtain ⟨l1, l2, l3⟩ := hlist hl hid hb hrl (by simp [uses, target])
    dsimp only
    split
    · simp
    · intro w hw
      exact fits_reindex hf.now l1 l2 (by omega) w (hbl hw)
  | repair id =>
    apply writes_withList
    intro l st hl hid hb hrl
    obtain ⟨l1, l2, l3⟩ := hlist hl hid hb hrl (by simp [uses, target])
    dsimp only
    split
    · simp
    · intro w hw
      obtain ⟨-, d2, d3, -, -⟩ := Elements.deduplicate_spec (st.scores.segs.flatMap fun s => (Elements.deduplicate s.elems).1)
      have hin : ∀ e ∈ (Elements.deduplicate (st.scores.segs.flatMap fun s => (Elements.deduplicate s.elems).1)).1, e ∈ st.content := by
        intro e he
        obtain ⟨s, hs, hes⟩ := List.mem_flatMap.1 (d3 e he)
        exact mem_allElems.2 ⟨s, hs, (Elements.deduplicate_spec s.elems).2.2.1 e hes⟩
      refine fits_populate hf.now l2 (fun e he => l2.fit.scores.all e (hin e he)) d2 ?_ w (hbl hw)
      have : ((Elements.deduplicate (st.scores.segs.flatMap fun s => (Elements.deduplicate s.elems).1)).1.map (·.id)).length
          ≤ (st.content.map (·.id)).length := by
        apply nodup_length_le d2
        intro i hid
        obtain ⟨e, he, rfl⟩ := List.mem_map.1 hid
        exact List.mem_map.2 ⟨e, hin e he, rfl⟩
      simp only [List.length_map] at this
      omega
  | split id merge =>
    apply writes_withList
    intro l st hl hid hb hrl w hw
    obtain ⟨l1, l2, l3⟩ := hlist hl hid hb hrl (by simp [uses, target])
    obtain ⟨a1, a2⟩ := ha l hl hid st hrl
    exact fits_split hf.now l1 l2 a1 a2 (by omega) w (hblob hw)
  | save => intro w hw; simp [handle] at hw

theorem applyAll_store {es : List Effect} {db : Db} (hs : StoreFits db.store) (h : ∀ w, Effect.blob w ∈ es → WriteFits w) :
    StoreFits (applyAll db es).store := by
  induction es generalizing db with
  | nil => exact hs
  | cons e es ih =>
    refine ih (db := apply db e) ?_ fun w hw => h w (List.mem_cons_of_mem _ hw)
    cases e with
    | blob w => exact hs.write (h w List.mem_cons_self)
    | put l => exact hs
    | drop i => exact hs
    | save => exact hs

/-- What a request puts into the catalogue: a new list with accepted options, or a list that is there, under new names. -/
theorem handle_put {env : Env} {db : Db} {r : Request} {l : Listing} (h : Effect.put l ∈ (handle env db r).2) :
    (∃ p, accepted p = true ∧ l = listing env p ∧ ((∃ b, r = .create b p) ∨ ∃ o, r = .clone o p)) ∨
    ∃ x ∈ db.lists, ∃ ent : Entry, l = { x with ent := ent } ∧ ent.mergeSize = x.ent.mergeSize ∧ ent.splitSize = x.ent.splitSize ∧
      (ent.scores = x.ent.scores ∨ ent.scores = env.scores) ∧ ent.index = env.index := by
  have hput : ∀ {ws : List Write} {l' : Listing}, Effect.put l ∈ ws.map Effect.blob ++ [.put l'] → l = l' := by
    intro ws l' hw
    rcases List.mem_append.1 hw with hw | hw
    · obtain ⟨x, hx, he⟩ := List.mem_map.1 hw; cases he
    · simpa using hw
  have hno : ∀ {ws : List Write}, Effect.put l ∉ ws.map Effect.blob := by
    intro ws hw
    obtain ⟨x, hx, he⟩ := List.mem_map.1 hw
    cases he
  have hwith : ∀ {id : Str} {f : Listing → ListState → Answer × List Effect}, Effect.put l ∈ (withList db id f).2 →
      ∃ x st, x ∈ db.lists ∧ Effect.put l ∈ (f x st).2 := by
    intro id f hm
    unfold withList at hm
    split at hm
    · simp at hm
    · rename_i x hb
      split at hm
      · simp at hm
      · rename_i st hrl
        exact ⟨x, st, (byID_mem hb).1, hm⟩
  cases r with
  | create replace p =>
    have h' : Effect.put l ∈ (create env db replace p).2 := h
    unfold create at h'
    dsimp only at h'
    split at h'
    · simp at h'
    · split at h'
      · simp at h'
      · rename_i hacc
        split at h'
        · simp at h'
        · exact .inl ⟨p, by simpa using hacc, hput h', .inl ⟨replace, rfl⟩⟩
  | clone org p =>
    have h' : Effect.put l ∈ (clone env db org p).2 := h
    unfold clone at h'
    split at h'
    · simp at h'
    · split at h'
      · simp at h'
      · split at h'
        · simp at h'
        · split at h'
          · simp at h'
          · rename_i hacc
            split at h'
            · simp at h'
            · split at h'
              · simp at h'
              · exact .inl ⟨p, by simpa using hacc, hput h', .inr ⟨org, rfl⟩⟩
  | delete id =>
    have h' : Effect.put l ∈ (Server.delete env db id).2 := h
    unfold Server.delete at h'
    split at h'
    · simp at h'
    · simp only [List.mem_cons] at h'
      rcases h' with h' | h'
      · cases h'
      · exact absurd h' hno
  | createElement id e =>
    obtain ⟨x, st, hx, hm⟩ := hwith h
    split at hm
    · simp at hm
    · split at hm
      · simp at hm
      · exact absurd hm hno
  | createElements id es =>
    obtain ⟨x, st, hx, hm⟩ := hwith h
    dsimp only at hm
    split at hm
    · simp at hm
    · split at hm
      · simp at hm
      · exact absurd hm hno
  | putElements id es =>
    obtain ⟨x, st, hx, hm⟩ := hwith h
    exact absurd hm hno
  | deleteElements id ids =>
    obtain ⟨x, st, hx, hm⟩ := hwith h
    exact absurd hm hno
  | reindex id =>
    obtain ⟨x, st, hx, hm⟩ := hwith h
    dsimp only at hm
    split at hm
    · simp at hm
    · exact .inr ⟨x, hx, _, hput hm, rfl, rfl, .inl rfl, rfl⟩
  | repair id =>
    obtain ⟨x, st, hx, hm⟩ := hwith h
    dsimp only at hm
    split at hm
    · simp at hm
    · exact .inr ⟨x, hx, _, hput hm, rfl, rfl, .inr rfl, rfl⟩
  | split id merge =>
    obtain ⟨x, st, hx, hm⟩ := hwith h
    exact absurd hm hno
  | save => simp [handle] at h

/-- A property of entries that all changes of the catalogue keep holds afterwards. -/
theorem applyAll_entries {P : Listing → Prop} {es : List Effect} {db : Db} (hl : ∀ l ∈ db.lists, P l) (hfile : ∀ l ∈ db.file, P l)
    (h : ∀ l, Effect.put l ∈ es → P l) : (∀ l ∈ (applyAll db es).lists, P l) ∧ ∀ l ∈ (applyAll db es).file, P l := by
  induction es generalizing db with
  | nil => exact ⟨hl, hfile⟩
  | cons e es ih =>
    refine ih (db := apply db e) ?_ ?_ fun l hm => h l (List.mem_cons_of_mem _ hm)
    · cases e with
      | blob w => exact hl
      | put l =>
        intro x hx
        rcases List.mem_cons.1 hx with rfl | hx
        · exact h x List.mem_cons_self
        · exact hl x (List.mem_filter.1 hx).1
      | drop i => exact fun x hx => hl x (List.mem_filter.1 hx).1
      | save => exact hl
    · cases e with
      | blob w => exact hfile
      | put l => exact hfile
      | drop i => exact hfile
      | save => exact hl

end RankDB.Props

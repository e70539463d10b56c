import Verif.Model.ApiServer
import Verif.Spec.Tokens
import Verif.Props.Server
import Verif.Props.Access
import Verif.Props.Catalogue
import Verif.Props.Queries
/-
C73: what tokens with restrictions allow. C74: requests for many lists.
-/
namespace RankDB.Props
open Spec Server Disk Access

/-! ### Requests for many lists -/

/-- A history of requests about other lists leaves a list as it is. -/
theorem history_others (rs : List (Env × Request)) (db : Db) (id : Str) (h : Good db) (hr : Ready db rs)
    (ht : ∀ x ∈ rs, target x.2 ≠ some id) : look (serveAll db rs).2 id = look db id := by
  induction rs generalizing db with
  | nil => rfl
  | cons x rs ih =>
    obtain ⟨env, r⟩ := x
    obtain ⟨h1, h2, h3⟩ := hr
    show look (serveAll (serve env db r).2 rs).2 id = _
    rw [ih _ (C70_request env db r h h1 h2).1 h3 (fun x hx => ht x (List.mem_cons_of_mem _ hx))]
    exact C70_others env db r id h h1 h2 (ht _ List.mem_cons_self)

theorem one_target (op : Bulk) (id : Str) : target (op.one id) = some id := by cases op <;> rfl

theorem fst_serveAll_length (rs : List (Env × Request)) (db : Db) : (serveAll db rs).1.length = rs.length := by
  induction rs generalizing db with
  | nil => rfl
  | cons x rs ih => simp [serveAll, ih]

/-- What a request for many lists does to each of them: what the request for this list alone does at some moment,
where the list is as it was at first. -/
theorem bulk_each (op : Bulk) (env : Str → Env) (ids : List Str) (hnd : ids.Nodup) (db : Db) (h : Good db)
    (hr : Ready db (ids.map fun id => (env id, op.one id))) (id : Str) (hid : id ∈ ids) :
    ∃ db0, Good db0 ∧ look db0 id = look db id ∧ Fits (env id) db0 ∧ Spec.Allowed db0 (op.one id) ∧
      look (serveAll db (ids.map fun id => (env id, op.one id))).2 id = look (serve (env id) db0 (op.one id)).2 id ∧
      (id, (serve (env id) db0 (op.one id)).1) ∈ ids.zip (serveAll db (ids.map fun id => (env id, op.one id))).1 := by
  induction ids generalizing db with
  | nil => simp at hid
  | cons x ids ih =>
    obtain ⟨h1, h2, h3⟩ := hr
    rw [List.nodup_cons] at hnd
    have hg := (C70_request (env x) db (op.one x) h h1 h2).1
    by_cases hx : id = x
    · subst hx
      refine ⟨db, h, rfl, h1, h2, ?_, ?_⟩
      · show look (serveAll (serve (env id) db (op.one id)).2 _).2 id = _
        apply history_others _ _ _ hg h3
        intro y hy
        obtain ⟨z, hz, rfl⟩ := List.mem_map.1 hy
        rw [one_target]
        intro he
        rw [Option.some.inj he] at hz
        exact hnd.1 hz
      · simp [serveAll]
    · have hin : id ∈ ids := by
        rcases List.mem_cons.1 hid with h4 | h4
        · exact absurd h4 hx
        · exact h4
      obtain ⟨db0, i1, i2, i3, i4, i5, i6⟩ := ih hnd.2 _ hg h3 hin
      refine ⟨db0, i1, ?_, i3, i4, i5, ?_⟩
      · rw [i2]
        apply C70_others (env x) db (op.one x) id h h1 h2
        rw [one_target]
        intro he; exact hx (Option.some.inj he).symm
      · show _ ∈ (x :: ids).zip ((serve (env x) db (op.one x)).1 :: (serveAll _ _).1)
        rw [List.zip_cons_cons]
        exact List.mem_cons_of_mem _ i6

theorem select_nodup {l : List Str} : (Catalogue.deduplicate l).1.Nodup := by
  have := (C48_deduplicate_lists l).1
  exact this.imp (fun h he => by subst he; exact absurd h (Catalogue.slt_irrefl _))

/-- The lists are those that are named or that match, each once. -/
theorem C74_selected (db : Db) (s : Select) (h : Good db)
    (hmap : ∀ l ∈ db.lists, ∀ m, l.metadata = some m → (m.map (·.1)).Nodup) :
    (selectAlways db s).Nodup ∧ ∀ id, id ∈ selectAlways db s ↔ id ∈ s.lists ∨ ∃ l ∈ db.lists, l.id = id ∧
      (l.set ∈ s.sets ∨ s.fields ≠ [] ∧ ∃ m, l.metadata = some m ∧
        ∀ kv ∈ s.fields, kv ∈ m ∨ (kv.2 = [] ∧ kv.1 ∉ m.map (·.1))) := by
  refine ⟨select_nodup, fun id => ?_⟩
  unfold selectAlways
  rw [(C48_deduplicate_lists _).2.1, List.mem_append]
  have hd : Spec.DistinctLists (entries db) := by
    unfold Spec.DistinctLists entries
    rw [List.map_map]
    exact h.ids
  rw [(C45_selected (entries db) hd s.fields s.sets (by
    intro e he m hm
    obtain ⟨l, hl, rfl⟩ := List.mem_map.1 he
    exact hmap l hl m hm)).2 id]
  constructor
  · rintro (h1 | ⟨e, he, h1, h2⟩)
    · exact .inl h1
    · obtain ⟨l, hl, rfl⟩ := List.mem_map.1 he
      exact .inr ⟨l, hl, h1, h2⟩
  · rintro (h1 | ⟨l, hl, h1, h2⟩)
    · exact .inl h1
    · exact .inr ⟨_, List.mem_map.2 ⟨l, hl, rfl⟩, h1, h2⟩

/-- If fields are asked for, all requests select the same lists. -/
theorem C74_same_partial (db : Db) (s : Select) (hf : s.fields ≠ [] ∨ s.sets = []) :
    selectFields db s = selectAlways db s ∧ (s.lists ≠ [] ∨ s.fields ≠ [] → selectOrAll db s = selectAlways db s) := by
  have h1 : selectFields db s = selectAlways db s := by
    unfold selectFields selectAlways
    rcases hf with hf | hf
    · rw [if_pos (List.length_pos_iff.2 hf)]
    · rw [hf]
      cases hq : s.fields with
      | nil => rfl
      | cons a b => rw [if_pos (by simp)]
  refine ⟨h1, fun h2 => ?_⟩
  unfold selectOrAll
  rw [if_neg, h1]
  rcases h2 with h2 | h2
  · have := List.length_pos_iff.2 h2; omega
  · have := List.length_pos_iff.2 h2; omega

/-- Sets alone are ignored when elements are created or put: only the named lists are selected. -/
theorem C74_sets_ignored (db : Db) (s : Select) (h : s.fields = []) (id : Str) : id ∈ selectFields db s ↔ id ∈ s.lists := by
  unfold selectFields
  rw [h, if_neg (by simp), List.append_nil, (C48_deduplicate_lists _).2.1]

/-- A request to reindex, verify or back up the lists of some sets alone is applied to all lists. -/
theorem C74_all_instead (db : Db) (sets : List Str) : selectOrAll db ⟨[], [], sets⟩ = db.lists.map (·.id) := rfl

/-- The report names every selected list once. -/
theorem C74_report (op : Bulk) (env : Str → Env) (sch : Sched) (db : Db) (s : Select) :
    ((sch.order (op.lists db s)).zip (serveAll db ((Call.bulk s op).requests sch env db)).1).map (·.1) =
      sch.order (op.lists db s) := by
  rw [List.map_fst_zip]
  rw [fst_serveAll_length]
  simp [Call.requests]

/-- Putting elements into many lists: every selected list that exists has them afterwards and answers with success,
for the others "not found" is reported, and no other list is changed. The goroutines may run in any order. -/
theorem C74_put (es : List Element) (env : Str → Env) (sch : Sched) (db : Db) (s : Select) (h : Good db)
    (hr : Ready db ((Call.bulk s (.put es)).requests sch env db)) :
    (∀ id, id ∉ selectFields db s → look ((Call.bulk s (.put es)).run sch env db).2 id = look db id) ∧
    ∀ id, id ∈ selectFields db s → ∃ a, (∃ rep, ((Call.bulk s (.put es)).run sch env db).1 = .report rep ∧ (id, a) ∈ rep) ∧
      match look db id with
      | none => a = .notFound ∧ look ((Call.bulk s (.put es)).run sch env db).2 id = none
      | some l => a = .ok ∧ ∃ es', Chosen (env id).now es es' ∧
          look ((Call.bulk s (.put es)).run sch env db).2 id = some { l with content := ranking (upsert l.content es') } := by
  constructor
  · intro id hid
    apply history_others _ _ _ h hr
    intro x hx
    obtain ⟨y, hy, rfl⟩ := List.mem_map.1 hx
    rw [one_target]
    intro he
    rw [Option.some.inj he] at hy
    exact hid ((sch.perm _).mem_iff.1 hy)
  · intro id hid
    have hnd : (sch.order (selectFields db s)).Nodup := (sch.perm _).nodup_iff.2 select_nodup
    obtain ⟨db0, i1, i2, i3, i4, i5, i6⟩ := bulk_each (.put es) env _ hnd db h hr id ((sch.perm _).mem_iff.2 hid)
    have hm := (C70_request (env id) db0 _ i1 i3 i4).2
    refine ⟨_, ⟨_, rfl, i6⟩, ?_⟩
    have hrun : look ((Call.bulk s (.put es)).run sch env db).2 id = _ := i5
    rw [hrun]
    simp only [Bulk.one, Means, i2] at hm ⊢
    cases hl : look db id with
    | none =>
      rw [hl] at hm
      exact ⟨hm.1, by rw [hm.2, i2, hl]⟩
    | some l =>
      rw [hl] at hm
      obtain ⟨h1, es', h2, h3⟩ := hm
      exact ⟨h1, es', h2, by rw [h3]; simp [Lists.set]⟩

/-- Deleting elements from many lists. -/
theorem C74_delete (ids : List Nat) (env : Str → Env) (sch : Sched) (db : Db) (s : Select) (h : Good db)
    (hr : Ready db ((Call.bulk s (.delete ids)).requests sch env db)) :
    (∀ id, id ∉ selectAlways db s → look ((Call.bulk s (.delete ids)).run sch env db).2 id = look db id) ∧
    ∀ id, id ∈ selectAlways db s → ∃ a, (∃ rep, ((Call.bulk s (.delete ids)).run sch env db).1 = .report rep ∧ (id, a) ∈ rep) ∧
      match look db id with
      | none => a = .notFound ∧ look ((Call.bulk s (.delete ids)).run sch env db).2 id = none
      | some l => a = .ok ∧
          look ((Call.bulk s (.delete ids)).run sch env db).2 id = some { l with content := remove l.content ids } := by
  constructor
  · intro id hid
    apply history_others _ _ _ h hr
    intro x hx
    obtain ⟨y, hy, rfl⟩ := List.mem_map.1 hx
    rw [one_target]
    intro he
    rw [Option.some.inj he] at hy
    exact hid ((sch.perm _).mem_iff.1 hy)
  · intro id hid
    have hnd : (sch.order (selectAlways db s)).Nodup := (sch.perm _).nodup_iff.2 select_nodup
    obtain ⟨db0, i1, i2, i3, i4, i5, i6⟩ := bulk_each (.delete ids) env _ hnd db h hr id ((sch.perm _).mem_iff.2 hid)
    have hm := (C70_request (env id) db0 _ i1 i3 i4).2
    refine ⟨_, ⟨_, rfl, i6⟩, ?_⟩
    have hrun : look ((Call.bulk s (.delete ids)).run sch env db).2 id = _ := i5
    rw [hrun]
    simp only [Bulk.one, Means, i2] at hm ⊢
    cases hl : look db id with
    | none =>
      rw [hl] at hm
      exact ⟨hm.1, by rw [hm.2, i2, hl]⟩
    | some l =>
      rw [hl] at hm
      exact ⟨hm.1, by rw [hm.2]; simp [Lists.set]⟩

/-- Creating elements in many lists: in every selected list either all are created, or one of them was there
already, and nothing is changed. -/
theorem C74_create (es : List Element) (env : Str → Env) (sch : Sched) (db : Db) (s : Select) (h : Good db)
    (hr : Ready db ((Call.bulk s (.create es)).requests sch env db)) :
    (∀ id, id ∉ selectFields db s → look ((Call.bulk s (.create es)).run sch env db).2 id = look db id) ∧
    ∀ id, id ∈ selectFields db s → ∃ a, (∃ rep, ((Call.bulk s (.create es)).run sch env db).1 = .report rep ∧ (id, a) ∈ rep) ∧
      match look db id with
      | none => a = .notFound ∧ look ((Call.bulk s (.create es)).run sch env db).2 id = none
      | some l =>
        if ∃ e ∈ es, e.id ∈ l.content.map (·.id)
        then a = .conflict ∧ look ((Call.bulk s (.create es)).run sch env db).2 id = some l
        else a = .ok ∧ ∃ es', Chosen (env id).now es es' ∧
          look ((Call.bulk s (.create es)).run sch env db).2 id = some { l with content := ranking (l.content ++ es') } := by
  constructor
  · intro id hid
    apply history_others _ _ _ h hr
    intro x hx
    obtain ⟨y, hy, rfl⟩ := List.mem_map.1 hx
    rw [one_target]
    intro he
    rw [Option.some.inj he] at hy
    exact hid ((sch.perm _).mem_iff.1 hy)
  · intro id hid
    have hnd : (sch.order (selectFields db s)).Nodup := (sch.perm _).nodup_iff.2 select_nodup
    obtain ⟨db0, i1, i2, i3, i4, i5, i6⟩ := bulk_each (.create es) env _ hnd db h hr id ((sch.perm _).mem_iff.2 hid)
    have hm := (C70_request (env id) db0 _ i1 i3 i4).2
    refine ⟨_, ⟨_, rfl, i6⟩, ?_⟩
    have hrun : look ((Call.bulk s (.create es)).run sch env db).2 id = _ := i5
    rw [hrun]
    simp only [Bulk.one, Means, i2] at hm ⊢
    cases hl : look db id with
    | none =>
      rw [hl] at hm
      exact ⟨hm.1, by rw [hm.2, i2, hl]⟩
    | some l =>
      rw [hl] at hm
      dsimp only at hm ⊢
      by_cases hc : ∃ e ∈ es, e.id ∈ l.content.map (·.id)
      · rw [if_pos hc] at hm ⊢
        exact ⟨hm.1, by rw [hm.2, i2, hl]⟩
      · rw [if_neg hc] at hm ⊢
        obtain ⟨h1, es', h2, h3⟩ := hm
        exact ⟨h1, es', h2, by rw [h3]; simp [Lists.set]⟩

/-! ### Tokens -/

theorem dedup_ids (es : List Element) (i : Nat) : i ∈ ((Elements.deduplicate es).1).map (·.id) ↔ i ∈ es.map (·.id) := by
  obtain ⟨_, _, d3, d4, _⟩ := Elements.deduplicate_spec es
  constructor
  · intro h
    obtain ⟨e, he, rfl⟩ := List.mem_map.1 h
    exact List.mem_map_of_mem (d3 e he)
  · intro h
    obtain ⟨e, he, rfl⟩ := List.mem_map.1 h
    obtain ⟨k, hk, hke⟩ := d4 e he
    exact List.mem_map.2 ⟨k, hk, hke.1⟩

/-- The lists of the requests of a call are among those that are checked. -/
theorem request_lists (sch : Sched) (env : Str → Env) (db : Db) (c : Call) (scope : Text) (hs : c.scope = some scope)
    (hm : scope ≠ scopeManage) (x : Env × Request) (hx : x ∈ c.requests sch env db) :
    ∃ id ∈ (c.checks db).1, target x.2 = some id := by
  cases c with
  | one r =>
    simp only [Call.requests, List.mem_singleton] at hx
    subst hx
    cases r <;> simp_all [Call.scope, Call.checks, target]
  | bulk s op =>
    obtain ⟨id, hid, rfl⟩ := List.mem_map.1 hx
    refine ⟨id, ?_, one_target op id⟩
    have := (sch.perm _).mem_iff.1 hid
    cases op <;> first | exact this | (simp_all [Call.scope])
  | get _ _ _ => simp [Call.requests] at hx
  | getBulk _ _ => simp [Call.requests] at hx
  | range _ _ _ => simp [Call.requests] at hx

theorem run_requests (sch : Sched) (env : Str → Env) (db : Db) (c : Call) :
    (c.run sch env db).2 = (serveAll db (c.requests sch env db)).2 := by
  cases c <;> rfl

theorem call_cases (txt : Str → Text) (auth : Auth) (sch : Sched) (env : Str → Env) (db : Db) (c : Call)
    (ht : auth.token ≠ .none) (hm : scopeManage ∉ auth.scopes) :
    ((call txt auth sch env db c).2 = db ∧ ((call txt auth sch env db c).1 = .unauthorized ∨ (call txt auth sch env db c).1 = .answer .notFound)) ∨
    ∃ scope, c.scope = some scope ∧ scope ≠ scopeManage ∧ scope ∈ auth.scopes ∧
      hasAccessToList auth.token ((c.checks db).1.map txt) = .ok ∧ hasAccessToElement auth.token (c.checks db).2 = .ok ∧
      call txt auth sch env db c = c.run sch env db := by
  unfold call
  cases hs : c.scope with
  | none => exact .inl ⟨rfl, .inr rfl⟩
  | some scope =>
    dsimp only
    by_cases h1 : auth.allows scope = true
    · have hin : scope ∈ auth.scopes := by
        unfold Auth.allows at h1
        simp only [Bool.or_eq_true, beq_iff_eq, List.contains_iff_mem] at h1
        exact h1.resolve_left ht
      have hne : scope ≠ scopeManage := fun he => hm (he ▸ hin)
      rw [if_neg (by simp [h1]), if_neg hne]
      by_cases h2 : hasAccessToList auth.token ((c.checks db).1.map txt) = .ok
      · rw [if_neg (by simp [h2])]
        by_cases h3 : hasAccessToElement auth.token (c.checks db).2 = .ok
        · rw [if_neg (by simp [h3])]
          exact .inr ⟨scope, rfl, hne, hin, h2, h3, rfl⟩
        · rw [if_pos h3]; exact .inl ⟨rfl, .inl rfl⟩
      · rw [if_pos h2]; exact .inl ⟨rfl, .inl rfl⟩
    · rw [if_pos (by simp [h1])]; exact .inl ⟨rfl, .inl rfl⟩

/-- With a token that is restricted to lists and does not have the scope for management, no call changes a list that
is not named in the restriction. -/
theorem C73_lists (txt : Str → Text) (auth : Auth) (val : Text) (el : Claim)
    (ht : auth.token = .claims (.str val) el) (hm : scopeManage ∉ auth.scopes)
    (sch : Sched) (env : Str → Env) (db : Db) (c : Call) (h : Good db) (hr : Ready db (c.requests sch env db))
    (id : Str) (hid : ¬ NamesList val (txt id)) : look (call txt auth sch env db c).2 id = look db id := by
  rcases call_cases txt auth sch env db c (by rw [ht]; simp) hm with h1 | ⟨scope, h1, h2, _, h3, _, h5⟩
  · rw [h1.1]
  · rw [h5, run_requests]
    apply history_others _ _ _ h hr
    intro x hx he
    obtain ⟨id', hin, ht'⟩ := request_lists sch env db c scope h1 h2 x hx
    rw [he] at ht'
    rw [ht, C47_restricted_lists] at h3
    exact hid (h3 _ (List.mem_map_of_mem (Option.some.inj ht' ▸ hin)))

/-- The elements that a request may touch. -/
def touches : Request → List Nat
  | .createElement _ e => [e.id]
  | .createElements _ es | .putElements _ es => es.map (·.id)
  | .deleteElements _ ids => ids
  | _ => []

/-- Requests about elements. -/
def aboutElements : Request → Prop
  | .createElement .. | .createElements .. | .putElements .. | .deleteElements .. => True
  | _ => False

theorem chosen_ids {now : Nat} {es es' : List Element} (h : Chosen now es es') {e : Element} (he : e ∈ es') :
    e.id ∈ es.map (·.id) := by
  obtain ⟨x, hx, rfl⟩ := h.given e he
  exact List.mem_map.2 ⟨x, hx, rfl⟩

/-- A request about elements leaves the others as they are, and no list appears or disappears. -/
theorem request_untouched (env : Env) (db : Db) (r : Request) (h : Good db) (hf : Fits env db) (ha : Spec.Allowed db r)
    (hr : aboutElements r) (eid : Nat) (he : eid ∉ touches r) (id : Str) :
    Untouched eid (look db id) (look (serve env db r).2 id) := by
  by_cases htar : target r = some id
  · have hm := (C70_request env db r h hf ha).2
    cases r with
    | createElement i e =>
      simp only [target, Option.some.injEq] at htar
      subst htar
      simp only [Means] at hm
      cases hl : look db i with
      | none => rw [hl] at hm; rw [hm.2, hl]; trivial
      | some l =>
        rw [hl] at hm
        dsimp only at hm
        split at hm
        · rw [hm.2, hl]; exact .refl _ _
        · rw [hm.2]
          simp only [Lists.set, if_pos]
          refine ⟨rfl, fun a hae => ?_⟩
          show a ∈ ranking (l.content ++ _) ↔ _
          rw [(ranking_perm _).mem_iff, List.mem_append, List.mem_singleton]
          constructor
          · rintro (h1 | h1)
            · exact h1
            · subst h1; subst hae; exact absurd List.mem_cons_self he
          · exact .inl
    | createElements i es =>
      simp only [target, Option.some.injEq] at htar
      subst htar
      simp only [Means] at hm
      cases hl : look db i with
      | none => rw [hl] at hm; rw [hm.2, hl]; trivial
      | some l =>
        rw [hl] at hm
        dsimp only at hm
        split at hm
        · rw [hm.2, hl]; exact .refl _ _
        · obtain ⟨_, es', hc, hm2⟩ := hm
          rw [hm2]
          simp only [Lists.set, if_pos]
          refine ⟨rfl, fun a hae => ?_⟩
          show a ∈ ranking (l.content ++ _) ↔ _
          rw [(ranking_perm _).mem_iff, List.mem_append]
          constructor
          · rintro (h1 | h1)
            · exact h1
            · exact absurd (hae ▸ chosen_ids hc h1) he
          · exact .inl
    | putElements i es =>
      simp only [target, Option.some.injEq] at htar
      subst htar
      simp only [Means] at hm
      cases hl : look db i with
      | none => rw [hl] at hm; rw [hm.2, hl]; trivial
      | some l =>
        rw [hl] at hm
        obtain ⟨_, es', hc, hm2⟩ := hm
        rw [hm2]
        simp only [Lists.set, if_pos]
        refine ⟨rfl, fun a hae => ?_⟩
        show a ∈ ranking (upsert _ _) ↔ _
        rw [(ranking_perm _).mem_iff]
        unfold upsert
        rw [List.mem_append, List.mem_filter]
        constructor
        · rintro (h1 | h1)
          · exact absurd (hae ▸ chosen_ids hc h1) he
          · exact h1.1
        · intro h1
          refine .inr ⟨h1, ?_⟩
          have : a.id ∉ es'.map (·.id) := by
            intro h2
            obtain ⟨x, hx, hxe⟩ := List.mem_map.1 h2
            exact he (hae ▸ hxe ▸ chosen_ids hc hx)
          simpa using this
    | deleteElements i ids =>
      simp only [target, Option.some.injEq] at htar
      subst htar
      simp only [Means] at hm
      cases hl : look db i with
      | none => rw [hl] at hm; rw [hm.2, hl]; trivial
      | some l =>
        rw [hl] at hm
        rw [hm.2]
        simp only [Lists.set, if_pos]
        refine ⟨rfl, fun a hae => ?_⟩
        show a ∈ remove _ _ ↔ _
        unfold remove
        rw [List.mem_filter]
        have : a.id ∉ ids := hae ▸ he
        simp [this]
    | _ => exact absurd hr (by simp [aboutElements])
  · rw [C70_others env db r id h hf ha htar]
    exact .refl _ _

theorem history_untouched (rs : List (Env × Request)) (db : Db) (h : Good db) (hr : Ready db rs)
    (ha : ∀ x ∈ rs, aboutElements x.2) (eid : Nat) (he : ∀ x ∈ rs, eid ∉ touches x.2) (id : Str) :
    Untouched eid (look db id) (look (serveAll db rs).2 id) := by
  induction rs generalizing db with
  | nil => exact .refl _ _
  | cons x rs ih =>
    obtain ⟨env, r⟩ := x
    obtain ⟨h1, h2, h3⟩ := hr
    exact (request_untouched env db r h h1 h2 (ha _ List.mem_cons_self) eid (he _ List.mem_cons_self) id).trans
      (ih _ (C70_request env db r h h1 h2).1 h3 (fun x hx => ha x (List.mem_cons_of_mem _ hx))
        (fun x hx => he x (List.mem_cons_of_mem _ hx)))

/-- The requests of a call without management are about elements that are checked. -/
theorem request_elements (sch : Sched) (env : Str → Env) (db : Db) (c : Call) (scope : Text) (hs : c.scope = some scope)
    (hm : scope ≠ scopeManage) (x : Env × Request) (hx : x ∈ c.requests sch env db) :
    aboutElements x.2 ∧ ∀ i ∈ touches x.2, i ∈ (c.checks db).2 := by
  cases c with
  | one r =>
    simp only [Call.requests, List.mem_singleton] at hx
    subst hx
    cases r with
    | putElements i es => exact ⟨trivial, fun i hi => (dedup_ids es i).2 hi⟩
    | createElement i e => exact ⟨trivial, fun i hi => hi⟩
    | deleteElements i e => exact ⟨trivial, fun i hi => hi⟩
    | _ => simp_all [Call.scope]
  | bulk s op =>
    obtain ⟨id, hid, rfl⟩ := List.mem_map.1 hx
    cases op with
    | create es => exact ⟨trivial, fun i hi => (dedup_ids es i).2 hi⟩
    | put es => exact ⟨trivial, fun i hi => (dedup_ids es i).2 hi⟩
    | delete ids => exact ⟨trivial, fun i hi => hi⟩
    | reindex => simp_all [Call.scope]
  | get _ _ _ => simp [Call.requests] at hx
  | getBulk _ _ => simp [Call.requests] at hx
  | range _ _ _ => simp [Call.requests] at hx

/-- With a token that is restricted to elements and does not have the scope for management, no call changes, adds or
deletes an element that is not named in the restriction, in any list. -/
theorem C73_elements (txt : Str → Text) (auth : Auth) (val : Text) (li : Claim)
    (ht : auth.token = .claims li (.str val)) (hm : scopeManage ∉ auth.scopes)
    (sch : Sched) (env : Str → Env) (db : Db) (c : Call) (h : Good db) (hr : Ready db (c.requests sch env db))
    (eid : Nat) (hid : ¬ NamesElement val eid) (id : Str) :
    Untouched eid (look db id) (look (call txt auth sch env db c).2 id) := by
  rcases call_cases txt auth sch env db c (by rw [ht]; simp) hm with h1 | ⟨scope, h1, h2, _, _, h4, h5⟩
  · rw [h1.1]; exact .refl _ _
  · rw [h5, run_requests]
    apply history_untouched _ _ h hr (fun x hx => (request_elements sch env db c scope h1 h2 x hx).1)
    intro x hx he
    rw [ht, C47_restricted_elements] at h4
    exact hid (h4 _ ((request_elements sch env db c scope h1 h2 x hx).2 _ he))

/-- Without the scope for updates, that for deletions and that for management nothing is changed. -/
theorem C73_read_only (txt : Str → Text) (auth : Auth) (ht : auth.token ≠ .none)
    (hs : ∀ s ∈ auth.scopes, s = scopeRead) (sch : Sched) (env : Str → Env) (db : Db) (c : Call) :
    (call txt auth sch env db c).2 = db := by
  have hm : scopeManage ∉ auth.scopes := fun h => absurd (hs _ h) (by decide)
  rcases call_cases txt auth sch env db c ht hm with h1 | ⟨scope, h1, _, h2, _, _, h5⟩
  · exact h1.1
  · have := hs _ h2
    subst this
    rw [h5]
    cases c with
    | one r => cases r <;> exact absurd h1 (by simp only [Call.scope]; decide)
    | bulk s op => cases op <;> exact absurd h1 (by simp only [Call.scope]; decide)
    | _ => rfl

/-- Requests that add or change elements keep the IDs of the others. -/
theorem request_keeps (env : Env) (db : Db) (r : Request) (h : Good db) (hf : Fits env db) (ha : Spec.Allowed db r)
    (hr : aboutElements r) (hd : ∀ i ids, r ≠ .deleteElements i ids) (id : Str) (l : Seen) (hl : look db id = some l) :
    ∃ l', look (serve env db r).2 id = some l' ∧ ∀ e ∈ l.content, e.id ∈ l'.content.map (·.id) := by
  by_cases htar : target r = some id
  · have hm := (C70_request env db r h hf ha).2
    have hsame : ∀ e ∈ l.content, e.id ∈ l.content.map (·.id) := fun e he => List.mem_map_of_mem he
    cases r with
    | createElement i e =>
      simp only [target, Option.some.injEq] at htar
      subst htar
      simp only [Means, hl] at hm
      split at hm
      · exact ⟨l, by rw [hm.2, hl], hsame⟩
      · refine ⟨_, by rw [hm.2]; simp only [Lists.set, if_pos]; rfl, fun e he => ?_⟩
        exact List.mem_map_of_mem ((ranking_perm _).mem_iff.2 (List.mem_append_left _ he))
    | createElements i es =>
      simp only [target, Option.some.injEq] at htar
      subst htar
      simp only [Means, hl] at hm
      split at hm
      · exact ⟨l, by rw [hm.2, hl], hsame⟩
      · obtain ⟨_, es', hc, hm2⟩ := hm
        refine ⟨_, by rw [hm2]; simp only [Lists.set, if_pos]; rfl, fun e he => ?_⟩
        exact List.mem_map_of_mem ((ranking_perm _).mem_iff.2 (List.mem_append_left _ he))
    | putElements i es =>
      simp only [target, Option.some.injEq] at htar
      subst htar
      simp only [Means, hl] at hm
      obtain ⟨_, es', hc, hm2⟩ := hm
      refine ⟨_, by rw [hm2]; simp only [Lists.set, if_pos]; rfl, fun e he => ?_⟩
      show e.id ∈ (ranking (upsert _ _)).map _
      rw [((ranking_perm _).map _).mem_iff]
      unfold upsert
      rw [List.map_append, List.mem_append]
      by_cases hin : e.id ∈ es'.map (·.id)
      · exact .inl hin
      · exact .inr (List.mem_map_of_mem (List.mem_filter.2 ⟨he, by simpa using hin⟩))
    | deleteElements i ids => exact absurd rfl (hd i ids)
    | _ => exact absurd hr (by simp [aboutElements])
  · exact ⟨l, by rw [C70_others env db r id h hf ha htar, hl], fun e he => List.mem_map_of_mem he⟩

theorem history_keeps (rs : List (Env × Request)) (db : Db) (h : Good db) (hr : Ready db rs)
    (ha : ∀ x ∈ rs, aboutElements x.2 ∧ ∀ i ids, x.2 ≠ .deleteElements i ids) (id : Str) (l : Seen) (hl : look db id = some l) :
    ∃ l', look (serveAll db rs).2 id = some l' ∧ ∀ e ∈ l.content, e.id ∈ l'.content.map (·.id) := by
  induction rs generalizing db l with
  | nil => exact ⟨l, hl, fun e he => List.mem_map_of_mem he⟩
  | cons x rs ih =>
    obtain ⟨env, r⟩ := x
    obtain ⟨h1, h2, h3⟩ := hr
    have hx := ha _ List.mem_cons_self
    obtain ⟨l1, hl1, hk1⟩ := request_keeps env db r h h1 h2 hx.1 hx.2 id l hl
    obtain ⟨l2, hl2, hk2⟩ := ih _ (C70_request env db r h h1 h2).1 h3 (fun x hx => ha x (List.mem_cons_of_mem _ hx)) l1 hl1
    refine ⟨l2, hl2, fun e he => ?_⟩
    obtain ⟨k, hk, hke⟩ := List.mem_map.1 (hk1 e he)
    rw [← hke]; exact hk2 k hk

/-- Without the scope for deletions and that for management no list and no element disappears. -/
theorem C73_no_delete (txt : Str → Text) (auth : Auth) (ht : auth.token ≠ .none)
    (hs : scopeDelete ∉ auth.scopes) (hm : scopeManage ∉ auth.scopes) (sch : Sched) (env : Str → Env) (db : Db) (c : Call)
    (h : Good db) (hr : Ready db (c.requests sch env db)) (id : Str) (l : Seen) (hl : look db id = some l) :
    ∃ l', look (call txt auth sch env db c).2 id = some l' ∧ ∀ e ∈ l.content, e.id ∈ l'.content.map (·.id) := by
  rcases call_cases txt auth sch env db c ht hm with h1 | ⟨scope, h1, hne, h2, _, _, h5⟩
  · exact ⟨l, by rw [h1.1, hl], fun e he => List.mem_map_of_mem he⟩
  · rw [h5, run_requests]
    apply history_keeps _ _ h hr _ id l hl
    intro x hx
    refine ⟨(request_elements sch env db c scope h1 hne x hx).1, fun i ids hd => ?_⟩
    cases c with
    | one r =>
      simp only [Call.requests, List.mem_singleton] at hx
      subst hx
      simp only at hd
      subst hd
      simp only [Call.scope, Option.some.injEq] at h1
      exact hs (h1 ▸ h2)
    | bulk s op =>
      obtain ⟨j, _, rfl⟩ := List.mem_map.1 hx
      cases op with
      | delete _ =>
        simp only [Call.scope, Option.some.injEq] at h1
        exact hs (h1 ▸ h2)
      | _ => simp [Bulk.one] at hd
    | _ => simp [Call.requests] at hx

/-- A call with the scope of the endpoint, for lists and elements that are named in the restrictions, does what it
does without a token. -/
theorem C73_permitted (txt : Str → Text) (auth : Auth) (lv ev : Text) (ht : auth.token = .claims (.str lv) (.str ev))
    (sch : Sched) (env : Str → Env) (db : Db) (c : Call) (scope : Text) (hs : c.scope = some scope) (hin : scope ∈ auth.scopes)
    (hl : ∀ id ∈ (c.checks db).1, NamesList lv (txt id)) (he : ∀ i ∈ (c.checks db).2, NamesElement ev i) :
    call txt auth sch env db c = call txt ⟨.none, []⟩ sch env db c := by
  have h1 : hasAccessToList auth.token ((c.checks db).1.map txt) = .ok := by
    rw [ht, C47_restricted_lists]
    intro i hi
    obtain ⟨j, hj, rfl⟩ := List.mem_map.1 hi
    exact hl j hj
  have h2 : hasAccessToElement auth.token (c.checks db).2 = .ok := by
    rw [ht, C47_restricted_elements]; exact he
  unfold call
  rw [hs]
  dsimp only
  have ha : auth.allows scope = true := by unfold Auth.allows; simp [hin]
  rw [ha, h1, h2]
  simp [Auth.allows, hasAccessToList, hasAccessToElement]

/-- Lookups by element ID with restricted tokens show elements of named lists only, with named IDs. Partial: the
neighbours of an element are shown (README.md), and so are all elements of a range of ranks, see
`C73_range_unrestricted`. -/
theorem C73_reads_partial (txt : Str → Text) (auth : Auth) (lv ev : Text) (ht : auth.token = .claims (.str lv) (.str ev))
    (hm : scopeManage ∉ auth.scopes) (sch : Sched) (env : Str → Env) (db : Db) (c : Call) (h : Good db)
    (hb : ∀ i ∈ (c.checks db).2, i < 2 ^ 64) (l : List (Str × List Segments.Ranked))
    (hl : (call txt auth sch env db c).1 = .found l) (x : Str × List Segments.Ranked) (hx : x ∈ l) :
    NamesList lv (txt x.1) ∧ (∃ s, look db x.1 = some s ∧ ∀ r ∈ x.2, r.elem ∈ s.content) ∧
    ∀ r ∈ x.2, NamesElement ev r.elem.id := by
  rcases call_cases txt auth sch env db c (by rw [ht]; simp) hm with h1 | ⟨scope, h1, _, h2, h3, h4, h5⟩
  · rcases h1.2 with h2 | h2 <;> simp [h2] at hl
  · rw [h5] at hl
    rw [ht, C47_restricted_lists] at h3
    rw [ht, C47_restricted_elements] at h4
    have key : ∀ (ids : List Nat) (radius : Nat) (id : Str), (∀ i ∈ ids, i < 2 ^ 64) → (∀ i ∈ ids, NamesElement ev i) →
        lookup sch db ids radius id = some x → x.1 = id ∧ (∃ s, look db x.1 = some s ∧ ∀ r ∈ x.2, r.elem ∈ s.content) ∧
          ∀ r ∈ x.2, NamesElement ev r.elem.id := by
      intro ids radius id hb hn hx
      unfold Server.lookup at hx
      cases hby : byID db.lists id with
      | none => rw [hby] at hx; simp at hx
      | some li =>
        rw [hby] at hx
        obtain ⟨st, hst, hok⟩ := h.readable li (List.mem_of_find?_eq_some hby)
        simp only [Option.bind_some, hst, Option.map_some, Option.some.injEq] at hx
        subst hx
        have hsp := (Lists.getElements_spec (sch := sch) hok hb radius).2.1
        refine ⟨rfl, ⟨_, by unfold look; rw [hby]; simp only [Option.bind_some, hst, Option.map_some]; rfl, fun r hr => ?_⟩, fun r hr => hn _ (hsp r hr).2⟩
        exact (hsp r hr).1.mem
    cases c with
    | get id ids radius =>
      simp only [Call.run, Reply.found.injEq] at hl
      subst hl
      obtain ⟨k1, k2⟩ := key ids radius id hb h4 (by simpa using hx)
      exact ⟨h3 _ (by rw [k1]; simp [Call.checks]), k2⟩
    | getBulk s ids =>
      simp only [Call.run, Reply.found.injEq] at hl
      subst hl
      obtain ⟨id, hid, hx⟩ := List.mem_filterMap.1 hx
      obtain ⟨k1, k2⟩ := key ids 0 id hb h4 hx
      exact ⟨h3 _ (by rw [k1]; exact List.mem_map_of_mem hid), k2⟩
    | _ => simp [Call.run] at hl

/-! ### Examples -/

/-- The characters of a list ID. -/
def exTxt (s : Str) : Text := s.map fun b => Char.ofNat b.toNat

/-- A token for list A, and for elements 3 and 6. -/
def exAuth : Auth := { token := .claims (.str "A, C".toList) (.str "3,6".toList), scopes := [scopeRead, scopeUpdate, scopeDelete] }

theorem names_list (val id : Text) : ((splitComma val).any fun p => trimSpace p == id) = true ↔ NamesList val id := grants_list val id

/-- A server with the lists A and B. -/
def exTwo : Db := (serve (exEnvAt 1) exDb (.create false exPayload)).2

theorem exTwo_good : Good exTwo :=
  (C70_request _ _ _ exDb_good (show Ready exDb [(exEnvAt 1, .create false exPayload)] from
    ready_of_test _ _ (by intro x hx; simp only [List.mem_singleton] at hx; rw [hx]; rfl) (by decide +kernel)).1
    (show Ready exDb [(exEnvAt 1, .create false exPayload)] from
    ready_of_test _ _ (by intro x hx; simp only [List.mem_singleton] at hx; rw [hx]; rfl) (by decide +kernel)).2.1).1

/-- An update of element 6 in A is permitted; one in B is not, and neither is one of element 7. -/
example : ¬ NamesList "A, C".toList (exTxt [66]) ∧ NamesList "A, C".toList (exTxt [65]) ∧
    ¬ NamesElement "3,6".toList 7 ∧ NamesElement "3,6".toList 6 ∧
    (∃ a, (call exTxt exAuth .inOrder (fun _ => exEnvAt 2) exTwo (.one (.putElements [65] [⟨5, 6, [], 0, 0⟩]))).1 = .answer a ∧ a = .ok) ∧
    (∀ c ∈ [Call.one (.putElements [65] [⟨5, 6, [], 0, 0⟩, ⟨5, 7, [], 0, 0⟩]), .one (.putElements [66] [⟨5, 6, [], 0, 0⟩]),
      .one (.delete [66]), .bulk ⟨[[65]], [], [[1]]⟩ (.delete [6]), .bulk ⟨[], [], []⟩ .reindex],
      (match (call exTxt exAuth .inOrder (fun _ => exEnvAt 2) exTwo c).1 with | .unauthorized => true | _ => false) = true) ∧
    ((look (call exTxt exAuth .inOrder (fun _ => exEnvAt 2) exTwo (.one (.putElements [65] [⟨99, 6, [], 0, 0⟩]))).2 [65]).map fun s =>
      s.content.map (·.id)) = some [6, 3, 1, 2, 9, 5, 8, 7, 4] := by
  rw [← grants_list, ← grants_list, ← grants_element, ← grants_element]
  refine ⟨by decide +kernel, by decide +kernel, by decide +kernel, by decide +kernel, ⟨_, rfl, by decide +kernel⟩, by decide +kernel, by decide +kernel⟩

/-- A token for some elements shows all elements of a range of ranks. -/
theorem C73_range_unrestricted : ∃ (db : Db) (auth : Auth) (val : Text) (c : Call) (id : Str) (l : List Element) (e : Element),
    Good db ∧ auth.token = .claims .absent (.str val) ∧ auth.scopes = [scopeRead] ∧
    (call exTxt auth .inOrder (fun _ => exEnv) db c).1 = .elements id (some l) ∧ e ∈ l ∧ ¬ NamesElement val e.id := by
  refine ⟨exDb, ⟨.claims .absent (.str "3,6".toList), [scopeRead]⟩, "3,6".toList, .range [65] 0 3, [65], (Lists.getRankTop exList 0 3).getD [],
    ((Lists.getRankTop exList 0 3).getD []).getD 2 default, exDb_good, rfl, rfl, ?_, by decide +kernel, ?_⟩
  · have : (call exTxt ⟨.claims .absent (.str "3,6".toList), [scopeRead]⟩ .inOrder (fun _ => exEnv) exDb (.range [65] 0 3)).1 =
        .elements [65] ((reload exDb.store exEntry).bind fun st => Lists.getRankTop st 0 3) := rfl
    rw [this, show reload exDb.store exEntry = some exList from exStore_reload]
    have : (Lists.getRankTop exList 0 3).isSome = true := by decide +kernel
    rw [Option.bind_some, Option.eq_some_of_isSome this]
    rfl
  · rw [← grants_element]; decide +kernel

/-- All lists of set 1 are A and B. Deleting element 3 from the lists of the set works for both; putting an element
into the lists of the set does nothing and reports nothing; reindexing the lists of a set that is empty reindexes all. -/
example : Good exTwo ∧ selectAlways exTwo ⟨[], [], [[1]]⟩ = [[65], [66]] ∧
    Ready exTwo ((Call.bulk ⟨[], [], [[1]]⟩ (.delete [3])).requests .reversed (fun _ => exEnvAt 2) exTwo) ∧
    ((([[65], [66]] : List Str).map fun id => (look ((Call.bulk ⟨[], [], [[1]]⟩ (.delete [3])).run .reversed (fun _ => exEnvAt 2) exTwo).2 id).map fun s =>
      s.content.map (·.id)) = [some [6, 1, 2, 9, 5, 8, 7, 4], some [2, 1]]) ∧
    selectFields exTwo ⟨[], [], [[1]]⟩ = [] ∧
    selectOrAll exTwo ⟨[], [], [[9]]⟩ = [[66], [65]] := by
  refine ⟨exTwo_good, by decide +kernel, ready_of_test _ _ ?_ (by decide +kernel), by decide +kernel, by decide +kernel, by decide +kernel⟩
  intro x hx
  obtain ⟨y, hy, rfl⟩ := List.mem_map.1 hx
  rfl

/-- Elements for the lists of a set are silently not put: the request reports success without naming any list, and
the lists of the set do not change. -/
theorem C74_set_not_updated : ∃ (db : Db) (set id : Str) (l : Seen) (es : List Element), Good db ∧ look db id = some l ∧
    l.set = set ∧ es ≠ [] ∧ (∀ e ∈ es, Storable e ∧ e ∉ l.content) ∧
    ∀ sch env, ((Call.bulk ⟨[], [], [set]⟩ (.put es)).run sch env db).1 = .report [] ∧
      look ((Call.bulk ⟨[], [], [set]⟩ (.put es)).run sch env db).2 id = some l := by
  have hs : (look exDb [65]).isSome = true := by decide +kernel
  obtain ⟨l, hl⟩ := Option.isSome_iff_exists.1 hs
  refine ⟨exDb, [1], [65], l, [⟨5, 66, [], 0, 0⟩], exDb_good, hl, ?_, by simp, ?_, fun sch env => ?_⟩
  · have : (look exDb [65]).map (·.set) = some [1] := by decide +kernel
    rw [hl] at this; simpa using this
  · intro e he
    simp only [List.mem_singleton] at he
    subst he
    have : (look exDb [65]).map (fun l => decide ((⟨5, 66, [], 0, 0⟩ : Element) ∈ l.content)) = some false := by decide +kernel
    rw [hl] at this
    exact ⟨by decide, by simpa using this⟩
  · have h0 : sch.order ([] : List Str) = [] := List.perm_nil.1 (sch.perm [])
    have : selectFields exDb ⟨[], [], [[1]]⟩ = [] := by decide +kernel
    simp only [Call.run, Call.requests, Bulk.lists, this, h0]
    exact ⟨rfl, hl⟩

end RankDB.Props

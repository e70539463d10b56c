import Verif.Model.SaveDuring
import Verif.Props.Pool
/-
C100: the catalogue is saved while requests run.
-/
namespace RankDB.Props
open Spec Server Disk

/-! ### The saver does not disturb the requests -/

theorem alike_file (db : Db) (f : List Listing) (es : List Effect) :
    Alike (applyAll { db with file := f } es) (applyAll db es) :=
  Alike.applyAll es ⟨rfl, .refl _⟩

theorem poolOK_file {P : Pool} {D : Db} (f : List Listing) (h : PoolOK P D) :
    PoolOK ⟨{ P.db with file := f }, P.running⟩ D :=
  ⟨h.good, (alike_file _ f _).trans h.alike, h.ids, h.own, h.apart, h.names⟩

theorem meansTrace_step {D D' D'' : Spec.Lists} {es : List (Event × Response)} {o : Option (Event × Response)}
    (h : MeansTrace D (es.map (·.1)) (es.map (·.2)) D')
    (h' : MeansTrace D' (o.toList.map (·.1)) (o.toList.map (·.2)) D'') :
    MeansTrace D ((es ++ o.toList).map (·.1)) ((es ++ o.toList).map (·.2)) D'' := by
  cases o with
  | none =>
    obtain ⟨-, h'⟩ := h'
    simp only [Option.toList_none, List.append_nil]
    rw [h']
    exact h
  | some x =>
    rw [List.map_append, List.map_append]
    exact meansTrace_snoc h h'

theorem moves_iff {r : Request} {id : Str} : Moves r id ↔ renames r = some id := by
  cases r <;> simp [Moves, renames]

theorem meansTrace_append {L M N : Spec.Lists} {es fs : List Event} {rs ss : List Response}
    (h : MeansTrace L es rs M) (h' : MeansTrace M fs ss N) : MeansTrace L (es ++ fs) (rs ++ ss) N := by
  induction es generalizing L rs with
  | nil =>
    obtain ⟨rfl, rfl⟩ := h
    exact h'
  | cons x es ih =>
    cases x with
    | change env q =>
      obtain ⟨a, as, K, rfl, h1, h2⟩ := h
      exact ⟨a, _, K, rfl, h1, ih h2⟩
    | ask sch q =>
      obtain ⟨s, as, rfl, h1, h2⟩ := h
      exact ⟨s, _, rfl, h1, ih h2⟩

theorem save_run {S T : Saving} {D : Db} {es : List (Event × Response)} {n : Nat} (h : PoolOK S.pool D) (hr : SaveRun S es n T) :
    ∃ D', PoolOK T.pool D' ∧ MeansTrace (look D) (es.map (·.1)) (es.map (·.2)) (look D') := by
  induction hr with
  | refl => exact ⟨D, h, rfl, rfl⟩
  | @step es n k T U o _ hs ih =>
    obtain ⟨D', h1, h2⟩ := ih
    cases hs with
    | request hp =>
      obtain ⟨D'', h3, h4⟩ := pool_run h1 (.step .refl hp)
      exact ⟨D'', h3, meansTrace_step h2 (by simpa using h4)⟩
    | begin => exact ⟨D', h1, by simpa using h2⟩
    | ranged => exact ⟨D', h1, by simpa using h2⟩
    | stored => exact ⟨D', poolOK_file _ h1, by simpa using h2⟩
    | refused => exact ⟨D', h1, by simpa using h2⟩

/-! ### What is saved -/

/-- While nobody moves the list `id`, its entry is `e` everywhere. -/
structure Steady (id : Str) (e : Option Listing) (saved : Bool) (S : Saving) : Prop where
  entry : byID S.pool.db.lists id = e
  still : ∀ R ∈ S.pool.running, ¬ Moves R.req id
  saver : match S.saver with
    | .idle => True
    | .ranging seen => ∀ P ∈ seen, byID P.db.lists id = e ∧ ∀ R ∈ P.running, ¬ Moves R.req id
    | .writing out => byID out id = e
  file : saved = true → byID S.pool.db.file id = e

theorem steady_pool {P Q : Pool} {D : Db} {o : Option (Event × Response)} {id : Str} {e : Option Listing} (h : PoolOK P D)
    (hs : PoolStep P o Q) (hm : ∀ env r a, o = some (Event.change env r, a) → ¬ Moves r id)
    (he : byID P.db.lists id = e) (hst : ∀ R ∈ P.running, ¬ Moves R.req id) :
    byID Q.db.lists id = e ∧ (∀ R ∈ Q.running, ¬ Moves R.req id) ∧
    (byID P.db.file id = e → byID Q.db.file id = e) := by
  cases hs with
  | arrive env r =>
    refine ⟨he, fun R hR => ?_, fun h => h⟩
    rcases List.mem_append.1 hR with hR | hR
    · exact hst R hR
    · rw [List.mem_singleton.1 hR]
      exact hm env r _ rfl
  | @effect d a b env r x todo =>
    have hin : (⟨env, r, x :: todo⟩ : Running) ∈ a ++ ⟨env, r, x :: todo⟩ :: b := List.mem_append_right _ List.mem_cons_self
    have hne : about x ≠ some id := fun hx => hst _ hin (h.own _ hin x List.mem_cons_self id hx).2
    have h1 : byID (Server.apply d x).lists id = byID d.lists id := applyAll_byID (es := [x]) d (id := id) fun y hy => by
      rw [List.mem_singleton.1 hy]; exact hne
    refine ⟨h1.trans he, fun R hR => ?_, fun hf => ?_⟩
    · rcases List.mem_append.1 hR with hR | hR
      · exact hst R (List.mem_append_left _ hR)
      · rcases List.mem_cons.1 hR with rfl | hR
        · exact hst ⟨env, r, x :: todo⟩ hin
        · exact hst R (List.mem_append_right _ (List.mem_cons_of_mem _ hR))
    · cases x with
      | save => exact he
      | _ => exact hf
  | finish =>
    refine ⟨he, fun R hR => ?_, fun h => h⟩
    rcases List.mem_append.1 hR with hR | hR
    · exact hst R (List.mem_append_left _ hR)
    · exact hst R (List.mem_append_right _ (List.mem_cons_of_mem _ hR))
  | ask => exact ⟨he, hst, fun h => h⟩

theorem steady_run {S T : Saving} {D : Db} {es : List (Event × Response)} {n : Nat} {id : Str} {e : Option Listing}
    {saved : Bool} (h : PoolOK S.pool D) (hr : SaveRun S es n T) (hm : ∀ env r a, (Event.change env r, a) ∈ es → ¬ Moves r id)
    (hs : Steady id e saved S) : Steady id e (saved || decide (0 < n)) T := by
  induction hr with
  | refl => simpa using hs
  | @step es n k T U o hr' hstep ih =>
    have ih := ih fun env r a ha => hm env r a (List.mem_append_left _ ha)
    obtain ⟨D', hD, -⟩ := save_run h hr'
    cases hstep with
    | @request P Q s o hp =>
      obtain ⟨h1, h2, h3⟩ := steady_pool hD hp (fun env r a ho => hm env r a (List.mem_append_right _ (by simp [ho]))) ih.entry ih.still
      refine ⟨h1, h2, ?_, fun hsv => h3 (ih.file (by simpa using hsv))⟩
      have := ih.saver
      cases s with
      | idle => trivial
      | ranging cats =>
        intro cat hc
        rcases List.mem_cons.1 hc with rfl | hc
        · exact ⟨h1, h2⟩
        · exact this cat hc
      | writing out => exact this
    | begin =>
      refine ⟨ih.entry, ih.still, ?_, fun hsv => ih.file (by simpa using hsv)⟩
      intro cat hc
      rw [List.mem_singleton.1 hc]
      exact ⟨ih.entry, ih.still⟩
    | ranged hR =>
      refine ⟨ih.entry, ih.still, ?_, fun hsv => ih.file (by simpa using hsv)⟩
      obtain ⟨cat, h1, h2⟩ := hR.2 id
      show byID _ id = e
      obtain ⟨h3, h4⟩ := ih.saver cat h1
      rcases h2 with h2 | ⟨⟨R, h5, h6⟩, -⟩
      · rw [h2]
        exact h3
      · exact absurd (moves_iff.2 h6) (h4 R h5)
    | stored => exact ⟨ih.entry, ih.still, trivial, fun _ => ih.saver⟩
    | refused => exact ⟨ih.entry, ih.still, trivial, fun hsv => ih.file (by simpa using hsv)⟩

/-- **C100.** Requests and saves of the catalogue run at the same time. From some moment `S` on, when nobody is changing
the list `id` and no save is under way, no request creates, clones to, deletes, reindexes or repairs it; its elements
may be changed. Once a catalogue has been stored, a crash at any moment `T` and a start bring the list back as the
requests so far have made it (or keep it away, if it was not there), if nobody is changing it at that moment. Saves may
fail, and other lists may come, go and be rebuilt at any time. -/
theorem C100_brought_back (db : Db) (h : Good db) (before after : List (Event × Response)) (m n : Nat) (S T : Saving) (id : Str)
    (h1 : SaveRun ⟨⟨db, []⟩, .idle⟩ before m S) (hidle : S.saver = .idle) (hS : S.pool.Free id)
    (h2 : SaveRun S after n T) (hm : ∀ env r a, (Event.change env r, a) ∈ after → ¬ Moves r id) (hn : 0 < n)
    (hT : T.pool.Free id) :
    ∃ L, MeansTrace (look db) ((before ++ after).map (·.1)) ((before ++ after).map (·.2)) L ∧
      look T.pool.db id = L id ∧ look (restart T.pool.db) id = L id := by
  obtain ⟨D, hD, hm1⟩ := save_run (S := ⟨⟨db, []⟩, .idle⟩) (pool_start h) h1
  obtain ⟨D', hD', hm2⟩ := save_run hD h2
  have hst : Steady id (byID S.pool.db.lists id) false S := by
    refine ⟨rfl, fun R hR hmv => ?_, by rw [hidle]; trivial, fun h => by cases h⟩
    refine hS R hR ?_
    revert hmv
    cases R.req <;> simp +contextual [Moves, target]
  have hT' := steady_run hD h2 hm hst
  have hfile : byID T.pool.db.file id = byID T.pool.db.lists id := by
    rw [hT'.entry, hT'.file (by simp [hn])]
  have hlook := look_congr (hD'.free hT)
  refine ⟨look D', ?_, hlook, ?_⟩
  · rw [List.map_append, List.map_append]
    exact meansTrace_append hm1 hm2
  · rw [← hlook]
    unfold look restart
    rw [← hfile]

/-! ### Nothing else is saved -/

/-- The entries of `out` stood in the catalogue of the states in `seen`. -/
def Stood (seen : Saving → Prop) (out : List Listing) : Prop :=
  (out.map (·.id)).Nodup ∧ ∀ l ∈ out, ∃ M, seen M ∧ ∃ l' ∈ M.pool.db.lists,
    l = l' ∨ fixed l = fixed l' ∧ M.pool.Renaming l.id

theorem Stood.mono {seen seen' : Saving → Prop} {out : List Listing} (h : Stood seen out) (hs : ∀ M, seen M → seen' M) :
    Stood seen' out :=
  ⟨h.1, fun l hl => by
    obtain ⟨M, h1, h2⟩ := h.2 l hl
    exact ⟨M, hs M h1, h2⟩⟩

theorem saveRun_trans {S T U : Saving} {es fs : List (Event × Response)} {m n : Nat} (h : SaveRun S es m T) (h' : SaveRun T fs n U) :
    SaveRun S (es ++ fs) (m + n) U := by
  induction h' with
  | refl => simpa using h
  | step _ hs ih =>
    rw [← List.append_assoc, ← Nat.add_assoc]
    exact .step ih hs

/-- `M` is a state between `S` and `T`. -/
def Amid (S T M : Saving) : Prop := (∃ es n, SaveRun S es n M) ∧ ∃ es n, SaveRun M es n T

theorem amid_step {S T U M : Saving} {o : Option (Event × Response)} {k : Nat} (h : Amid S T M) (hs : SaveStep T o k U) :
    Amid S U M := by
  obtain ⟨h1, es, n, h2⟩ := h
  exact ⟨h1, _, _, .step h2 hs⟩

theorem entries_run {S T : Saving} {D : Db} {es : List (Event × Response)} {n : Nat} (h : PoolOK S.pool D)
    (hidle : S.saver = .idle) (hr : SaveRun S es n T) :
    (match T.saver with
      | .idle => True
      | .ranging seen => ∀ P ∈ seen, ∃ M, Amid S T M ∧ M.pool = P
      | .writing out => Stood (Amid S T) out) ∧
    (0 < n → Stood (Amid S T) T.pool.db.file) := by
  induction hr with
  | refl => rw [hidle]; exact ⟨trivial, fun h => by omega⟩
  | @step es n k T U o hr' hstep ih =>
    obtain ⟨ih1, ih2⟩ := ih
    have hU : Amid S U U := ⟨⟨_, _, .step hr' hstep⟩, _, _, .refl⟩
    have hmono : ∀ M, Amid S T M → Amid S U M := fun M hM => amid_step hM hstep
    obtain ⟨D', hD, -⟩ := save_run h hr'
    cases hstep with
    | @request P Q s o hp =>
      refine ⟨?_, fun hn => ?_⟩
      · cases s with
        | idle => trivial
        | ranging seen =>
          intro P' hP
          rcases List.mem_cons.1 hP with rfl | hP
          · exact ⟨_, hU, rfl⟩
          · obtain ⟨M, h1, h2⟩ := ih1 P' hP
            exact ⟨M, hmono M h1, h2⟩
        | writing out => exact Stood.mono ih1 hmono
      · have hf := (ih2 (by omega)).mono hmono
        cases hp with
        | @effect d a b env r x todo =>
          cases x with
          | save =>
            refine ⟨hD.ids, fun l hl => ⟨_, hU, l, hl, .inl rfl⟩⟩
          | _ => exact hf
        | _ => exact hf
    | begin =>
      refine ⟨fun P' hP => ?_, fun hn => (ih2 (by omega)).mono hmono⟩
      rw [List.mem_singleton.1 hP]
      exact ⟨_, hU, rfl⟩
    | @ranged P seen out hR =>
      refine ⟨⟨hR.1, fun l hl => ?_⟩, fun hn => (ih2 (by omega)).mono hmono⟩
      obtain ⟨P', h1, h2⟩ := hR.2 l.id
      obtain ⟨M, h3, h4⟩ := ih1 P' h1
      refine ⟨M, hmono M h3, ?_⟩
      rw [byID_of_mem hR.1 hl] at h2
      rw [h4]
      rcases h2 with h2 | ⟨h2, h5⟩
      · exact ⟨l, (byID_mem h2.symm).1, .inl rfl⟩
      · cases hb : byID P'.db.lists l.id with
        | none => rw [hb] at h5; cases h5
        | some l' =>
          rw [hb] at h5
          exact ⟨l', (byID_mem hb).1, .inr ⟨by simpa using h5, h2⟩⟩
    | stored => exact ⟨trivial, fun _ => Stood.mono ih1 hmono⟩
    | refused => exact ⟨trivial, fun hn => (ih2 (by omega)).mono hmono⟩

/-- **C100.** If a save begins after the moment `S` and ends before `T`, the saved catalogue has every list once, and
only lists that were there between `S` and `T`: as they were at that time, except for the names of the tables of a list
whose entry a request was changing. -/
theorem C100_entries (db : Db) (h : Good db) (before after : List (Event × Response)) (m n : Nat) (S T : Saving)
    (h1 : SaveRun ⟨⟨db, []⟩, .idle⟩ before m S) (hidle : S.saver = .idle) (h2 : SaveRun S after n T) (hn : 0 < n) :
    (T.pool.db.file.map (·.id)).Nodup ∧
    ∀ l ∈ T.pool.db.file, ∃ M, Amid S T M ∧ ∃ l' ∈ M.pool.db.lists, l = l' ∨ fixed l = fixed l' ∧ M.pool.Renaming l.id := by
  obtain ⟨D, hD, -⟩ := save_run (S := ⟨⟨db, []⟩, .idle⟩) (pool_start h) h1
  exact (entries_run hD hidle h2).2 hn

/-! ### What goes wrong -/

theorem pool_effects {db : Db} {env : Env} {r : Request} (todo : List Effect) :
    PoolRun ⟨db, [⟨env, r, todo⟩]⟩ [] ⟨applyAll db todo, []⟩ := by
  suffices hs : ∀ P : Pool, PoolRun P [] ⟨db, [⟨env, r, todo⟩]⟩ → PoolRun P [] ⟨applyAll db todo, []⟩ from hs _ .refl
  induction todo generalizing db with
  | nil => exact fun P h => .step (o := none) h (.finish (a := []) (b := []))
  | cons e todo ih => exact fun P h => ih P (.step (o := none) h (.effect (a := []) (b := [])))

theorem poolRun_trans {P Q R : Pool} {es fs : List (Event × Response)} (h : PoolRun P es Q) (h' : PoolRun Q fs R) :
    PoolRun P (es ++ fs) R := by
  induction h' with
  | refl => simpa using h
  | step _ hs ih =>
    rw [← List.append_assoc]
    exact .step ih hs

/-- A request that is served alone. -/
theorem pool_serve {env : Env} {db : Db} {r : Request} (hf : Fits env db) (ha : Spec.Allowed db r) :
    PoolRun ⟨db, []⟩ [(.change env r, .answer (serve env db r).1)] ⟨(serve env db r).2, []⟩ := by
  have h1 : PoolRun ⟨db, []⟩ [(.change env r, .answer (serve env db r).1)] ⟨db, [⟨env, r, (handle env db r).2⟩]⟩ :=
    .step .refl (.arrive env r ⟨hf.now, hf.differ, fun l hl => hf.fresh l (List.mem_append_left _ hl), by simp, hf.reduce⟩ ha
      (fun id _ R hR => by cases hR) (fun R hR => by cases hR))
  exact poolRun_trans h1 (pool_effects _)

theorem ranging_run {P Q : Pool} {seen : List Pool} {es : List (Event × Response)} (hr : PoolRun P es Q) (hP : P ∈ seen) :
    ∃ seen', SaveRun ⟨P, .ranging seen⟩ es 0 ⟨Q, .ranging seen'⟩ ∧ (∀ X ∈ seen, X ∈ seen') ∧ Q ∈ seen' := by
  induction hr with
  | refl => exact ⟨seen, .refl, fun _ h => h, hP⟩
  | step _ hs ih =>
    obtain ⟨seen', h1, h2, h3⟩ := ih
    exact ⟨_, .step h1 (.request hs), fun X hX => List.mem_cons_of_mem _ (h2 X hX), List.mem_cons_self⟩

/-- A save that begins before some requests and ends after them. -/
theorem save_around {db db' : Db} {es : List (Event × Response)} (hr : PoolRun ⟨db, []⟩ es ⟨db', []⟩) (out : List Listing)
    (hn : (out.map (·.id)).Nodup) (hout : ∀ id, byID out id = byID db.lists id ∨ byID out id = byID db'.lists id) :
    SaveRun ⟨⟨db, []⟩, .idle⟩ es 1 ⟨⟨{ db' with file := out }, []⟩, .idle⟩ := by
  obtain ⟨seen, h1, h2, h3⟩ := ranging_run (seen := [⟨db, []⟩]) hr (by simp)
  have h4 : SaveRun ⟨⟨db, []⟩, .idle⟩ [] 0 ⟨⟨db, []⟩, .ranging [⟨db, []⟩]⟩ := .step .refl .begin
  have h5 := saveRun_trans h4 h1
  have h6 := SaveRun.step h5 (.ranged (out := out) ⟨hn, fun id => ?_⟩)
  · have := SaveRun.step h6 .stored
    simpa using this
  · rcases hout id with h | h
    · exact ⟨⟨db, []⟩, h2 _ (by simp), .inl h⟩
    · exact ⟨_, h3, .inl h⟩

theorem byID_filter {ls : List Listing} {p : Str → Bool} (id : Str) :
    byID (ls.filter fun l => p l.id) id = if p id then byID ls id else none := by
  unfold byID
  rw [List.find?_filter]
  by_cases hp : p id = true
  · rw [if_pos hp]
    congr 1
    funext l
    by_cases hl : l.id = id
    · simp [hl, hp]
    · simp [hl]
  · rw [if_neg hp, List.find?_eq_none]
    intro l _
    by_cases hl : l.id = id
    · simp [hl, hp]
    · simp [hl]

/-- The code does not save the lists as they are at one moment: on every server, while the catalogue is saved, a list can
be cloned to a new ID and then deleted, with both requests answered, so that the saved catalogue has neither of the
two. If the process dies then, the elements are lost, although they were in a list at every moment. -/
theorem C100_neither (env env' : Env) (db : Db) (org : Str) (o : Seen) (p : Payload) (h : Good db) (hf : Fits env db)
    (ha : Spec.Allowed db (.clone org p)) (horg : look db org = some o) (hfree : look db p.id = none)
    (hpop : p.populate = none) (hsize : p.mergeSize < p.splitSize) (hset : p.set ≠ [])
    (hf' : Fits env' (serve env db (.clone org p)).2) :
    ∃ db', SaveRun ⟨⟨db, []⟩, .idle⟩ [(.change env (.clone org p), .answer .ok), (.change env' (.delete org), .answer .ok)] 1
        ⟨⟨db', []⟩, .idle⟩ ∧
      look db' p.id = some (seen p o.content) ∧
      look (restart db') org = none ∧ look (restart db') p.id = none ∧
      ∀ id, id ≠ org → id ≠ p.id → look (restart db') id = look db id := by
  obtain ⟨c1, c2, c3, c4⟩ := C69_clone env db org o p h hf ha horg hfree hpop hsize hset
  have hg := (C70_request env db _ h hf ha).1
  have hne : p.id ≠ org := fun he => by rw [he, horg] at hfree; cases hfree
  have r1 := pool_serve hf ha
  have r2 := pool_serve (db := (serve env db (.clone org p)).2) (r := .delete org) hf' trivial
  have hm2 := C70_request env' _ (.delete org) hg hf' trivial
  have hd1 : (serve env' (serve env db (.clone org p)).2 (.delete org)).1 = .ok := hm2.2.1
  have hd2 := hm2.2.2
  rw [c1] at r1
  rw [hd1] at r2
  have hr := poolRun_trans r1 r2
  generalize hdb : (serve env' (serve env db (.clone org p)).2 (.delete org)).2 = db' at *
  have hlist : ∀ {d : Db} {id : Str}, Good d → look d id = none → byID d.lists id = none := by
    intro d id hd hl
    rcases Server.Good.look hd (id := id) with ⟨l, st, -, -, -, -, -, h6⟩ | ⟨h1, -⟩
    · rw [h6] at hl; cases hl
    · exact h1
  have hk : ∀ id, id ≠ org → id ≠ p.id → look db' id = look db id := by
    intro id h1 h2
    rw [hd2, ← c4 id h2]
    simp [Lists.set, h1]
  have hout : ∀ id, byID (db'.lists.filter fun l => l.id != p.id) id = if id = p.id then none else byID db'.lists id := by
    intro id
    rw [byID_filter (p := fun x => x != p.id)]
    by_cases hi : id = p.id <;> simp [hi]
  have hg' : Good db' := hm2.1
  refine ⟨{ db' with file := db'.lists.filter fun l => l.id != p.id }, save_around hr _ ?_ fun id => ?_, ?_, ?_, ?_, ?_⟩
  · exact hg'.ids.sublist ((List.filter_sublist).map _)
  · rw [hout]
    split
    · rename_i hi
      rw [hi, hlist h hfree]
      exact .inl rfl
    · exact .inr rfl
  · show look db' p.id = _
    rw [hd2, ← c2]
    simp [Lists.set, hne]
  · refine look_none ?_
    show byID (db'.lists.filter fun l => l.id != p.id) org = none
    rw [hout, if_neg (Ne.symm hne)]
    refine hlist hg' ?_
    rw [hd2]
    simp [Lists.set]
  · refine look_none ?_
    show byID (db'.lists.filter fun l => l.id != p.id) p.id = none
    rw [hout, if_pos rfl]
  · intro id h1 h2
    rw [← hk id h1 h2]
    show (byID (db'.lists.filter fun l => l.id != p.id) id).bind _ = _
    rw [hout, if_neg h2]
    rfl

theorem applyAll_withFile {es : List Effect} (db : Db) (f : List Listing) (h : ∀ e ∈ es, e ≠ .save) :
    applyAll { db with file := f } es = { applyAll db es with file := f } := by
  induction es generalizing db with
  | nil => rfl
  | cons e es ih =>
    have h1 := h e List.mem_cons_self
    have ih := ih (apply db e) fun x hx => h x (List.mem_cons_of_mem _ hx)
    show applyAll (apply { db with file := f } e) es = { applyAll (apply db e) es with file := f }
    rw [← ih]
    cases e with
    | save => exact absurd rfl h1
    | _ => rfl

/-- A save that ends after a repair was answered can still have the names from before. After a crash the list is lost,
on every server. -/
theorem C100_repaired_lost (env : Env) (db : Db) (id : Str) (s : Seen) (h : Good db) (hf : Fits env db)
    (ha : Spec.Allowed db (.repair id)) (hs : look db id = some s) :
    ∃ db', SaveRun ⟨⟨db, []⟩, .idle⟩ [(.change env (.repair id), .answer .ok)] 1 ⟨⟨db', []⟩, .idle⟩ ∧
      look db' id = some s ∧ look (restart db') id = none := by
  have hr := pool_serve hf ha
  have hf0 : Fits env { db with file := db.lists } := ⟨hf.now, hf.differ, fun l hl => by
    rcases List.mem_append.1 hl with hl | hl <;> exact hf.fresh l (List.mem_append_left _ hl), hf.reduce⟩
  have hg0 : Good { db with file := db.lists } := ⟨h.ids, h.own, h.names, h.readable, h.sizes⟩
  obtain ⟨h1, h2, h3⟩ := C71_repaired_lost env { db with file := db.lists } id s hg0 hf0 ha hs rfl
  have h1' : (serve env db (.repair id)).1 = .ok := h1
  rw [h1'] at hr
  refine ⟨_, save_around hr db.lists h.ids fun _ => .inl rfl, ?_, ?_⟩
  · have hm := (C70_request env db _ h hf ha).2
    simp only [Means] at hm
    show look (serve env db (.repair id)).2 id = some s
    rw [hm.2, hs]
  · have heq : (serve env { db with file := db.lists } (.repair id)).2 = { (serve env db (.repair id)).2 with file := db.lists } :=
      applyAll_withFile db db.lists fun e he hsv => by
        have := handle_own hg0 hf0 e he
        rw [hsv] at this
        cases this
    rw [heq] at h3
    exact h3

/-! ### Examples -/

/-- The hypotheses of `C100_neither` and `C100_repaired_lost` are met. -/
example : Good exDb ∧ Fits (exEnvAt 1) exDb ∧ (∃ o, look exDb [65] = some o ∧ o.content.length = 9) ∧ look exDb [67] = none ∧
    Spec.Allowed exDb (.clone [65] { exPayload with id := [67], populate := none }) ∧
    Fits (exEnvAt 2) (serve (exEnvAt 1) exDb (.clone [65] { exPayload with id := [67], populate := none })).2 ∧
    Spec.Allowed exDb (.repair [65]) := by
  obtain ⟨h1, h2, h3⟩ := ready_of_test exDb [(exEnvAt 1, .clone [65] { exPayload with id := [67], populate := none }), (exEnvAt 2, .delete [65])]
    (by intro x hx; rcases List.mem_cons.1 hx with rfl | hx; · rfl
        rw [List.mem_singleton.1 hx]; rfl) (by decide +kernel)
  obtain ⟨-, h4, -⟩ := ready_of_test exDb [(exEnvAt 1, .repair [65])] (by intro x hx; rw [List.mem_singleton.1 hx]; rfl) (by decide +kernel)
  exact ⟨exDb_good, h1, by decide +kernel, by decide +kernel, h2, h3.1, h4⟩

/-- The choices of a schedule with saves. -/
inductive SaveAct
  | pool (a : PoolAct)
  | begin
  | ranged
  | stored
  | refused

/-- A schedule in which `Range` gives the catalogue at its end. -/
def saveAct : SaveAct → Saving → Option (Option (Event × Response) × Nat × Saving)
  | .pool a, S => (poolAct a S.pool).map fun x => (x.1, 0, ⟨x.2, S.saver.sees x.2⟩)
  | .begin, ⟨P, .idle⟩ => some (none, 0, ⟨P, .ranging [P]⟩)
  | .ranged, ⟨P, .ranging (Q :: _)⟩ =>
    if (Q.db.lists.map (·.id)).Nodup then some (none, 0, ⟨P, .writing Q.db.lists⟩) else none
  | .stored, ⟨P, .writing out⟩ => some (none, 1, ⟨⟨{ P.db with file := out }, P.running⟩, .idle⟩)
  | .refused, ⟨P, .writing _⟩ => some (none, 0, ⟨P, .idle⟩)
  | _, _ => none

theorem saveAct_step {a : SaveAct} {S T : Saving} {o : Option (Event × Response)} {k : Nat} (h : saveAct a S = some (o, k, T)) :
    SaveStep S o k T := by
  unfold saveAct at h
  split at h
  · obtain ⟨x, ha, hx⟩ := Option.map_eq_some_iff.1 h
    cases hx
    exact .request (poolAct_step ha)
  · cases h; exact .begin
  · split at h
    · rename_i hn
      cases h
      exact .ranged ⟨hn, fun id => ⟨_, List.mem_cons_self, .inl rfl⟩⟩
    · cases h
  · cases h; exact .stored
  · cases h; exact .refused
  · cases h

def saveActs : List SaveAct → List (Event × Response) × Nat × Saving → Option (List (Event × Response) × Nat × Saving)
  | [], x => some x
  | a :: as, (es, n, S) =>
    match saveAct a S with
    | none => none
    | some (o, k, T) => saveActs as (es ++ o.toList, n + k, T)

theorem saveActs_run {as : List SaveAct} {S0 S T : Saving} {es fs : List (Event × Response)} {n m : Nat} (hr : SaveRun S0 es n S)
    (h : saveActs as (es, n, S) = some (fs, m, T)) : SaveRun S0 fs m T := by
  induction as generalizing es n S with
  | nil => cases h; exact hr
  | cons a as ih =>
    unfold saveActs at h
    cases ha : saveAct a S with
    | none => rw [ha] at h; cases h
    | some x =>
      obtain ⟨o, k, U⟩ := x
      rw [ha] at h
      exact ih (.step hr (saveAct_step ha)) h

/-- A list is created. -/
def exBeforeSave : List SaveAct := (.arrive 1 (.create false exPayload) :: (List.replicate 5 (.effect 0) ++ [.finish 0])).map .pool

/-- Elements of the new list are changed and another list is cloned while the catalogue is saved. At the end the clone is
not done. -/
def exAfterSave : List SaveAct :=
  [.pool (.arrive 2 (.putElements [66] [⟨99, 6, [], 0, 0⟩])), .pool (.effect 0), .begin, .pool (.effect 0),
   .pool (.arrive 3 (.clone [65] { exPayload with id := [67], populate := none })), .pool (.effect 1), .ranged, .pool (.effect 0),
   .pool (.effect 0), .stored, .pool (.finish 0), .pool (.effect 0)]

/-- Nobody changes the list. -/
def freeTest (P : Pool) (id : Str) : Bool := P.running.all fun R => decide (target R.req ≠ some id)

theorem free_of_test {P : Pool} {id : Str} (h : freeTest P id = true) : P.Free id := fun R hR => by
  simpa using List.all_eq_true.1 h R hR

def idleTest : Saver → Bool
  | .idle => true
  | _ => false

/-- The hypotheses of `C100_brought_back` and `C100_entries`. -/
example : ∃ before m S after n T, SaveRun ⟨⟨exDb, []⟩, .idle⟩ before m S ∧ S.saver = .idle ∧ S.pool.Free [66] ∧
    SaveRun S after n T ∧ (∀ env r a, (Event.change env r, a) ∈ after → ¬ Moves r [66]) ∧ 0 < n ∧ T.pool.Free [66] ∧
    T.pool.running.length = 1 ∧ ((look (restart T.pool.db) [66]).map fun s => s.content.map (·.id)) = some [6, 3, 2, 1] := by
  have : ∃ x, saveActs exBeforeSave ([], 0, ⟨⟨exDb, []⟩, .idle⟩) = some x ∧
      (idleTest x.2.2.saver = true ∧ freeTest x.2.2.pool [66] = true ∧
        ∃ y, saveActs exAfterSave ([], 0, x.2.2) = some y ∧
          ((y.1.all fun e => match e.1 with | .change _ r => !decide (Moves r [66]) | .ask .. => true) = true ∧
          0 < y.2.1 ∧ freeTest y.2.2.pool [66] = true ∧ y.2.2.pool.running.length = 1 ∧
          ((look (restart y.2.2.pool.db) [66]).map fun s => s.content.map (·.id)) = some [6, 3, 2, 1])) := by decide +kernel
  obtain ⟨⟨before, m, S⟩, h1, h2, h3, ⟨after, n, T⟩, h4, h5, h6, h7, h8, h9⟩ := this
  refine ⟨before, m, S, after, n, T, saveActs_run .refl h1, ?_, free_of_test h3, saveActs_run .refl h4, fun env r a ha => ?_, h6,
    free_of_test h7, h8, h9⟩
  · dsimp only at h2
    generalize S.saver = s at h2 ⊢
    cases s with
    | idle => rfl
    | _ => cases h2
  · simpa using List.all_eq_true.1 h5 _ ha

end RankDB.Props

import Verif.Proofs.Pool
/-
Property C77: requests for different lists that run at the same time.
-/
namespace RankDB.Props
open Spec Server Disk

/-- However the changes of requests for different lists are mixed: what the clients see is what they would see if the
requests were served one after the other in the order in which they arrive. At any time, every list that no request
is changing is as these requests define it. Missing for C77: requests for the same list (C54, C65, C72, C76), and pages
of the catalogue while lists are created or deleted. -/
theorem C77_serial_partial (db : Db) (es : List (Event × Response)) (P : Pool) (h : Good db) (hr : PoolRun ⟨db, []⟩ es P) :
    ∃ L, MeansTrace (look db) (es.map (·.1)) (es.map (·.2)) L ∧ ∀ id, P.Free id → look P.db id = L id := by
  obtain ⟨D, h1, h2⟩ := pool_run (pool_start h) hr
  exact ⟨look D, h2, fun id hf => look_congr (h1.free hf)⟩

/-- Once all requests are done, all lists are as if they had been served one after the other, and the server is in
good order. -/
theorem C77_done_partial (db : Db) (es : List (Event × Response)) (db' : Db) (h : Good db) (hr : PoolRun ⟨db, []⟩ es ⟨db', []⟩) :
    Good db' ∧ MeansTrace (look db) (es.map (·.1)) (es.map (·.2)) (look db') := by
  obtain ⟨D, h1, h2⟩ := pool_run (pool_start h) hr
  have hfree : ∀ id, (⟨db', []⟩ : Pool).Free id := by intro id R hR; cases hR
  have hl : look db' = look D := funext fun id => look_congr (h1.free (hfree id))
  refine ⟨?_, by rw [hl]; exact h2⟩
  have ha : Alike db' D := by simpa [applyAll] using h1.alike
  have hm : ∀ l, l ∈ db'.lists → l ∈ D.lists := fun l => ha.lists.mem_iff.1
  refine ⟨h1.ids, fun l hl => h1.good.own l (hm l hl), fun l hl l' hl' => h1.good.names l (hm l hl) l' (hm l' hl'),
    fun l hl => ?_, fun l hl => h1.good.sizes l (hm l hl)⟩
  rw [ha.store]
  exact h1.good.readable l (hm l hl)

theorem meansTrace_other {L L' : Spec.Lists} {es : List Event} {rs : List Response} {id : Str} (h : MeansTrace L es rs L')
    (hid : ∀ env r, Event.change env r ∈ es → target r ≠ some id) : L' id = L id := by
  induction es generalizing L rs with
  | nil => obtain ⟨-, rfl⟩ := h; rfl
  | cons x es ih =>
    cases x with
    | change env q =>
      obtain ⟨a, as, K, -, h1, h2⟩ := h
      rw [ih h2 fun env r hr => hid env r (List.mem_cons_of_mem _ hr), means_other h1 (hid env q List.mem_cons_self)]
    | ask sch q =>
      obtain ⟨s, as, -, -, h2⟩ := h
      exact ih h2 fun env r hr => hid env r (List.mem_cons_of_mem _ hr)

/-- What the requests in progress have in common with those that arrived. -/
theorem running_arrived {db : Db} {es : List (Event × Response)} {P : Pool} (hr : PoolRun ⟨db, []⟩ es P) :
    ∀ R ∈ P.running, ∃ a, (Event.change R.env R.req, a) ∈ es := by
  induction hr with
  | refl => intro R hR; cases hR
  | @step es Q R o _ hs ih =>
    have hq : ∀ S ∈ Q.running, ∃ a, (Event.change S.env S.req, a) ∈ es ++ o.toList := fun S hS => by
      obtain ⟨a, ha⟩ := ih S hS
      exact ⟨a, List.mem_append_left _ ha⟩
    cases hs with
    | arrive env r hf ha hfree hread =>
      intro S hS
      rcases List.mem_append.1 hS with hS | hS
      · exact hq S hS
      · rw [List.mem_singleton.1 hS]
        exact ⟨_, List.mem_append_right _ List.mem_cons_self⟩
    | @effect _ a b env r e todo =>
      intro S hS
      rcases List.mem_append.1 hS with hS | hS
      · exact hq S (List.mem_append_left _ hS)
      · rcases List.mem_cons.1 hS with rfl | hS
        · exact hq ⟨env, r, e :: todo⟩ (List.mem_append_right _ List.mem_cons_self)
        · exact hq S (List.mem_append_right _ (List.mem_cons_of_mem _ hS))
    | finish =>
      intro S hS
      rcases List.mem_append.1 hS with hS | hS
      · exact hq S (List.mem_append_left _ hS)
      · exact hq S (List.mem_append_right _ (List.mem_cons_of_mem _ hS))
    | ask => exact hq

/-- A list that no request is about has its content all the time, whatever is created, changed, deleted or maintained
meanwhile. -/
theorem C77_untouched (db : Db) (es : List (Event × Response)) (P : Pool) (id : Str) (h : Good db) (hr : PoolRun ⟨db, []⟩ es P)
    (hid : ∀ env r a, (Event.change env r, a) ∈ es → target r ≠ some id) : look P.db id = look db id := by
  obtain ⟨L, h1, h2⟩ := C77_serial_partial db es P h hr
  rw [h2 id fun R hR => ?_, meansTrace_other h1 fun env r hx => ?_]
  · obtain ⟨⟨e, a⟩, hy, rfl⟩ := List.mem_map.1 hx
    exact hid env r a hy
  · obtain ⟨a, ha⟩ := running_arrived hr R hR
    exact hid _ _ a ha

/-- If the process dies at any moment while requests run, and starts again: a list whose entry in the catalogue was
saved and has not been replaced since, and which no request is changing at that moment, is as the requests before
define it. -/
theorem C77_crash_partial (db : Db) (es : List (Event × Response)) (P : Pool) (id : Str) (h : Good db) (hr : PoolRun ⟨db, []⟩ es P)
    (hsaved : byID db.file id = byID db.lists id) (hm : ∀ env r a, (Event.change env r, a) ∈ es → ¬ Moves r id)
    (hfree : P.Free id) :
    ∃ L, MeansTrace (look db) (es.map (·.1)) (es.map (·.2)) L ∧ look (restart P.db) id = L id := by
  obtain ⟨L, h1, h2⟩ := C77_serial_partial db es P h hr
  refine ⟨L, h1, ?_⟩
  rw [← h2 id hfree]
  have hk : byID P.db.file id = byID P.db.lists id := by
    clear h1 h2 hfree
    induction hr with
    | refl => exact hsaved
    | @step es Q R o hr' hs ih =>
      have hq := ih fun env r a ha => hm env r a (List.mem_append_left _ ha)
      cases hs with
      | arrive => exact hq
      | @effect d a b env r e todo =>
        obtain ⟨D, hD, -⟩ := pool_run (pool_start h) hr'
        have hne : about e ≠ some id := by
          intro he
          have := (hD.own ⟨env, r, e :: todo⟩ (List.mem_append_right _ List.mem_cons_self) e List.mem_cons_self id he).2
          obtain ⟨a, ha⟩ := running_arrived hr' ⟨env, r, e :: todo⟩ (List.mem_append_right _ List.mem_cons_self)
          exact hm env r a (List.mem_append_left _ ha) this
        have h1 := applyAll_byID (es := [e]) d (id := id) fun x hx => by rw [List.mem_singleton.1 hx]; exact hne
        have h1 : byID (Server.apply d e).lists id = byID d.lists id := h1
        show byID (Server.apply d e).file id = byID (Server.apply d e).lists id
        cases e with
        | save => rfl
        | _ => rw [h1]; exact hq
      | finish => exact hq
      | ask => exact hq
  unfold look restart
  rw [← hk]

/-! ### An example -/

/-- The choices of a schedule. Environments are numbered. -/
inductive PoolAct
  | arrive (k : Nat) (r : Request)
  | effect (i : Nat)
  | finish (i : Nat)
  | list (id : Str)

def poolAct : PoolAct → Pool → Option (Option (Event × Response) × Pool)
  | .arrive k r, P =>
    if readyTest P.db [(exEnvAt k, r)] = true ∧
      (∀ R ∈ P.running, ∀ e ∈ R.todo, (exEnvAt k).scores ∉ effectNames e ∧ (exEnvAt k).index ∉ effectNames e) ∧
      (∀ id ∈ uses r, ∀ R ∈ P.running, target R.req ≠ some id) ∧ (∀ R ∈ P.running, ∀ id ∈ uses R.req, target r ≠ some id) then
      some (some (.change (exEnvAt k) r, .answer (handle (exEnvAt k) P.db r).1),
        ⟨P.db, P.running ++ [⟨exEnvAt k, r, (handle (exEnvAt k) P.db r).2⟩]⟩)
    else none
  | .effect i, P =>
    match P.running.drop i with
    | ⟨env, r, e :: todo⟩ :: b => some (none, ⟨Server.apply P.db e, P.running.take i ++ ⟨env, r, todo⟩ :: b⟩)
    | _ => none
  | .finish i, P =>
    match P.running.drop i with
    | ⟨_, _, []⟩ :: b => some (none, ⟨P.db, P.running.take i ++ b⟩)
    | _ => none
  | .list id, P =>
    if ∀ R ∈ P.running, target R.req ≠ some id then
      some (some (.ask .inOrder (.list id), .shown (ask .inOrder P.db (.list id))), P)
    else none

theorem poolAct_step {a : PoolAct} {P Q : Pool} {o : Option (Event × Response)} (h : poolAct a P = some (o, Q)) : PoolStep P o Q := by
  unfold poolAct at h
  split at h
  · rename_i k r
    split at h
    · rename_i hc
      cases h
      obtain ⟨h1, h2, h3, h4⟩ := hc
      obtain ⟨hf, ha, -⟩ := ready_of_test P.db [(exEnvAt k, r)] (by
        intro x hx
        rw [List.mem_singleton.1 hx]
        rfl) h1
      exact .arrive _ _ ⟨hf.now, hf.differ, fun l hl => hf.fresh l (List.mem_append_left _ hl), h2, hf.reduce⟩ ha h3 h4
    · cases h
  · rename_i i
    split at h
    · rename_i env r e todo b hd
      cases h
      obtain ⟨db, running⟩ := P
      have : running = running.take i ++ ⟨env, r, e :: todo⟩ :: b := by
        conv => lhs; rw [← List.take_append_drop i running, hd]
      conv => arg 1; rw [this]
      exact .effect
    · cases h
  · rename_i i
    split at h
    · rename_i env r b hd
      cases h
      obtain ⟨db, running⟩ := P
      have : running = running.take i ++ ⟨env, r, []⟩ :: b := by
        conv => lhs; rw [← List.take_append_drop i running, hd]
      conv => arg 1; rw [this]
      exact .finish
    · cases h
  · split at h
    · cases h
      exact .ask _ _ trivial rfl ‹_›
    · cases h

def poolActs : List PoolAct → List (Event × Response) × Pool → Option (List (Event × Response) × Pool)
  | [], x => some x
  | a :: as, (es, P) =>
    match poolAct a P with
    | none => none
    | some (o, Q) => poolActs as (es ++ o.toList, Q)

theorem poolActs_run {as : List PoolAct} {P0 P Q : Pool} {es fs : List (Event × Response)} (hr : PoolRun P0 es P)
    (h : poolActs as (es, P) = some (fs, Q)) : PoolRun P0 fs Q := by
  induction as generalizing es P with
  | nil => cases h; exact hr
  | cons a as ih =>
    unfold poolActs at h
    cases ha : poolAct a P with
    | none => rw [ha] at h; cases h
    | some x =>
      obtain ⟨o, R⟩ := x
      rw [ha] at h
      exact ih (.step hr (poolAct_step ha)) h

/-- While a list is created, elements of another one are updated and a third list is cloned from the new one; in the
middle of it a list is read. -/
def exSchedule : List PoolAct :=
  [.arrive 1 (.create false exPayload), .effect 0, .arrive 2 (.putElements [65] [⟨99, 6, [], 0, 0⟩, ⟨1, 77, [], 0, 0⟩])] ++
  (List.range 4).flatMap (fun _ => [.effect 0, .effect 1]) ++ [.finish 0, .list [66],
   .arrive 3 (.clone [66] { exPayload with id := [67], populate := none }), .effect 0, .effect 1, .effect 1]

example : ∃ es P, PoolRun ⟨exDb, []⟩ es P ∧ P.running.length = 2 ∧ es.map (fun x => brief x.2) = [[-1], [-1], [3, 3, 1], [-1]] ∧
    P.running.map (fun R => R.todo.length) ≠ [0, 0] ∧ P.Free [66] := by
  have : ∃ x, poolActs exSchedule ([], ⟨exDb, []⟩) = some x ∧ (x.2.running.length = 2 ∧
      x.1.map (fun x => brief x.2) = [[-1], [-1], [3, 3, 1], [-1]] ∧ x.2.running.map (fun R => R.todo.length) ≠ [0, 0] ∧
      ∀ R ∈ x.2.running, target R.req ≠ some [66]) := by decide +kernel
  obtain ⟨⟨es, P⟩, h1, h2, h3, h4, h5⟩ := this
  exact ⟨es, P, poolActs_run .refl h1, h2, h3, h4, h5⟩

/-- The update of the first list is done and the clone is not: the hypotheses of `C77_crash_partial` for this list. -/
example : ∃ es P, PoolRun ⟨exDb, []⟩ es P ∧ P.running.map (fun R => R.todo.length) ≠ [] ∧ P.Free [65] ∧
    byID exDb.file [65] = byID exDb.lists [65] ∧ (∀ env r a, (Event.change env r, a) ∈ es → ¬ Moves r [65]) ∧
    ((look P.db [65]).map fun s => s.content.map (·.id)) = some [6, 3, 1, 2, 9, 5, 8, 7, 4, 77] := by
  have : ∃ x, poolActs (exSchedule ++ [.effect 0, .finish 0]) ([], ⟨exDb, []⟩) = some x ∧
      (x.2.running.map (fun R => R.todo.length) ≠ [] ∧ (∀ R ∈ x.2.running, target R.req ≠ some [65]) ∧
      (x.1.all fun y => match y.1 with | .change _ r => !decide (Moves r [65]) | .ask .. => true) = true ∧
      ((look x.2.db [65]).map fun s => s.content.map (·.id)) = some [6, 3, 1, 2, 9, 5, 8, 7, 4, 77]) := by decide +kernel
  obtain ⟨⟨es, P⟩, h1, h2, h3, h4, h5⟩ := this
  refine ⟨es, P, poolActs_run .refl h1, h2, h3, rfl, fun env r a ha => ?_, h5⟩
  have := List.all_eq_true.1 h4 _ ha
  simpa using this

/-- All requests are done. -/
example : ∃ es db, PoolRun ⟨exDb, []⟩ es ⟨db, []⟩ ∧
    ([[65], [66], [67]].map fun id => (look db id).map fun s => s.content.map (·.id)) =
      [some [6, 3, 1, 2, 9, 5, 8, 7, 4, 77], some [3, 2, 1], some [3, 2, 1]] := by
  have : ∃ x, poolActs (exSchedule ++ [.effect 0, .finish 0] ++ List.replicate 3 (.effect 0) ++ [.finish 0]) ([], ⟨exDb, []⟩) = some x ∧
      (x.2.running.length = 0 ∧ ([[65], [66], [67]].map fun id => (look x.2.db id).map fun s => s.content.map (·.id)) =
      [some [6, 3, 1, 2, 9, 5, 8, 7, 4, 77], some [3, 2, 1], some [3, 2, 1]]) := by decide +kernel
  obtain ⟨⟨es, db, running⟩, h1, h2, h3⟩ := this
  have h2 : running = [] := List.length_eq_zero_iff.1 h2
  subst h2
  exact ⟨es, db, poolActs_run .refl h1, h3⟩

end RankDB.Props

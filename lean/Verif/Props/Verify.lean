import Verif.Proofs.FitServer
import Verif.Model.VerifyApi
/-
C78: verifying a list never raises a false alarm.
-/
namespace RankDB.Props
open Spec Server Disk

/-- What all requests keep besides `Good`: everything stored fits its stored form and has a time, and the options of
all lists are in order. -/
structure InBounds (db : Db) : Prop where
  store : StoreFits db.store
  lists : ∀ l ∈ db.lists, l.ent.mergeSize ≤ l.ent.splitSize
  file : ∀ l ∈ db.file, l.ent.mergeSize ≤ l.ent.splitSize

theorem noLists_inBounds : InBounds noLists :=
  ⟨⟨by simp [noLists], by simp [noLists]⟩, by simp [noLists], by simp [noLists]⟩

theorem inBounds_effects {env : Env} {db : Db} {r : Request} (h : Good db) (hb : InBounds db) (hf : Fits env db)
    (ha : Spec.Allowed db r) (hr : Room db r) {es : List Effect} (hes : ∀ e ∈ es, e ∈ (handle env db r).2) :
    InBounds (applyAll db es) := by
  have h1 := applyAll_entries (P := fun l => l.ent.mergeSize ≤ l.ent.splitSize) (es := es) hb.lists hb.file (by
    intro l hl
    rcases handle_put (hes _ hl) with ⟨p, hacc, rfl, -⟩ | ⟨x, hx, ent, rfl, e1, e2, -⟩
    · have := accepted_iff.1 hacc
      show p.mergeSize ≤ p.splitSize
      omega
    · have := hb.lists x hx
      show ent.mergeSize ≤ ent.splitSize
      omega)
  exact ⟨applyAll_store hb.store fun w hw => handle_fits h hb.store hf ha hr w (hes _ hw), h1.1, h1.2⟩

theorem inBounds_serve {env : Env} {db : Db} {r : Request} (h : Good db) (hb : InBounds db) (hf : Fits env db)
    (ha : Spec.Allowed db r) (hr : Room db r) : InBounds (serve env db r).2 :=
  inBounds_effects h hb hf ha hr (es := (handle env db r).2) fun _ he => he

theorem inBounds_history {db : Db} {rs : List (Env × Request)} (h : Good db) (hb : InBounds db) (hr : Ready db rs)
    (hroom : Roomy db rs) : Good (serveAll db rs).2 ∧ InBounds (serveAll db rs).2 := by
  induction rs generalizing db with
  | nil => exact ⟨h, hb⟩
  | cons x rs ih =>
    obtain ⟨env, r⟩ := x
    obtain ⟨h1, h2, h3⟩ := hr
    obtain ⟨r1, r2⟩ := hroom
    exact ih (C70_request env db r h h1 h2).1 (inBounds_serve h hb h1 h2 r1) h3 r2

/-- A list of a server in good order passes all checks. -/
theorem C78_passes (env : Env) (db : Db) (id : Str) (fix : Bool) (h : Good db) (hb : InBounds db) :
    verify env db id fix = (if (look db id).isSome then .correct else .notFound, []) := by
  unfold verify
  rcases Server.Good.look h (id := id) with ⟨l, st, l1, -, l3, l4, l5, l6⟩ | ⟨h1, h2⟩
  · rw [l3, l6]
    dsimp only
    rw [l4]
    dsimp only
    obtain ⟨-, -, m1, m2⟩ := reload_iff.1 l4
    have hfit := fits_reload hb.store l4
    obtain ⟨c1, c2⟩ := C30_verify_complete st l5 (by rw [← m1, ← m2]; exact hb.lists l l1) (by
      intro s hs
      rcases List.mem_append.1 hs with hs | hs
      · exact ⟨by have := (hfit.fit.scores s hs).1.1; omega, fun e he => by have := ((hfit.fit.scores s hs).2 e he).set; omega⟩
      · exact ⟨by have := (hfit.fit.index s hs).1.1; omega, fun e he => by have := ((hfit.fit.index s hs).2 e he).set; omega⟩)
    rw [c1, c2]
    rfl
  · rw [h1, h2]; rfl

/-- After any history of requests, starting with nothing, every list that is there passes `Verify`, and `Verify` changes
nothing, whether it may repair or not. -/
theorem C78_no_false_alarm (rs : List (Env × Request)) (hr : Ready noLists rs) (hroom : Roomy noLists rs) (env : Env) (id : Str)
    (fix : Bool) : verify env (serveAll noLists rs).2 id fix =
      (if (look (serveAll noLists rs).2 id).isSome then .correct else .notFound, []) := by
  obtain ⟨h1, h2⟩ := inBounds_history noLists_good noLists_inBounds hr hroom
  exact C78_passes env _ id fix h1 h2

/-- The same in terms of what the requests mean: `Verify` says `correct` for exactly the lists that the specification has
after the history. -/
theorem C78_no_false_alarm_spec (rs : List (Env × Request)) (hr : Ready noLists rs) (hroom : Roomy noLists rs) :
    ∃ L, MeansAll (fun _ => none) (rs.map fun x => (x.1.now, x.2)) (serveAll noLists rs).1 L ∧
      ∀ env id fix, verify env (serveAll noLists rs).2 id fix = (if (L id).isSome then .correct else .notFound, []) :=
  ⟨_, C70_from_nothing rs hr, fun env id fix => C78_no_false_alarm rs hr hroom env id fix⟩

/-! ### An example -/

/-- A test for the room that requests need. -/
def roomTest (db : Db) : List (Env × Request) → Bool
  | [] => true
  | (env, r) :: rs =>
    (elementsOf r).all (fun e => decide (e.payload.length < 2 ^ 32)) && decide ((elementsOf r).length + 3 ≤ 2 ^ 32) &&
    (uses r).all (fun id => (look db id).all fun s => decide (s.content.length + (elementsOf r).length + 3 ≤ 2 ^ 32)) &&
    roomTest (serve env db r).2 rs

theorem roomy_of_test (db : Db) (rs : List (Env × Request)) (h : roomTest db rs = true) : Roomy db rs := by
  induction rs generalizing db with
  | nil => trivial
  | cons x rs ih =>
    obtain ⟨env, r⟩ := x
    unfold roomTest at h
    simp only [Bool.and_eq_true, decide_eq_true_eq, List.all_eq_true] at h
    obtain ⟨⟨⟨h1, h2⟩, h3⟩, h4⟩ := h
    refine ⟨⟨h1, h2, fun id hid s hs => ?_⟩, ih _ h4⟩
    have := h3 id hid
    rw [hs] at this
    simpa using this

/-- A history that starts with nothing. -/
def exFromNothing : List (Env × Request) :=
  (exEnvAt 0, .create false { exPayload with id := [65] }) :: exHistory

theorem exFromNothing_ready : Ready noLists exFromNothing :=
  ready_of_test _ _ (by
    intro x hx
    simp only [exFromNothing, exHistory, List.mem_cons, List.not_mem_nil, or_false] at hx
    rcases hx with h | h | h | h | h | h | h | h | h | h | h | h <;> (rw [h]; rfl)) (by decide +kernel)

/-- The conditions hold for a history with all kinds of requests; two lists are left and pass. -/
example : Ready noLists exFromNothing ∧ Roomy noLists exFromNothing ∧
    ([[65], [66], [67]].map fun id => (verify exEnv (serveAll noLists exFromNothing).2 id true).1) =
      [.notFound, .correct, .correct] :=
  ⟨exFromNothing_ready, roomy_of_test _ _ (by decide +kernel), by decide +kernel⟩

/-- The server after this history. -/
def exAfter : Db := (serveAll noLists exFromNothing).2

/-- The checks are not empty: if a blob with elements is replaced by an empty one there is an error. -/
example : (verify exEnv { exAfter with store := write exAfter.store (.elems [200, 1] 1 []) } [66] false).1 = .error := by
  decide +kernel

end RankDB.Props

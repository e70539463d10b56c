import Verif.Proofs.Bytes
import Verif.Props.Answers
/-
C79: the server that keeps everything in bytes answers as the server that knows nothing of bytes.
-/
namespace RankDB.Props
open Spec Server Files

/-- Every name that `RandString` returns can be used for segments. -/
theorem C79_generated_names (rnd : List UInt8) (t : Nat) (h : rnd.length < 2 ^ 32 - 8) : GoodName (Keys.randString rnd t) := by
  refine ⟨fun hm => ?_, (C42_segment_table [] 0 rnd t).2.2.1, ?_⟩
  · have := C42_generated_ids rnd t 45 hm
    revert this
    unfold Keys.Alnum
    decide
  · unfold Keys.randString
    rw [List.length_map, List.length_append, List.length_map, Keys.timeDigits_length]
    omega

/-- A request: the answer is the same, and whatever number of changes was done before the process stopped, the bytes
stand for the same blobs and the same catalogue. -/
theorem C79_request (c : Setup) (env : Env) (F : Files) (db : Db) (r : Request) (hg : Good db) (h : AllFit db)
    (hr : Represents c F db) (ha : Asks env db r) :
    (Files.serve c env F r).1 = (Server.serve env db r).1 ∧
    Represents c (Files.serve c env F r).2 (Server.serve env db r).2 ∧
    ∀ k, Represents c (stopped c k env F r) (Server.applyAll db ((handle env db r).2.take k)) := by
  have he := represents_handle (env := env) (r := r) hr h.lists
  refine ⟨?_, ?_, fun k => ?_⟩
  · show (handle env F.db r).1 = _
    rw [he]; rfl
  · show Represents c (Files.applyAll c F (handle env F.db r).2) _
    rw [he]
    exact represents_effects hg h hr ha fun _ hm => hm
  · unfold stopped
    rw [he]
    exact represents_effects hg h hr ha fun _ hm => List.mem_of_mem_take hm

/-- A query: the answer is the same. -/
theorem C79_query (c : Setup) (sch : Sched) (F : Files) (db : Db) (q : Query) (h : AllFit db) (hr : Represents c F db) :
    ask sch F.db q = ask sch db q := represents_ask hr h.lists

/-- A start: the catalogue can be read, and the lists are those of the saved catalogue. -/
theorem C79_start (c : Setup) (F : Files) (db : Db) (hr : Represents c F db) :
    ∃ G, start c F = some G ∧ Represents c G (started db) := represents_start hr

theorem bytes_history (c : Setup) (F : Files) (db : Db) (es : List Files.Event) (hg : Good db) (h : AllFit db)
    (hr : Represents c F db) (ho : Orderly db es) :
    (run c F es).1 = (seenOf db es).1 ∧ Represents c (run c F es).2 (seenOf db es).2 ∧ Good (seenOf db es).2 ∧
      AllFit (seenOf db es).2 := by
  induction es generalizing F db with
  | nil => exact ⟨rfl, hr, hg, h⟩
  | cons x es ih =>
    cases x with
    | change env r =>
      obtain ⟨ha, ho⟩ := ho
      obtain ⟨r1, r2, -⟩ := C79_request c env F db r hg h hr ha
      obtain ⟨i1, i2⟩ := ih _ _ (C70_request env db r hg ha.fits ha.allowed).1 (fit_effects hg h ha fun _ hm => hm) r2 ho
      refine ⟨?_, i2⟩
      show Files.Response.answer _ :: _ = Files.Response.answer _ :: _
      rw [r1, i1]
    | ask sch q =>
      obtain ⟨i1, i2⟩ := ih F db hg h hr ho
      refine ⟨?_, i2⟩
      show Files.Response.shown _ :: _ = Files.Response.shown _ :: _
      rw [C79_query c sch F db q h hr, i1]
    | crash k env r =>
      obtain ⟨ha, hg', ho⟩ := ho
      obtain ⟨-, -, r3⟩ := C79_request c env F db r hg h hr ha
      obtain ⟨G, s1, s2⟩ := C79_start c _ _ (r3 k)
      obtain ⟨i1, i2⟩ := ih G _ hg' (started_fit (fit_effects hg h ha fun _ hm => List.mem_of_mem_take hm)) s2 ho
      simp only [run, seenOf]
      rw [s1]
      dsimp only
      exact ⟨by rw [i1], i2⟩

/-- Any history of requests, queries, crashes at any point and starts: everything that is seen is the same, every start
succeeds, and in the end the bytes stand for the same server. -/
theorem C79_history (c : Setup) (F : Files) (db : Db) (es : List Files.Event) (hg : Good db) (h : AllFit db)
    (hr : Represents c F db) (ho : Orderly db es) :
    (run c F es).1 = (seenOf db es).1 ∧ Represents c (run c F es).2 (seenOf db es).2 ∧ Good (seenOf db es).2 :=
  ⟨(bytes_history c F db es hg h hr ho).1, (bytes_history c F db es hg h hr ho).2.1, (bytes_history c F db es hg h hr ho).2.2.1⟩

/-- An empty storage. -/
def emptyFiles : Files := { blobs := fun _ => none, lists := [] }

theorem emptyFiles_represents (c : Setup) : Represents c emptyFiles noLists :=
  ⟨rfl, fun _ _ => ⟨rfl, fun _ => rfl⟩, rfl⟩

/-- The same, starting with an empty storage. -/
theorem C79_from_nothing (c : Setup) (es : List Files.Event) (ho : Orderly noLists es) :
    (run c emptyFiles es).1 = (seenOf noLists es).1 ∧ look (run c emptyFiles es).2.db = look (seenOf noLists es).2 := by
  obtain ⟨h1, h2, h3, h4⟩ := bytes_history c emptyFiles noLists es noLists_good noLists_fit (emptyFiles_represents c) ho
  refine ⟨h1, ?_⟩
  funext id
  exact look_congr (represents_same h2 h4.lists id)

/-- An event without crash. -/
def eventOf : Server.Event → Files.Event
  | .change env r => .change env r
  | .ask sch q => .ask sch q

/-- What is seen of it. -/
def responseOf : Server.Response → Files.Response
  | .answer a => .answer a
  | .shown s => .shown s

theorem seenOf_trace (db : Db) (es : List Server.Event) :
    seenOf db (es.map eventOf) = ((trace db es).1.map responseOf, (trace db es).2) := by
  induction es generalizing db with
  | nil => rfl
  | cons x es ih =>
    cases x with
    | change env r =>
      simp only [List.map_cons, eventOf, seenOf, trace]
      rw [ih]; rfl
    | ask sch q =>
      simp only [List.map_cons, eventOf, seenOf, trace]
      rw [ih]; rfl

theorem orderly_ready {db : Db} {es : List Server.Event} (h : Orderly db (es.map eventOf))
    (hq : ∀ sch q, Server.Event.ask sch q ∈ es → AllowedQuery q) : ReadyTrace db es := by
  induction es generalizing db with
  | nil => trivial
  | cons x es ih =>
    cases x with
    | change env r =>
      obtain ⟨ha, h⟩ := h
      exact ⟨ha.fits, ha.allowed, ih h fun sch q hm => hq sch q (List.mem_cons_of_mem _ hm)⟩
    | ask sch q =>
      exact ⟨hq sch q List.mem_cons_self, ih h fun sch q hm => hq sch q (List.mem_cons_of_mem _ hm)⟩

/-- What clients see of bytes, starting with an empty storage, is what their requests and queries mean for a map from
list IDs to rankings. -/
theorem C79_meaning (c : Setup) (es : List Server.Event) (ho : Orderly noLists (es.map eventOf))
    (hq : ∀ sch q, Server.Event.ask sch q ∈ es → AllowedQuery q) :
    ∃ rs L, MeansTrace (fun _ => none) es rs L ∧ (run c emptyFiles (es.map eventOf)).1 = rs.map responseOf ∧
      look (run c emptyFiles (es.map eventOf)).2.db = L := by
  obtain ⟨h1, h2⟩ := C79_from_nothing c _ ho
  rw [seenOf_trace] at h1 h2
  exact ⟨_, _, C75_from_nothing_partial es (orderly_ready ho hq), h1, h2⟩

/-- What a user sees of a list after a start: metadata that were not given are now empty (C35). -/
def reread (s : Seen) : Seen := { s with metadata := some (s.metadata.getD []) }

theorem byID_map (l : List Listing) (id : Str) : byID (l.map withMetadata) id = (byID l id).map withMetadata := by
  induction l with
  | nil => rfl
  | cons x l ih =>
    unfold byID at *
    rw [List.map_cons, List.find?_cons, List.find?_cons]
    by_cases hx : (x.id == id) = true
    · rw [hx, show ((withMetadata x).id == id) = true from hx]; rfl
    · have hx' : (x.id == id) = false := by simpa using hx
      rw [hx', show ((withMetadata x).id == id) = false from hx', ih]

theorem look_started (db : Db) (id : Str) : look (started db) id = (look (restart db) id).map reread := by
  unfold look started restart
  dsimp only
  rw [byID_map]
  cases byID db.file id with
  | none => rfl
  | some l =>
    dsimp only [Option.map_some, Option.bind_some]
    cases hr : Disk.reload db.store l.ent with
    | none => simp only [withMetadata, hr]; rfl
    | some st => simp only [withMetadata, hr]; rfl

/-- Saved bytes bring back every list: after the catalogue was saved, a start succeeds and shows the same lists. -/
theorem C79_saved (c : Setup) (env : Env) (F : Files) (db : Db) (hg : Good db) (h : AllFit db) (hr : Represents c F db)
    (ha : Asks env db .save) :
    ∃ G, start c (Files.serve c env F .save).2 = some G ∧ ∀ id, look G.db id = (look db id).map reread := by
  obtain ⟨-, r2, -⟩ := C79_request c env F db .save hg h hr ha
  obtain ⟨G, s1, s2⟩ := C79_start c _ _ r2
  refine ⟨G, s1, fun id => ?_⟩
  have hf := started_fit (fit_effects hg h ha (es := (handle env db .save).2) fun _ hm => hm)
  rw [look_congr (represents_same s2 hf.lists id)]
  show look (started (Server.serve env db .save).2) id = _
  rw [look_started, (C71_saved env db hg).1]

theorem started_good {db : Db} (h : Good (restart db)) : Good (started db) := by
  have key : ∀ l ∈ (started db).lists, ∃ x ∈ (restart db).lists, l.id = x.id ∧ l.ent = x.ent := by
    intro l hl
    obtain ⟨x, hx, rfl⟩ := List.mem_map.1 hl
    exact ⟨x, hx, rfl, rfl⟩
  refine ⟨?_, ?_, ?_, ?_, ?_⟩
  · show ((db.file.map withMetadata).map (·.id)).Nodup
    rw [List.map_map]
    exact h.ids
  · intro l hl
    obtain ⟨x, hx, -, e⟩ := key l hl
    rw [e]; exact h.own x hx
  · intro l hl l' hl' n hn hn'
    obtain ⟨x, hx, i, e⟩ := key l hl
    obtain ⟨x', hx', i', e'⟩ := key l' hl'
    unfold Spec.names at hn hn'
    rw [i, i']
    exact h.names x hx x' hx' n (by unfold Spec.names; rw [← e]; exact hn) (by unfold Spec.names; rw [← e']; exact hn')
  · intro l hl
    obtain ⟨x, hx, -, e⟩ := key l hl
    rw [e]; exact h.readable x hx
  · intro l hl
    obtain ⟨x, hx, -, e⟩ := key l hl
    rw [e]; exact h.sizes x hx

/-! ### An example -/

/-- A test for names and descriptions. -/
def bytesTest (x : Env × Request) : Bool :=
  [x.1.scores, x.1.index].all (fun n => decide (45 ∉ n) && decide (n ≠ Keys.listStorageKey) && decide (n.length < 2 ^ 32)) &&
  match x.2 with
  | .create _ p | .clone _ p => decide (p.id.length < 2 ^ 32) && decide (p.set.length < 2 ^ 32) &&
      decide (p.metadata.getD [] = []) && decide (p.splitSize < 2 ^ 63) && decide (p.mergeSize < 2 ^ 63)
  | _ => true

theorem bytes_of_test {x : Env × Request} (h : bytesTest x = true) : GoodNames x.1 ∧ Described x.2 := by
  obtain ⟨env, r⟩ := x
  simp only [bytesTest, List.all_cons, List.all_nil, Bool.and_eq_true, decide_eq_true_eq, Bool.and_true] at h
  obtain ⟨⟨⟨⟨h1, h2⟩, h3⟩, ⟨h4, h5⟩, h6⟩, h7⟩ := h
  have hd : ∀ p : Payload, (((((p.id.length < 2 ^ 32 ∧ p.set.length < 2 ^ 32) ∧ p.metadata.getD [] = []) ∧
      p.splitSize < 2 ^ 63) ∧ p.mergeSize < 2 ^ 63)) → Describable p := by
    rintro p ⟨⟨⟨⟨a, b⟩, m⟩, d⟩, e⟩
    exact ⟨a, b, by rw [m]; decide, by rw [m]; simp, by rw [m]; simp, d, e⟩
  refine ⟨⟨⟨h1, h2, h3⟩, ⟨h4, h5, h6⟩⟩, ?_⟩
  cases r with
  | create b p => simp only [Bool.and_eq_true, decide_eq_true_eq] at h7; exact hd p h7
  | clone b p => simp only [Bool.and_eq_true, decide_eq_true_eq] at h7; exact hd p h7
  | _ => trivial

theorem orderly_changes {db : Db} {rs : List (Env × Request)} {es : List Files.Event} (h1 : Ready db rs) (h2 : Roomy db rs)
    (h3 : rs.all bytesTest = true) (h : Orderly (Server.serveAll db rs).2 es) :
    Orderly db (rs.map (fun x => .change x.1 x.2) ++ es) := by
  induction rs generalizing db with
  | nil => exact h
  | cons x rs ih =>
    obtain ⟨env, r⟩ := x
    obtain ⟨a1, a2, a3⟩ := h1
    obtain ⟨b1, b2⟩ := h2
    rw [List.all_cons, Bool.and_eq_true] at h3
    obtain ⟨c1, c2⟩ := bytes_of_test h3.1
    exact ⟨⟨a1, a2, b1, c1, c2⟩, ih a3 b2 h3.2 h⟩

theorem saved_good {db : Db} (h : Good db) (hf : db.file = db.lists) : Good (started db) :=
  started_good (by
    unfold restart
    rw [hf]
    exact ⟨h.ids, h.own, h.names, h.readable, h.sizes⟩)

/-- Requests up to a save. -/
def exBefore : List (Env × Request) := exFromNothing.take 8

/-- The server then. -/
def exStopped : Db := (Server.serveAll noLists exBefore).2

/-- Requests after the crash. -/
def exLater : List (Env × Request) :=
  [(exEnvAt 20, .createElement [67] ⟨8, 6, [1, 2], 0, 0⟩), (exEnvAt 21, .repair [67]), (exEnvAt 22, .createElement [65] ⟨8, 6, [], 0, 0⟩)]

/-- A history with a crash while an element is added to a list. -/
def exEvents : List Files.Event :=
  exBefore.map (fun x => .change x.1 x.2) ++
    (.ask .inOrder (.fromTop [67] 1 2) :: .crash 0 (exEnvAt 19) (.createElement [67] ⟨8, 6, [], 0, 0⟩) ::
      (exLater.map (fun x => .change x.1 x.2) ++ [.ask .inOrder (.element [67] 6 0)]))

theorem exStopped_good : Good exStopped :=
  (C70_history noLists exBefore noLists_good (ready_of_test _ _ (by
    intro x hx
    simp only [exBefore, exFromNothing, exHistory, List.take, List.mem_cons, List.not_mem_nil, or_false] at hx
    rcases hx with h | h | h | h | h | h | h | h <;> (rw [h]; rfl)) (by decide +kernel))).1

theorem exEvents_orderly : Orderly noLists exEvents := by
  refine orderly_changes (ready_of_test _ _ ?_ (by decide +kernel)) (roomy_of_test _ _ (by decide +kernel)) (by decide +kernel) ?_
  · intro x hx
    simp only [exBefore, exFromNothing, exHistory, List.take, List.mem_cons, List.not_mem_nil, or_false] at hx
    rcases hx with h | h | h | h | h | h | h | h <;> (rw [h]; rfl)
  · show Asks (exEnvAt 19) exStopped (.createElement [67] ⟨8, 6, [], 0, 0⟩) ∧ Good (started exStopped) ∧ _
    have hr := ready_of_test exStopped [(exEnvAt 19, .createElement [67] ⟨8, 6, [], 0, 0⟩)] (by
      intro x hx; rw [List.mem_singleton.1 hx]; rfl) (by decide +kernel)
    have hm := roomy_of_test exStopped [(exEnvAt 19, .createElement [67] ⟨8, 6, [], 0, 0⟩)] (by decide +kernel)
    have hb := bytes_of_test (x := (exEnvAt 19, .createElement [67] ⟨8, 6, [], 0, 0⟩)) (by decide +kernel)
    refine ⟨⟨hr.1, hr.2.1, hm.1, hb.1, hb.2⟩, saved_good exStopped_good (by decide +kernel), ?_⟩
    refine orderly_changes (db := started exStopped) (ready_of_test _ _ ?_ (by decide +kernel)) (roomy_of_test _ _ (by decide +kernel))
      (by decide +kernel) trivial
    intro x hx
    simp only [exLater, List.mem_cons, List.not_mem_nil, or_false] at hx
    rcases hx with h | h | h <;> (rw [h]; rfl)

/-- The conditions hold for a history with a crash. -/
example : Orderly noLists exEvents := exEvents_orderly

/-- The bytes that the storage has for a new list: the segments, and the elements of the first segment. -/
def exFiles : Files := (Files.serve ⟨noCompression, false⟩ (exEnvAt 1) emptyFiles (.create false exPayload)).2

example : exFiles.blobs [200, 1] =
      some [2, 132, 162, 73, 68, 162, 200, 1, 168, 83, 101, 103, 109, 101, 110, 116, 115, 145, 152, 1, 0, 207, 255, 255, 255,
        255, 255, 255, 255, 255, 0, 206, 255, 255, 255, 255, 3, 209, 1, 45, 162, 200, 1, 166, 78, 101, 120, 116, 73, 68, 2,
        167, 73, 115, 73, 110, 100, 101, 120, 194] ∧
    exFiles.blobs (Keys.storageKey [200, 1] 1) =
      some [1, 147, 149, 9, 3, 196, 0, 1, 205, 1, 45, 149, 9, 2, 196, 0, 0, 205, 1, 45, 149, 3, 1, 196, 1, 8, 0, 205, 1, 45] := by
  decide +kernel

/-- What is seen of the element that was added again after the crash. -/
example : (match (run ⟨noCompression, true⟩ emptyFiles exEvents).1.getLast? with
    | some (.shown (.element f)) => (f.elem.id, f.elem.score, f.elem.payload)
    | _ => (0, 0, [])) = (6, 8, [1, 2]) := by
  decide +kernel

end RankDB.Props

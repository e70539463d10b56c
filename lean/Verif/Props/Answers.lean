import Verif.Spec.Answers
import Verif.Props.Api
import Verif.Props.Queries
import Verif.Props.Catalogue
import Verif.Props.Server
/-
C75: every query is answered from the map of rankings, at any point of any history of changes and queries.
-/
namespace RankDB.Props
open Spec Server

theorem not_mem_ids {l : List Element} {eid : Nat} (h : ∀ e ∈ l, e.id ≠ eid) : eid ∉ l.map (·.id) := by
  intro hm
  obtain ⟨e, he, hi⟩ := List.mem_map.1 hm
  exact h e he hi

theorem lastN_reverse {α} (n : Nat) (l : List α) : lastN n l = (l.reverse.take n).reverse := by
  unfold lastN
  rw [List.take_reverse, List.reverse_reverse]

/-- The answer of `GetPercentile` is never "no such element". -/
theorem percentile_found {st : ListState} (h : ListOK st) {m e radius : Nat} : Lists.getPercentile st m e radius ≠ some none := by
  obtain ⟨s, hs⟩ : ∃ s, st.scores.segs.getLast? = some s := by
    cases hl : st.scores.segs.getLast? with
    | none => exact absurd (List.getLast?_eq_none_iff.1 hl) (tiles_ne_nil h.scores.tiles)
    | some s => exact ⟨s, rfl⟩
  unfold Lists.getPercentile
  generalize Lists.percentileOffset _ _ _ = want
  rcases Nat.lt_or_ge want st.content.length with hw | hw
  · obtain ⟨r, r1, -⟩ := Lists.getAtOffset_spec (radius := radius) h hw
    rw [r1]; simp
  · rcases Lists.getAtOffset_end (radius := radius) h hw hs with ⟨-, h2⟩ | ⟨r, h2, -⟩ <;> rw [h2] <;> simp

/-- What is computed for a list is what has to be shown. -/
theorem shows_list (sch : Sched) (db : Db) (q : Query) (id : Str) (l : Listing) (st : ListState) (hq : Query.list? q = some id)
    (ha : AllowedQuery q) (hb : byID db.lists id = some l) (hr : Disk.reload db.store l.ent = some st) (hok : ListOK st) :
    ShowsList (viewOf l st) q (ask sch db q) := by
  have hw : ∀ f, withRead db id f = f l st := by intro f; unfold withRead; rw [hb]; simp only [hr]
  cases q with
  | list i =>
    obtain rfl : i = id := by simpa [Query.list?] using hq
    obtain ⟨s1, s2, s3, s4, s5⟩ := C28_stats st hok
    simp only [ask]
    rw [hw]
    exact ⟨rfl, rfl, rfl, rfl, rfl, ⟨s1, s2, s4, s3, s5⟩⟩
  | element i eid range =>
    obtain rfl : i = id := by simpa [Query.list?] using hq
    have := C57_neighbours_partial sch st eid range hok ha
    simp only [ask]
    rw [hw]
    cases hg : Api.get sch st eid range with
    | none => rw [hg] at this; exact not_mem_ids this
    | some f =>
      rw [hg] at this
      obtain ⟨k1, k2, k3, k4, k5, k6, -, k7⟩ := this
      exact ⟨k1, k2, k3, k4, k5, k6, k7⟩
  | elements i eids =>
    obtain rfl : i = id := by simpa [Query.list?] using hq
    obtain ⟨k1, k2, k3, k4⟩ := C56_get_multi sch st eids hok ha
    simp only [ask]
    rw [hw]
    refine ⟨k1, k2, k3, fun v => ?_⟩
    rw [k4]
    show _ ↔ v ∈ eids ∧ v ∉ st.content.map (·.id)
    constructor
    · rintro ⟨a, b⟩; exact ⟨a, not_mem_ids b⟩
    · rintro ⟨a, b⟩; exact ⟨a, fun e he hi => b (List.mem_map.2 ⟨e, he, hi⟩)⟩
  | around i eids eid range =>
    obtain rfl : i = id := by simpa [Query.list?] using hq
    have := C58_around sch st eids eid range hok ha.1 ha.2
    simp only [ask]
    rw [hw]
    cases hg : Api.getAround sch st eids eid range with
    | none => rw [hg] at this; exact not_mem_ids this
    | some a =>
      rw [hg] at this
      obtain ⟨k1, k2, k3, k4, k5, k6, k7⟩ := this
      exact ⟨k1, k2, k3, by rw [k4, lastN_reverse]; rfl, k5, k6, k7⟩
  | fromTop i first limit =>
    obtain rfl : i = id := by simpa [Query.list?] using hq
    have := C64_range_top st first limit hok ha
    simp only [ask]
    rw [hw]
    cases hg : Api.getRangeTop st first limit with
    | none => rw [hg] at this; exact this
    | some r => rw [hg] at this; exact this
  | fromBottom i first limit =>
    obtain rfl : i = id := by simpa [Query.list?] using hq
    have := C64_range_bottom st first limit hok ha
    simp only [ask]
    rw [hw]
    cases hg : Api.getRangeBottom st first limit with
    | none => rw [hg] at this; exact this
    | some r => rw [hg] at this; exact this
  | percentile i m e range =>
    obtain rfl : i = id := by simpa [Query.list?] using hq
    simp only [ask]
    rw [hw]
    have key (hl : st.content.length < 2 ^ 63) : (st.content = [] ∧ Lists.getPercentile st m e range = none) ∨
        ∃ r, Lists.getPercentile st m e range = some (some r) ∧ ShowsPercentile st.content m e range (Api.full r) := by
      by_cases hne : st.content = []
      · exact .inl ⟨hne, C25_no_elements_panics st m e range hok hne⟩
      · obtain ⟨r, r1, r2, r3⟩ := C25_percentile_below_one st m e range hok ha.1 ha.2 hl hne
        obtain ⟨f1, f2, f3, f4⟩ := full_spec (content := st.content) hok.scores.strict r2
        exact .inr ⟨r, r1, ⟨r2.mem, rfl, ⟨by rw [Api.full, r2.top], by rw [Api.full, r2.bottom]⟩, f4.trans r2.below, f1,
          f3.trans r2.above, near_above f2 f3⟩, r3⟩
    cases hg : Lists.getPercentile st m e range with
    | none =>
      intro hl
      rcases key hl with ⟨h1, -⟩ | ⟨r, h1, -⟩
      · exact h1
      · rw [hg] at h1; cases h1
    | some o =>
      cases o with
      | none => exact absurd hg (percentile_found hok)
      | some r =>
        intro hl
        rcases key hl with ⟨-, h1⟩ | ⟨r', h1, h2⟩
        · rw [hg] at h1; cases h1
        · rw [hg] at h1; cases h1; exact h2
  | page after limit => simp [Query.list?] at hq

/-- The catalogue enumerates the lists that clients see. -/
theorem catalogue_enumerates {db : Db} (h : Good db) : Enumerates (look db) (catalogue db) := by
  have hmap : (catalogue db).map (·.id) = db.lists.map (·.id) := by
    unfold catalogue; rw [List.map_map]; rfl
  refine ⟨?_, ?_, ?_⟩
  · unfold DistinctLists; rw [hmap]; exact h.ids
  · intro id
    rw [hmap]
    rcases Server.Good.look h (id := id) with ⟨l, st, l1, l2, l3, l4, l5, l6⟩ | ⟨h1, h2⟩
    · rw [l6]; simp only [Option.isSome_some, true_iff]; exact List.mem_map.2 ⟨l, l1, l2⟩
    · rw [h2]
      simp only [Option.isSome_none, Bool.false_eq_true, false_iff]
      intro hm
      obtain ⟨l, hl, hi⟩ := List.mem_map.1 hm
      unfold byID at h1
      have := List.find?_eq_none.1 h1 l hl
      simp [hi] at this
  · intro e he s hs
    obtain ⟨l, hl, rfl⟩ := List.mem_map.1 he
    rcases Server.Good.look h (id := l.id) with ⟨l', st, l1, l2, l3, l4, l5, l6⟩ | ⟨h1, h2⟩
    · dsimp only at hs
      rw [l6] at hs
      obtain rfl := Option.some.inj hs
      have : l' = l := Option.some.inj (l3.symm.trans (byID_of_mem h.ids hl))
      subst this
      exact ⟨rfl, rfl⟩
    · dsimp only at hs; rw [h2] at hs; cases hs

/-- **C75.** Whatever is asked, in whatever order goroutines run: the answer is the one that the map of rankings gives.
Missing is what the ranks of neighbours above the element should be (C57: they are wrong if there are two or more). -/
theorem C75_answers_partial (sch : Sched) (db : Db) (q : Query) (h : Good db) (ha : AllowedQuery q) :
    Shows (look db) q (ask sch db q) := by
  have key : ∀ id, Query.list? q = some id → match look db id with
      | none => ask sch db q = .noList
      | some l => ShowsList l q (ask sch db q) := by
    intro id hq
    rcases Server.Good.look h (id := id) with ⟨l, st, l1, l2, l3, l4, l5, l6⟩ | ⟨h1, h2⟩
    · rw [l6]
      exact shows_list sch db q id l st hq ha l3 l4 l5
    · rw [h2]
      have hw : ∀ f, withRead db id f = .noList := by intro f; unfold withRead; rw [h1]
      dsimp only
      cases q <;> simp only [Query.list?, Option.some.injEq, reduceCtorEq] at hq <;> subst hq <;> simp only [ask] <;> rw [hw]
  cases q with
  | page after limit =>
    exact ⟨catalogue db, _, _, _, catalogue_enumerates h, rfl,
      C43_after (catalogue db) (catalogue_enumerates h).1 after limit ha⟩
  | list => exact key
  | element => exact key
  | elements => exact key
  | around => exact key
  | fromTop => exact key
  | fromBottom => exact key
  | percentile => exact key

/-- **C75.** In a history of changes and queries every change means what it should, and every query is answered from
the lists as the changes before it left them. -/
theorem C75_trace_partial (db : Db) (es : List Event) (h : Good db) (hr : ReadyTrace db es) :
    Good (trace db es).2 ∧ MeansTrace (look db) es (trace db es).1 (look (trace db es).2) := by
  induction es generalizing db with
  | nil => exact ⟨h, rfl, rfl⟩
  | cons x es ih =>
    cases x with
    | change env r =>
      obtain ⟨h1, h2, h3⟩ := hr
      obtain ⟨g1, g2⟩ := C70_request env db r h h1 h2
      obtain ⟨i1, i2⟩ := ih _ g1 h3
      exact ⟨i1, _, _, _, rfl, g2, i2⟩
    | ask sch q =>
      obtain ⟨h1, h2⟩ := hr
      obtain ⟨i1, i2⟩ := ih _ h h2
      exact ⟨i1, _, _, rfl, C75_answers_partial sch db q h h1, i2⟩

/-- The same from a server without lists. -/
theorem C75_from_nothing_partial (es : List Event) (hr : ReadyTrace noLists es) :
    MeansTrace (fun _ => none) es (trace noLists es).1 (look (trace noLists es).2) := by
  have := (C75_trace_partial noLists es noLists_good hr).2
  have h0 : look noLists = fun _ => none := by funext id; rfl
  rwa [h0] at this

theorem ready_trace (db : Db) (es : List Event)
    (h1 : Ready db (es.filterMap fun | .change env r => some (env, r) | .ask .. => none))
    (h2 : ∀ sch q, Event.ask sch q ∈ es → AllowedQuery q) : ReadyTrace db es := by
  induction es generalizing db with
  | nil => trivial
  | cons x es ih =>
    cases x with
    | change env r =>
      simp only [List.filterMap_cons] at h1
      obtain ⟨a, b, c⟩ := h1
      exact ⟨a, b, ih _ c fun sch q hq => h2 sch q (List.mem_cons_of_mem _ hq)⟩
    | ask sch q =>
      simp only [List.filterMap_cons] at h1
      exact ⟨h2 sch q List.mem_cons_self, ih _ h1 fun sch q hq => h2 sch q (List.mem_cons_of_mem _ hq)⟩

/-- Queries of every kind between changes. -/
def exTrace : List Event :=
  [.ask exEnv.sch (.element [66] 3 1), .change (exEnvAt 1) (.create false exPayload), .ask exEnv.sch (.element [66] 3 1),
   .ask exEnv.sch (.elements [66] [1, 8, 2]), .change (exEnvAt 2) (.putElements [66] [⟨77, 1, [], 0, 0⟩]),
   .ask exEnv.sch (.fromTop [66] 0 2), .ask exEnv.sch (.fromBottom [66] 0 1), .ask exEnv.sch (.around [65] [3, 4, 9] 9 1),
   .ask exEnv.sch (.page [65] 5),
   .ask exEnv.sch (.percentile [65] 3 2 1), .change (exEnvAt 3) (.delete [66]), .ask exEnv.sch (.list [66]), .ask exEnv.sch (.list [65])]

theorem exTrace_ready : ReadyTrace exDb exTrace := by
  apply ready_trace
  · apply ready_of_test
    · intro x hx
      simp only [exTrace, List.filterMap_cons, List.filterMap_nil, List.mem_cons, List.not_mem_nil, or_false] at hx
      rcases hx with h | h | h <;> (rw [h]; rfl)
    · decide +kernel
  · intro sch q hq
    simp only [exTrace, List.mem_cons, reduceCtorEq, Event.ask.injEq, List.not_mem_nil, or_false, false_or] at hq
    rcases hq with ⟨-, rfl⟩ | ⟨-, rfl⟩ | ⟨-, rfl⟩ | ⟨-, rfl⟩ | ⟨-, rfl⟩ | ⟨-, rfl⟩ | ⟨-, rfl⟩ | ⟨-, rfl⟩ | ⟨-, rfl⟩ | ⟨-, rfl⟩ <;>
      unfold AllowedQuery <;> decide

/-- What is seen, in short. -/
def brief : Response → List Int
  | .answer .ok => [-1]
  | .answer _ => [-2]
  | .shown .noList => [-3]
  | .shown .noElement => [-4]
  | .shown .failed => [-5]
  | .shown (.list _ _ _ _ _ s) => s.elements :: (s.top.toList.map (·.1) ++ s.bottom.toList.map (·.1)).map fun x => (x.id : Int)
  | .shown (.element f) => f.elem.id :: f.fromTop :: f.fromBottom :: (f.above ++ f.below).map fun x => (x.1.id : Int)
  | .shown (.elements found missing) => found.map (fun r => (r.elem.id : Int)) ++ missing.map Int.ofNat
  | .shown (.around a) => a.center.elem.id :: (a.above ++ a.below).map fun r => (r.elem.id : Int)
  | .shown (.range l) => l.map fun x => (x.1.id : Int)
  | .shown (.page ls before after) => (before : Int) :: after :: ls.map fun e => (e.id.length : Int)

example : Good exDb ∧ ReadyTrace exDb exTrace ∧ (trace exDb exTrace).1.map brief =
    [[-3], [-1], [3, 0, 2, 2], [2, 1, 8], [-1], [1, 3], [2], [9, 3, 4], [1, 0, 1], [8, 6, 2, 5, 7], [-1], [-3], [9, 6, 4]] :=
  ⟨exDb_good, exTrace_ready, by decide +kernel⟩

end RankDB.Props

import Verif.Proofs.Recover
import Verif.Spec.Recover
import Verif.Props.Rebuild
import Verif.Props.Restart
/-
C99: a crash within a request, a restart, and one repair request.
-/
namespace RankDB.Props
open Spec Server Disk

theorem deleteSegs_fill (sch : Sched) (p : Str) (segs : List Seg) (d : Store) :
    deleteSegs sch p (segs.map (fill d p)) = deleteSegs sch p segs := by
  unfold deleteSegs
  rw [List.map_map]
  rfl

/-- Repairing a list that can be read is what `Server.handle` says. -/
theorem repair_whole (env : Env) (db : Db) (id : Str) (h : Good db) : repairAny env db id = handle env db (.repair id) := by
  show repairAny env db id = withList db id _
  unfold repairAny withList
  rcases Server.Good.look h (id := id) with ⟨l, st, l1, l2, l3, l4, l5, l6⟩ | ⟨h1, h2⟩
  · rw [l3]
    dsimp only
    rw [l4]
    dsimp only
    unfold reload loadSegs at l4
    cases h1 : db.store.heads l.ent.scores with
    | none => rw [h1] at l4; simp at l4
    | some s =>
      cases h2 : db.store.heads l.ent.index with
      | none => rw [h1, h2] at l4; simp at l4
      | some i =>
        rw [h1, h2] at l4
        dsimp only at l4 ⊢
        by_cases c1 : complete db.store l.ent.scores s
        · by_cases c2 : complete db.store l.ent.index i
          · rw [if_pos c1, if_pos c2] at l4
            simp only [Option.some.injEq] at l4
            have hlost : (s.segs.map (fill db.store l.ent.scores)).filter
                (fun g => !((db.store.elems l.ent.scores g.id).isNone)) = s.segs.map (fill db.store l.ent.scores) := by
              rw [List.filter_eq_self]
              intro g hg
              obtain ⟨g0, hg0, rfl⟩ := List.mem_map.1 hg
              have := List.all_eq_true.1 c1 g0 hg0
              show (!(db.store.elems l.ent.scores g0.id).isNone) = true
              simpa [Option.isSome_iff_ne_none] using this
            subst l4
            unfold repairWrites Lists.repair Disk.populate
            dsimp only
            have hfil : (s.segs.map (fill db.store l.ent.scores)).filter (fun _ => true) = s.segs.map (fill db.store l.ent.scores) :=
              List.filter_eq_self.2 (fun _ _ => rfl)
            simp only [Bool.not_false, hfil]
            rw [hlost, deleteSegs_fill, deleteSegs_fill]
            cases Lists.populate env.now env.sch env.shuffle env.reduce l.ent.mergeSize l.ent.splitSize
              (Elements.deduplicate ((s.segs.map (fill db.store l.ent.scores)).flatMap fun s =>
                (Elements.deduplicate s.elems).1)).1 <;> rfl
          · rw [if_pos c1, if_neg c2] at l4; simp at l4
        · rw [if_neg c1] at l4; simp at l4
  · rw [h1]

/-- What the writes `ws` of a request leave behind wherever it is cut off: elements of `S` only. -/
structure Cut (env : Env) (db : Db) (r : Request) (l : Listing) (S : List Element) (k : Nat) (ws : List Write) : Prop where
  effects : (handle env db r).2 = ws.map .blob
  parents : ∀ w ∈ ws, w.parent = l.ent.scores ∨ w.parent = l.ent.index
  found : Found (crash k db.store ws) l.ent S
  storable : ∀ e ∈ S, Storable e
  room : S.length + 2 ≤ 2 ^ 32

theorem crashed_blobs {env : Env} {db : Db} {r : Request} {ws : List Write} (k : Nat) (hsaved : db.file = db.lists)
    (he : (handle env db r).2 = ws.map .blob) : crashed k env db r = { db with store := crash k db.store ws } := by
  unfold crashed restart
  rw [he, ← List.map_take, applyAll_blobs]
  show Db.mk _ db.file db.file = Db.mk _ db.lists db.file
  rw [hsaved]
  rfl

/-- One repair request brings the server back to good order. -/
theorem recovered {env env' : Env} {db : Db} {r : Request} {l : Listing} {S : List Element} {k : Nat} {ws : List Write}
    (h : Good db) (hsaved : db.file = db.lists) (hl : l ∈ db.lists) (hc : Cut env db r l S k ws)
    (hf' : Fits env' (crashed k env db r)) :
    ∃ x, Disk.repair env'.now env'.sch env'.shuffle env'.reduce (crash k db.store ws) l.ent = some x ∧ ListOK x ∧
      (repaired env' (crashed k env db r) l.id).1 = .ok ∧ Good (repaired env' (crashed k env db r) l.id).2 ∧
      look (repaired env' (crashed k env db r) l.id).2 = (look db).set l.id (some (viewOf l x)) ∧
      (repaired env' (crashed k env db r) l.id).2.file = db.file ∧
      reload (repaired env' (crashed k env db r) l.id).2.store l.ent = none := by
  rw [crashed_blobs k hsaved hc.effects] at hf' ⊢
  exact repaired_of_found h hl (fun w hw => hc.parents w (List.mem_of_mem_take hw)) hc.found hc.storable hc.room
    ⟨hf'.now, hf'.differ, hf'.fresh, hf'.reduce⟩

/-- A request without effect. -/
theorem cut_nothing {env : Env} {db : Db} {r : Request} {l : Listing} {st : ListState} (k : Nat) (hr : reload db.store l.ent = some st)
    (hok : ListOK st) (hlen : 2 * st.content.length + 2 ≤ 2 ^ 32) (he : (handle env db r).2 = []) :
    Cut env db r l (st.content ++ st.content) k [] := by
  refine ⟨he, by simp, ?_, ?_, ?_⟩
  · have hrd := ready_of_reload hr
    unfold crash
    rw [List.take_nil]
    exact mixed_found ⟨hrd.heads, hrd.hasIndex, fun o ho => .inl (hrd.scores o ho)⟩
  · intro e he
    exact hok.scores.storable e ((List.mem_append.1 he).elim id id)
  · rw [List.length_append]; omega

theorem nothing_content {now : Nat} {sch shuffle : Sched} {reduce : Nat → Nat} {d : Store} {ent : Entry} {st x : ListState} (k : Nat)
    (hr : reload d ent = some st) (hok : ListOK st) (hlen : 2 * st.content.length + 2 ≤ 2 ^ 32)
    (hred : ∀ n, 0 < n → 0 < reduce n) (hs : 4 ≤ ent.splitSize)
    (hx : Disk.repair now sch shuffle reduce (crash k d []) ent = some x) : x.content = st.content := by
  unfold crash at hx
  rw [List.take_nil] at hx
  obtain ⟨i0, hi⟩ := (ready_of_reload hr).hasIndex
  obtain ⟨y, y1, -, y3⟩ := repair_complete (now := now) (sch := sch) (shuffle := shuffle) (reduce := reduce) hok (reload_iff.1 hr).1 hi
    (by omega) hred hs
  have hx : Disk.repair now sch shuffle reduce d ent = some x := hx
  rw [y1, Option.some.injEq] at hx
  rw [← hx, y3]

/-- What a repair keeps of the list and what it may have besides. -/
def Between (now : Nat) (r : Request) (old new : List Element) : Prop :=
  (∀ e ∈ old, ¬ Touches e.id r → e ∈ new) ∧ (∀ e ∈ new, e ∈ old ∨ Gives now e r)

/-- A request that inserts `es'`. -/
theorem insert_cut {env env' : Env} {db : Db} {r : Request} {l : Listing} {st : ListState} {es' : List Element} (k : Nat) (h : Good db)
    (l1 : l ∈ db.lists) (l4 : reload db.store l.ent = some st) (l5 : ListOK st)
    (hroom : 2 * (st.content.length + es'.length) + 2 ≤ 2 ^ 32) (hst : ∀ e ∈ es', Storable e)
    (hdd : DistinctIDs (st.content ++ es')) (hg : ∀ e ∈ es', Gives env.now e r)
    (he : (handle env db r).2 = (Disk.insert env.now env.sch l.ent st es').map .blob)
    (hred : ∀ n, 0 < n → 0 < env'.reduce n) :
    ∃ S ws, Cut env db r l S k ws ∧ ∀ x, Disk.repair env'.now env'.sch env'.shuffle env'.reduce (crash k db.store ws) l.ent = some x →
      Between env.now r st.content x.content := by
  obtain ⟨x, hx, -, x1, x2⟩ := C51_insert env.now env'.now env.sch env'.sch env'.shuffle env'.reduce db.store l.ent st es' k
    (h.own l l1) l4 l5 hst hdd hroom hred (h.sizes l l1)
  have hfound : ∃ S, Found (crash k db.store (Disk.insert env.now env.sch l.ent st es')) l.ent S ∧ (∀ e ∈ S, Storable e) ∧
      S.length + 2 ≤ 2 ^ 32 := by
    obtain ⟨-, -, -, hsp⟩ := reload_iff.1 l4
    obtain ⟨st', hi⟩ := Lists.insert_returns (now := env.now) (sch := env.sch) (l := es') l5 (by have := h.sizes l l1; omega)
    unfold Lists.insert at hi
    unfold Disk.insert
    cases hc : Lists.chunks (Lists.insertLimit st) es'.length es' with
    | none => simp [hc] at hi
    | some cs =>
      have hfl := Lists.chunks_flatten hc
      obtain ⟨a, b, ha, hb, -, hm, -, -, h5, h6⟩ := insertChunks_crash (now := env.now) (sch := env.sch) (h.own l l1) (cs := cs) k l5
        (ready_of_reload l4) (by rw [hfl]; exact hst) (by rw [hfl]; exact hdd)
      rw [hfl] at h5 h6
      refine ⟨_, mixed_found hm, ?_, ?_⟩
      · intro e he
        rcases List.mem_append.1 he with he | he
        · exact ha.scores.storable e he
        · exact hb.scores.storable e he
      · rw [List.length_append]; omega
  obtain ⟨S, s1, s2, s3⟩ := hfound
  refine ⟨S, _, ⟨he, parent_insert, s1, s2, s3⟩, ?_⟩
  intro y hy
  rw [hx, Option.some.injEq] at hy
  subst hy
  exact ⟨fun e he _ => x1 e he, fun e he => (x2 e he).imp id (hg e)⟩

/-- A request that has no effect. -/
theorem nothing_cut {env env' : Env} {db : Db} {r : Request} {l : Listing} {st : ListState} (k : Nat) (h : Good db)
    (l1 : l ∈ db.lists) (l4 : reload db.store l.ent = some st) (l5 : ListOK st)
    (hroom : 2 * st.content.length + 2 ≤ 2 ^ 32) (he : (handle env db r).2 = [])
    (hred : ∀ n, 0 < n → 0 < env'.reduce n) :
    ∃ S ws, Cut env db r l S k ws ∧ ∀ x, Disk.repair env'.now env'.sch env'.shuffle env'.reduce (crash k db.store ws) l.ent = some x →
      Between env.now r st.content x.content := by
  refine ⟨_, _, cut_nothing k l4 l5 hroom he, ?_⟩
  intro x hx
  rw [Between, nothing_content k l4 l5 hroom hred (h.sizes l l1) hx]
  exact ⟨fun e he _ => he, fun e he => .inl he⟩

/-- Every request that edits a list. -/
theorem edit_cut {env env' : Env} {db : Db} {r : Request} {id : Str} {l : Listing} {st : ListState} (k : Nat) (h : Good db)
    (hf : Fits env db) (ha : Spec.Allowed db r) (hr : Edits id r)
    (l1 : l ∈ db.lists) (l3 : byID db.lists id = some l) (l4 : reload db.store l.ent = some st) (l5 : ListOK st)
    (hroom : 2 * (st.content.length + given r) + 2 ≤ 2 ^ 32) (hred : ∀ n, 0 < n → 0 < env'.reduce n) :
    ∃ S ws, Cut env db r l S k ws ∧ ∀ x, Disk.repair env'.now env'.sch env'.shuffle env'.reduce (crash k db.store ws) l.ent = some x →
      Between env.now r st.content x.content := by
  cases r with
  | createElement i e =>
    have hr : i = id := hr
    subst hr
    have hids : ∀ v ∈ [e.id], v < 2 ^ 64 := by simpa using ha.id
    obtain ⟨-, -, g3⟩ := Lists.getElements_spec (sch := env.sch) l5 hids 0
    have hh : handle env db (.createElement i e) =
        (if (Lists.getElements env.sch st [e.id] 0).length > 0 then (.conflict, [])
          else match Lists.insert env.now env.sch st (Elements.updateTime env.now [e]) with
            | none => (.stuck, [])
            | some _ => (.ok, (Disk.insert env.now env.sch l.ent st (Elements.updateTime env.now [e])).map .blob)) := by
      show withList db i _ = _
      unfold withList
      rw [l3]
      dsimp only
      rw [l4]
      rfl
    by_cases hex : (Lists.getElements env.sch st [e.id] 0).length > 0
    · rw [if_pos hex] at hh
      exact nothing_cut k h l1 l4 l5 (by omega) (by rw [hh]) hred
    · rw [if_neg hex] at hh
      obtain ⟨-, -, -, m2⟩ := reload_iff.1 l4
      obtain ⟨st', hi⟩ := C15_insert_returns env.now env.sch st (Elements.updateTime env.now [e]) l5
        (by rw [← m2]; exact h.sizes l l1)
      rw [hi] at hh
      refine insert_cut k h l1 l4 l5 (es' := Elements.updateTime env.now [e]) hroom ?_ ?_ ?_ (by rw [hh]) hred
      · intro x hx
        simp only [Elements.updateTime, List.map_cons, List.map_nil, List.mem_singleton] at hx
        subst hx
        exact ⟨ha.score, ha.id, ha.tie, hf.now.2⟩
      · unfold DistinctIDs
        rw [List.map_append, List.nodup_append]
        refine ⟨l5.scores.distinct, by simp [Elements.updateTime], ?_⟩
        intro a hain b hb hab
        simp only [Elements.updateTime, List.map_cons, List.map_nil, List.mem_singleton] at hb
        rw [hab, hb] at hain
        obtain ⟨x, hx, hxe⟩ := List.mem_map.1 hain
        obtain ⟨r, hr, -⟩ := g3 x hx (by simp [hxe])
        exact hex (List.length_pos_of_mem hr)
      · intro x hx
        simpa [Elements.updateTime, Gives] using hx
  | createElements i es =>
    have hr : i = id := hr
    subst hr
    have hc := chosen_before env.now es (fun e he => (ha e he).2)
    have hst := chosen_storable hc (fun e he => (ha e he).1) hf.now.2
    have hh : handle env db (.createElements i es) =
        (if (Lists.getElements env.sch st ((Elements.updateTime env.now (Elements.deduplicate es).1).map (·.id)) 0).length > 0
          then (.conflict, [])
          else match Lists.insert env.now env.sch st (Elements.updateTime env.now (Elements.deduplicate es).1) with
            | none => (.stuck, [])
            | some _ => (.ok, (Disk.insert env.now env.sch l.ent st
                (Elements.updateTime env.now (Elements.deduplicate es).1)).map .blob)) := by
      show withList db i _ = _
      unfold withList
      rw [l3]
      dsimp only
      rw [l4]
      rfl
    generalize Elements.updateTime env.now (Elements.deduplicate es).1 = es' at hc hst hh
    have hids : ∀ v ∈ es'.map (·.id), v < 2 ^ 64 := by
      intro v hv
      obtain ⟨e, he, rfl⟩ := List.mem_map.1 hv
      exact (hst e he).id
    obtain ⟨-, -, g3⟩ := Lists.getElements_spec (sch := env.sch) l5 hids 0
    have hle := chosen_length hc
    have hroom : 2 * (st.content.length + es.length) + 2 ≤ 2 ^ 32 := hroom
    by_cases hex : (Lists.getElements env.sch st (es'.map (·.id)) 0).length > 0
    · rw [if_pos hex] at hh
      exact nothing_cut k h l1 l4 l5 (by omega) (by rw [hh]) hred
    · rw [if_neg hex] at hh
      obtain ⟨-, -, -, m2⟩ := reload_iff.1 l4
      obtain ⟨st', hi⟩ := C15_insert_returns env.now env.sch st es' l5 (by rw [← m2]; exact h.sizes l l1)
      rw [hi] at hh
      refine insert_cut k h l1 l4 l5 (es' := es') (by omega) hst ?_ hc.given (by rw [hh]) hred
      unfold DistinctIDs
      rw [List.map_append, List.nodup_append]
      refine ⟨l5.scores.distinct, hc.distinct, ?_⟩
      intro a hain b hb hab
      rw [hab] at hain
      obtain ⟨x, hx, hxe⟩ := List.mem_map.1 hain
      obtain ⟨r, hr, -⟩ := g3 x hx (by rw [hxe]; exact hb)
      exact hex (List.length_pos_of_mem hr)
  | putElements i es =>
    have hr : i = id := hr
    subst hr
    have hc := dedup_chosen env.now es
    have hh : handle env db (.putElements i es) = (.ok, (Disk.updateElements env.now env.sch l.ent st
        (Elements.deduplicate (Elements.updateTime env.now es)).1).map .blob) := by
      show withList db i _ = _
      unfold withList
      rw [l3]
      dsimp only
      rw [l4]
    generalize (Elements.deduplicate (Elements.updateTime env.now es)).1 = es' at hc hh
    have hle := chosen_length hc
    have hst := chosen_storable hc ha hf.now.2
    have hroom : 2 * (st.content.length + es.length) + 2 ≤ 2 ^ 32 := hroom
    obtain ⟨x, hx, -, x1, x2, -⟩ := C51_update_partial env.now env'.now env.sch env'.sch env'.shuffle env'.reduce db.store l.ent st es' k
      (h.own l l1) l4 l5 hst hc.distinct hf.now.2 (by omega) hred (h.sizes l l1)
    obtain ⟨u1, u2, -⟩ := Lists.updateElements_full (now := env.now) (sch := env.sch) l5 hst hc.distinct hf.now.2
    obtain ⟨ws, hw, hstep⟩ := updateElements_step (now := env.now) (sch := env.sch) (ent := l.ent) l5 hst hc.distinct hf.now.2
    refine ⟨_, _, ⟨by rw [hh], parent_updateElements, by rw [hw]; exact mixed_found (step_crash (h.own l l1) (ready_of_reload l4) hstep k),
      ?_, ?_⟩, ?_⟩
    · intro e he
      rcases List.mem_append.1 he with he | he
      · exact l5.scores.storable e he
      · exact u1.scores.storable e he
    · rw [List.length_append, u2.length_eq]
      have : (upsert st.content (es'.map (stamp env.now))).length ≤ st.content.length + es'.length := by
        unfold upsert
        rw [List.length_append, List.length_map]
        have := List.length_filter_le (fun e => !((es'.map (stamp env.now)).map (·.id)).contains e.id) st.content
        omega
      omega
    · intro y hy
      rw [hx, Option.some.injEq] at hy
      subst hy
      refine ⟨fun e he hn => x1 e he ?_, fun e he => (x2 e he).imp id ?_⟩
      · intro z hz hze
        obtain ⟨w, hw, rfl⟩ := hc.given z hz
        exact hn ⟨w, hw, hze⟩
      · rintro ⟨z, hz, rfl⟩
        obtain ⟨w, hw, rfl⟩ := hc.given z hz
        refine ⟨w, hw, ?_⟩
        unfold stamp
        rw [if_neg (by show ¬ env.now = 0; have := hf.now.1; omega)]
  | deleteElements i ids =>
    have hr : i = id := hr
    subst hr
    have hroom : 2 * (st.content.length + 0) + 2 ≤ 2 ^ 32 := hroom
    have hh : handle env db (.deleteElements i ids) = (.ok, (Disk.deleteElements env.now env.sch l.ent st ids).map .blob) := by
      show withList db i _ = _
      unfold withList
      rw [l3]
      dsimp only
      rw [l4]
    obtain ⟨x, hx, -, x1, x2⟩ := C51_delete env.now env'.now env.sch env'.sch env'.shuffle env'.reduce db.store l.ent st ids k
      (h.own l l1) l4 l5 ha (by omega) hred (h.sizes l l1)
    obtain ⟨u1, u2, -⟩ := Lists.deleteElements_spec (now := env.now) (sch := env.sch) l5 ha
    obtain ⟨ws, hw, hstep⟩ := deleteElements_step env.now env.sch l.ent st ids
    refine ⟨_, _, ⟨by rw [hh], parent_deleteElements, by rw [hw]; exact mixed_found (step_crash (h.own l l1) (ready_of_reload l4) hstep k),
      ?_, ?_⟩, ?_⟩
    · intro e he
      rcases List.mem_append.1 he with he | he
      · exact l5.scores.storable e he
      · exact u1.scores.storable e he
    · rw [List.length_append, u2]
      have : (remove st.content ids).length ≤ st.content.length := List.length_filter_le _ _
      omega
    · intro y hy
      rw [hx, Option.some.injEq] at hy
      subst hy
      exact ⟨x1, fun e he => .inl (x2 e he)⟩
  | create _ _ | clone _ _ | delete _ | reindex _ | repair _ | split _ _ | save => exact hr.elim

/-- The server crashes at any point within a request that creates, changes or deletes elements, is started again, and
the list is repaired: the repair succeeds, the server is in good order, all other lists are exactly as they were, and
the list has its options, all elements that the request does not touch, and besides them only elements that it had or
that the request gives. -/
theorem C99_recovers (env env' : Env) (db : Db) (r : Request) (id : Str) (k : Nat) (l : Seen) (h : Good db)
    (hsaved : db.file = db.lists) (hf : Fits env db) (ha : Spec.Allowed db r) (hr : Edits id r) (hl : look db id = some l)
    (hroom : 2 * (l.content.length + given r) + 2 ≤ 2 ^ 32) (hf' : Fits env' (crashed k env db r)) :
    (repaired env' (crashed k env db r) id).1 = .ok ∧ Good (repaired env' (crashed k env db r) id).2 ∧
    (∀ x, x ≠ id → look (repaired env' (crashed k env db r) id).2 x = look db x) ∧
    ∃ es, look (repaired env' (crashed k env db r) id).2 id = some { l with content := es } ∧ es = ranking es ∧ DistinctIDs es ∧
      (∀ e ∈ l.content, ¬ Touches e.id r → e ∈ es) ∧ (∀ e ∈ es, e ∈ l.content ∨ Gives env.now e r) := by
  rcases Server.Good.look h (id := id) with ⟨x, st, l1, l2, l3, l4, l5, l6⟩ | ⟨-, h2⟩
  · rw [hl, Option.some.injEq] at l6
    subst l6
    obtain ⟨S, ws, hc, hbt⟩ := edit_cut (env' := env') k h hf ha hr l1 l3 l4 l5 hroom hf'.reduce
    obtain ⟨y, y1, y2, y3, y4, y5, -⟩ := recovered h hsaved l1 hc hf'
    rw [l2] at y3 y4 y5
    obtain ⟨c1, c2, c3⟩ := C21_content_is_ranked y y2
    obtain ⟨b1, b2⟩ := hbt y y1
    refine ⟨y3, y4, ?_, y.content, ?_, c3, c2, b1, b2⟩
    · intro z hz
      rw [y5]
      exact if_neg hz
    · rw [y5]
      exact if_pos rfl
  · rw [hl] at h2; simp at h2

theorem inPlace_moves {r : Request} (h : InPlace r) (id : Str) : ¬ Moves r id := by
  cases r <;> first | exact h.elim | exact fun hx => hx.elim

theorem saved_effects {env : Env} {db0 : Db} {r : Request} (h : InPlace r) : ∀ (es : List Effect) (db : Db),
    (∀ e ∈ es, OwnEffect env db0 r e) → db.file = db.lists → (applyAll db es).file = (applyAll db es).lists
  | [], _, _, hs => hs
  | e :: es, db, he, hs => by
    refine saved_effects h es (apply db e) (fun x hx => he x (by simp [hx])) ?_
    have := he e (by simp)
    cases e with
    | blob w => exact hs
    | save => rfl
    | put l => exact absurd this.1 (inPlace_moves h _)
    | drop id => exact absurd this.1 (inPlace_moves h _)

theorem saved_history : ∀ (rs : List (Env × Request)) (db : Db), Good db → Ready db rs → (∀ x ∈ rs, InPlace x.2) →
    db.file = db.lists → (serveAll db rs).2.file = (serveAll db rs).2.lists
  | [], _, _, _, _, hs => hs
  | (env, r) :: rs, db, h, hr, hi, hs => by
    obtain ⟨h1, h2, h3⟩ := hr
    exact saved_history rs _ (C70_request env db r h h1 h2).1 h3 (fun x hx => hi x (by simp [hx]))
      (saved_effects (hi (env, r) (by simp)) _ _ (handle_own h h1) hs)

/-- The same at any point of any history: since the catalogue was last saved elements were created, changed and deleted
and segments were split. After the repair every later request means what it should, starting from what the repair
left. -/
theorem C99_history (db : Db) (before after later : List (Env × Request)) (senv env env' : Env) (r : Request) (id : Str) (k : Nat)
    (l : Seen) (h : Good db) (hr : Ready db (before ++ (senv, .save) :: after)) (hi : ∀ x ∈ after, InPlace x.2)
    (hf : Fits env (serveAll db (before ++ (senv, .save) :: after)).2)
    (ha : Spec.Allowed (serveAll db (before ++ (senv, .save) :: after)).2 r) (he : Edits id r)
    (hl : look (serveAll db (before ++ (senv, .save) :: after)).2 id = some l)
    (hroom : 2 * (l.content.length + given r) + 2 ≤ 2 ^ 32)
    (hf' : Fits env' (crashed k env (serveAll db (before ++ (senv, .save) :: after)).2 r))
    (hlater : Ready (repaired env' (crashed k env (serveAll db (before ++ (senv, .save) :: after)).2 r) id).2 later) :
    ∃ es, es = ranking es ∧ DistinctIDs es ∧
      (∀ e ∈ l.content, ¬ Touches e.id r → e ∈ es) ∧ (∀ e ∈ es, e ∈ l.content ∨ Gives env.now e r) ∧
      MeansAll ((look (serveAll db (before ++ (senv, .save) :: after)).2).set id (some { l with content := es }))
        (later.map fun x => (x.1.now, x.2))
        (serveAll (repaired env' (crashed k env (serveAll db (before ++ (senv, .save) :: after)).2 r) id).2 later).1
        (look (serveAll (repaired env' (crashed k env (serveAll db (before ++ (senv, .save) :: after)).2 r) id).2 later).2) := by
  have hsaved : (serveAll db (before ++ (senv, .save) :: after)).2.file = (serveAll db (before ++ (senv, .save) :: after)).2.lists := by
    rw [serveAll_append]
    obtain ⟨r1, r2, r3, r4⟩ := ready_append hr
    have g1 := (C70_history db before h r1).1
    have g2 := (C70_request senv _ .save g1 r2 r3).1
    exact saved_history after _ g2 r4 hi rfl
  have hg := (C70_history db _ h hr).1
  generalize (serveAll db (before ++ (senv, .save) :: after)).2 = db' at *
  obtain ⟨-, g, o, es, e1, e2, e3, e4, e5⟩ := C99_recovers env env' db' r id k l hg hsaved hf ha he hl hroom hf'
  refine ⟨es, e2, e3, e4, e5, ?_⟩
  have := (C70_history _ later g hlater).2
  have hlook : look (repaired env' (crashed k env db' r) id).2 = (look db').set id (some { l with content := es }) := by
    funext x
    unfold Lists.set
    by_cases hx : x = id
    · rw [hx, e1, if_pos rfl]
    · rw [if_neg hx, o x hx]
  rwa [hlook] at this

/-! ### Splitting -/

theorem split_found {now : Nat} {merge : Bool} {sch : Sched} {d : Store} {ent : Entry} {st : ListState} (k : Nat)
    (hne : ent.scores ≠ ent.index) (h : reload d ent = some st) (hok : ListOK st) (hnow : now < 2 ^ 32 - 1)
    (hs : st.scores.nextID ≤ 2 ^ 31) (hi : st.index.nextID ≤ 2 ^ 31) :
    Found (crash k d (Disk.split now merge sch ent st)) ent st.content := by
  obtain ⟨h1, h2, -⟩ := reload_iff.1 h
  obtain ⟨hok', hc'⟩ := C18_split_keeps_content now merge st hok hnow hs hi
  obtain ⟨⟨i0, hi0⟩, hcase⟩ := split_crash (merge := merge) (sch := sch) k hne h hok hnow
  have S1 := splitScores_steps now merge ent st
  have hfr : Fresh st.scores.nextID st.scores.segs := ⟨hok.scores.segIDs, fun g hg => (hok.scoresIDs.1 g hg).2⟩
  have hmem : ∀ g ∈ st.scores.segs, ∀ e ∈ g.elems, e ∈ st.content := fun g hg e he => mem_allElems.2 ⟨g, hg, he⟩
  rcases hcase with ⟨s0, hh, hids, hel⟩ | ⟨-, hh, hel⟩
  · obtain ⟨c1, c2⟩ := steps_crash S1 (d := d) (S := st.content) k
      (fun i hi => by obtain ⟨g, hg, rfl⟩ := List.mem_map.1 hi; exact hfr.2 g hg) hfr (ready_of_reload h).scores
      (by
        intro i l hi hl e he
        obtain ⟨g, hg, rfl⟩ := List.mem_map.1 hi
        rw [(ready_of_reload h).scores g hg, Option.some.injEq] at hl
        exact hmem g hg e (hl ▸ he))
      hmem
    refine ⟨s0, i0, hh, hi0, ?_⟩
    intro g hg l hl e he
    refine c2 g.id l ?_ (by rw [← hel]; exact hl) e he
    rw [← hids]
    exact List.mem_map.2 ⟨g, hg, rfl⟩
  · obtain ⟨c1, -, -⟩ := steps_has S1 (d := d) hfr (ready_of_reload h).scores
    refine ⟨_, i0, hh, hi0, ?_⟩
    intro g hg l hl e he
    obtain ⟨o, ho, rfl⟩ := List.mem_map.1 hg
    have : (crash k d (Disk.split now merge sch ent st)).elems ent.scores o.id = some o.elems := by
      rw [hel]; exact c1 o ho
    rw [show (crash k d (Disk.split now merge sch ent st)).elems ent.scores o.id = some l from hl, Option.some.injEq] at this
    rw [← hc']
    exact mem_allElems.2 ⟨o, ho, this ▸ he⟩

/-- The same for the job that splits and merges segments: the repair succeeds, the server is in good order, and the list
has no elements but its own. If no segment is large enough to be split, it has them all. Missing: otherwise
elements can be lost, see `C52_split_lost`. -/
theorem C99_split_partial (env env' : Env) (db : Db) (merge : Bool) (id : Str) (k : Nat) (l : Seen) (h : Good db)
    (hsaved : db.file = db.lists) (hf : Fits env db) (ha : Spec.Allowed db (.split id merge)) (hl : look db id = some l)
    (hroom : l.content.length + 2 ≤ 2 ^ 32) (hf' : Fits env' (crashed k env db (.split id merge))) :
    (repaired env' (crashed k env db (.split id merge)) id).1 = .ok ∧ Good (repaired env' (crashed k env db (.split id merge)) id).2 ∧
    (∀ x, x ≠ id → look (repaired env' (crashed k env db (.split id merge)) id).2 x = look db x) ∧
    ∃ es, look (repaired env' (crashed k env db (.split id merge)) id).2 id = some { l with content := es } ∧
      (∀ e ∈ es, e ∈ l.content) ∧
      ((∀ x ∈ db.lists, x.id = id → ∀ st, reload db.store x.ent = some st → ∀ g ∈ st.scores.segs, g.elems.length < l.splitSize) →
        es = l.content) := by
  rcases Server.Good.look h (id := id) with ⟨x, st, l1, l2, l3, l4, l5, l6⟩ | ⟨-, h2⟩
  · rw [hl, Option.some.injEq] at l6
    subst l6
    obtain ⟨a1, a2⟩ := ha x l1 l2 st l4
    have hh : handle env db (.split id merge) = (.ok, (Disk.split env.now merge env.sch x.ent st).map .blob) := by
      show withList db id _ = _
      unfold withList
      rw [l3]
      dsimp only
      rw [l4]
    have hc : Cut env db (.split id merge) x st.content k (Disk.split env.now merge env.sch x.ent st) :=
      ⟨by rw [hh], parent_split (merge := merge) (sch := env.sch) (h.own x l1) l4 l5 hf.now.2,
        split_found k (h.own x l1) l4 l5 hf.now.2 a1 a2, l5.scores.storable, hroom⟩
    obtain ⟨y, y1, y2, y3, y4, y5, -⟩ := recovered h hsaved l1 hc hf'
    rw [l2] at y3 y4 y5
    obtain ⟨z, z1, z2, z3, -⟩ := C52_split_partial env.now env'.now merge env.sch env'.sch env'.shuffle env'.reduce db.store x.ent st k
      (h.own x l1) l4 l5 hf.now.2 a1 a2 hroom hf'.reduce (h.sizes x l1)
    rw [y1, Option.some.injEq] at z1
    subst z1
    refine ⟨y3, y4, ?_, y.content, ?_, z3, ?_⟩
    · intro z hz
      rw [y5]
      exact if_neg hz
    · rw [y5]
      exact if_pos rfl
    · intro hsmall
      obtain ⟨-, -, -, m2⟩ := reload_iff.1 l4
      obtain ⟨z, z1, -, z3⟩ := C52_merge env.now env'.now merge env.sch env'.sch env'.shuffle env'.reduce db.store x.ent st k
        (h.own x l1) l4 l5 hf.now.2 a1 a2 hroom hf'.reduce (h.sizes x l1)
        (fun g hg => by rw [← m2]; exact hsmall x l1 l2 st l4 g hg)
      rw [y1, Option.some.injEq] at z1
      rw [z1, z3]
      rfl
  · rw [hl] at h2; simp at h2

/-! ### What is not kept -/

/-- The repaired list is lost if the server stops once more before the catalogue is saved. This is so for every
request, every crash and every list. -/
theorem C99_unsaved (env env' : Env) (db : Db) (r : Request) (id : Str) (k : Nat) (l : Seen) (h : Good db)
    (hsaved : db.file = db.lists) (hf : Fits env db) (ha : Spec.Allowed db r) (hr : Edits id r) (hl : look db id = some l)
    (hroom : 2 * (l.content.length + given r) + 2 ≤ 2 ^ 32) (hf' : Fits env' (crashed k env db r)) :
    (look (repaired env' (crashed k env db r) id).2 id).isSome ∧
    look (restart (repaired env' (crashed k env db r) id).2) id = none := by
  obtain ⟨-, -, -, es, e1, -⟩ := C99_recovers env env' db r id k l h hsaved hf ha hr hl hroom hf'
  refine ⟨by rw [e1]; rfl, ?_⟩
  rcases Server.Good.look h (id := id) with ⟨x, st, l1, l2, l3, l4, l5, l6⟩ | ⟨-, h2⟩
  · rw [hl, Option.some.injEq] at l6
    subst l6
    obtain ⟨S, ws, hc, -⟩ := edit_cut (env' := env') k h hf ha hr l1 l3 l4 l5 hroom hf'.reduce
    obtain ⟨y, -, -, -, -, -, y6, y7⟩ := recovered h hsaved l1 hc hf'
    rw [l2] at y6 y7
    unfold look
    show ((byID (repaired env' (crashed k env db r) id).2.file id).bind fun x =>
      (reload (repaired env' (crashed k env db r) id).2.store x.ent).map _) = none
    rw [y6, hsaved, l3]
    simp only [Option.bind_some]
    rw [y7]
    rfl
  · rw [hl] at h2; simp at h2

/-- If the catalogue is saved after the repair, a restart changes nothing. -/
theorem C99_saved (env env' senv : Env) (db : Db) (r : Request) (id : Str) (k : Nat) (l : Seen) (h : Good db)
    (hsaved : db.file = db.lists) (hf : Fits env db) (ha : Spec.Allowed db r) (hr : Edits id r) (hl : look db id = some l)
    (hroom : 2 * (l.content.length + given r) + 2 ≤ 2 ^ 32) (hf' : Fits env' (crashed k env db r)) :
    look (restart (serve senv (repaired env' (crashed k env db r) id).2 .save).2) =
      look (repaired env' (crashed k env db r) id).2 ∧
    Good (restart (serve senv (repaired env' (crashed k env db r) id).2 .save).2) :=
  C71_saved senv _ (C99_recovers env env' db r id k l h hsaved hf ha hr hl hroom hf').2.1

theorem repair_none {env : Env} {db : Db} {id : Str} {x : Listing} (hb : byID db.lists id = some x)
    (hr : Disk.repair env.now env.sch env.shuffle env.reduce db.store x.ent = none) : (repaired env db id).1 = .stuck := by
  unfold Disk.repair at hr
  unfold repaired repairAny
  rw [hb]
  dsimp only
  cases h1 : db.store.heads x.ent.scores with
  | none => rw [h1] at hr; simp at hr
  | some s =>
    cases h2 : db.store.heads x.ent.index with
    | none =>
      rw [h1, h2] at hr
      dsimp only at hr ⊢
      split at hr
      · rename_i hc; rw [if_pos hc]
      · simp at hr
    | some i =>
      rw [h1, h2] at hr
      dsimp only at hr ⊢
      have : Lists.repair env.now env.sch env.shuffle env.reduce (fun g => (db.store.elems x.ent.scores g.id).isNone)
          { scores := { s with segs := s.segs.map (fill db.store x.ent.scores) }, index := i
            mergeSize := x.ent.mergeSize, splitSize := x.ent.splitSize } = none := hr
      rw [this]

/-- The list was reindexed and the server stopped before the catalogue was saved: the repair request panics, for every
list. -/
theorem C99_reindexed_stuck (env env' : Env) (db : Db) (id : Str) (l : Seen) (h : Good db) (hsaved : db.file = db.lists)
    (hf : Fits env db) (ha : Spec.Allowed db (.reindex id)) (hl : look db id = some l) :
    (serve env db (.reindex id)).1 = .ok ∧ (repaired env' (restart (serve env db (.reindex id)).2) id).1 = .stuck := by
  rcases Server.Good.look h (id := id) with ⟨x, st, l1, l2, l3, l4, l5, l6⟩ | ⟨-, h2⟩
  · obtain ⟨-, -, m1, m2⟩ := reload_iff.1 l4
    obtain ⟨st', hi⟩ := C19_reindex_returns env.now env.sch st (by have := h.sizes x l1; omega)
    have hfr := hf.fresh x (List.mem_append_left _ l1)
    have hne1 : x.ent.scores ≠ env.index := fun he => hfr.2 (by simp [names, he])
    have hne2 : env.index ≠ x.ent.index := fun he => hfr.2 (by simp [names, he])
    have hlen := ha x l1 l2 st l4
    have hh : handle env db (.reindex id) = (.ok, (Disk.reindex env.now env.sch x.ent { x.ent with index := env.index } st).map .blob ++
        [.put { x with ent := { x.ent with index := env.index } }]) := by
      show withList db id _ = _
      unfold withList
      rw [l3]
      dsimp only
      rw [l4]
      dsimp only
      rw [hi]
    have hs : restart (serve env db (.reindex id)).2 = { db with
        store := writes db.store (Disk.reindex env.now env.sch x.ent { x.ent with index := env.index } st) } := by
      unfold serve
      rw [hh]
      dsimp only
      rw [applyAll_append, applyAll_blobs]
      show Db.mk (writes db.store _) db.file db.file = Db.mk (writes db.store _) db.lists db.file
      rw [hsaved]
    refine ⟨by unfold serve; rw [hh], ?_⟩
    rw [hs]
    have hrep := (C68_reindex_unsaved env.now env'.now env.sch env'.sch env'.shuffle env'.reduce db.store x.ent { x.ent with index := env.index } st
      l4 l5 rfl hne1 hne2 (h.own x l1) hlen (h.sizes x l1)).2
    exact repair_none (db := { db with store := _ }) l3 hrep
  · rw [hl] at h2; simp at h2

theorem cleared_spec {env : Env} {db : Db} {l : Listing} {ws : List Write} (h : Good db) (hl : l ∈ db.lists) (hf : Fits env db)
    (hw : ∀ w ∈ ws, ∀ x ∈ db.lists, x.id ≠ l.id → w.parent ∉ names x)
    (hgone : (writes db.store ws).heads l.ent.scores = none) :
    (repaired env { db with store := writes db.store ws } l.id).1 = .ok ∧
    Good (repaired env { db with store := writes db.store ws } l.id).2 ∧
    look (repaired env { db with store := writes db.store ws } l.id).2 =
      (look db).set l.id (some (viewOf l (Lists.initEmpty env.now l.ent.mergeSize l.ent.splitSize))) := by
  let new : Entry := { l.ent with scores := env.scores, index := env.index }
  have hany : repairAny env { db with store := writes db.store ws } l.id = (.ok, cleared env l) := by
    unfold repairAny
    dsimp only
    rw [byID_of_mem h.ids hl]
    dsimp only
    rw [hgone]
  have hpop : Lists.populate env.now env.sch env.shuffle env.reduce new.mergeSize new.splitSize [] =
      some (Lists.initEmpty env.now l.ent.mergeSize l.ent.splitSize) := by
    unfold Lists.populate
    rfl
  have i1 := populateNew_reload (new := new) (writes db.store ws) hf.differ hpop (by simp [DistinctIDs]) (by simp) (by simp)
  have hg := good_put_apart (l := { l with ent := new })
    (ws := ws ++ populateNew env.now env.sch env.shuffle env.reduce new []) h hf.differ (h.sizes l hl)
    (fun x hx _ => hf.fresh x (List.mem_append_left _ hx))
    (by
      intro w hwm x hx hne
      rcases List.mem_append.1 hwm with h5 | h5
      · exact hw w h5 x hx hne
      · have := hf.fresh x (List.mem_append_left _ hx)
        rcases parent_populateNew w h5 with h6 | h6
        · rw [h6]; exact this.1
        · rw [h6]; exact this.2)
    (by rw [writes_append]; exact i1) (Lists.initEmpty_spec _ _ _)
  rw [writes_append] at hg
  have hs : repaired env { db with store := writes db.store ws } l.id = (.ok, { db with
      store := writes (writes db.store ws) (populateNew env.now env.sch env.shuffle env.reduce new [])
      lists := { l with ent := new } :: db.lists.filter fun x => x.id != l.id }) := by
    unfold repaired
    rw [hany]
    dsimp only
    unfold cleared
    dsimp only
    rw [applyAll_append, applyAll_blobs]
    rfl
  rw [hs]
  exact ⟨rfl, hg.1, hg.2⟩

theorem populate_gone {now : Nat} {sch shuffle : Sched} {reduce : Nat → Nat} {d : Store} {ent new : Entry} {st : ListState}
    {l : List Element} {k : Nat} (hne : ent.scores ≠ ent.index ∧ ent.scores ≠ new.scores ∧ ent.scores ≠ new.index)
    (hk : st.scores.segs.length < k) :
    (crash k d (Disk.populate now sch shuffle reduce ent new st l)).heads ent.scores = none := by
  unfold crash Disk.populate
  have hlen : (deleteSegs sch ent.scores st.scores.segs).length ≤ k := by
    unfold deleteSegs
    rw [List.length_append, (sch.perm _).length_eq, List.length_map, List.length_singleton]
    omega
  rw [List.take_append, List.take_of_length_le hlen, writes_append]
  rw [(writes_other _ (p := ent.scores) ?_).1]
  · exact deleteSegs_gone _ _ _ _
  · intro w hw
    have hw := List.mem_of_mem_take hw
    rcases List.mem_append.1 hw with hw | hw
    · rw [parent_deleteSegs w hw]; exact Ne.symm hne.1
    · rcases parent_populateNew w hw with h | h
      · rw [h]; exact Ne.symm hne.2.1
      · rw [h]; exact Ne.symm hne.2.2

/-- A repair request that crashes after it deleted the scores loses all elements, whatever the list is: repairing once
more succeeds and gives an empty list. The other lists are as they were. -/
theorem C99_repair_crashed (env env' : Env) (db : Db) (id : Str) (k : Nat) (l : Seen) (h : Good db) (hsaved : db.file = db.lists)
    (hf : Fits env db) (ha : Spec.Allowed db (.repair id)) (hl : look db id = some l)
    (hk : ∀ x ∈ db.lists, x.id = id → ∀ st, reload db.store x.ent = some st → st.scores.segs.length < k)
    (hf' : Fits env' (crashed k env db (.repair id))) :
    (repaired env' (crashed k env db (.repair id)) id).1 = .ok ∧
    look (repaired env' (crashed k env db (.repair id)) id).2 = (look db).set id (some { l with content := [] }) := by
  rcases Server.Good.look h (id := id) with ⟨x, st, l1, l2, l3, l4, l5, l6⟩ | ⟨-, h2⟩
  · rw [hl, Option.some.injEq] at l6
    subst l6
    obtain ⟨-, -, m1, m2⟩ := reload_iff.1 l4
    obtain ⟨st', hi⟩ := C31_repair_returns env.now env.sch env.shuffle env.reduce (fun _ => false) st
      (fun s hs _ e he => l5.scores.storable e (mem_allElems.2 ⟨s, hs, he⟩)) (ha x l1 l2 st l4) hf.reduce
      (by rw [← m2]; exact h.sizes x l1)
    let new : Entry := { x.ent with scores := env.scores, index := env.index }
    let ws := repairWrites env.now env.sch env.shuffle env.reduce x.ent new st
    have hh : handle env db (.repair id) = (.ok, ws.map .blob ++ [.put { x with ent := new }]) := by
      show withList db id _ = _
      unfold withList
      rw [l3]
      dsimp only
      rw [l4]
      dsimp only
      rw [hi]
    have hcr : crashed k env db (.repair id) = { db with store := writes db.store (ws.take k) } := by
      unfold crashed restart
      rw [hh]
      dsimp only
      rw [List.take_append, ← List.map_take, applyAll_append, applyAll_blobs]
      have : ∀ n, ∀ d : Db, (applyAll d ([Effect.put { x with ent := new }].take n)).store = d.store ∧
          (applyAll d ([Effect.put { x with ent := new }].take n)).file = d.file := by
        intro n d
        cases n with
        | zero => exact ⟨rfl, rfl⟩
        | succ n => rw [List.take_succ_cons, List.take_nil]; exact ⟨rfl, rfl⟩
      obtain ⟨t1, t2⟩ := this (k - (ws.map Effect.blob).length) { db with store := writes db.store (ws.take k) }
      show Db.mk (applyAll _ _).store (applyAll _ _).file (applyAll _ _).file = _
      rw [t1, t2]
      show Db.mk _ db.file db.file = Db.mk _ db.lists db.file
      rw [hsaved]
    rw [hcr] at hf' ⊢
    have hfr := hf.fresh x (List.mem_append_left _ l1)
    have hgone : (writes db.store (ws.take k)).heads x.ent.scores = none :=
      populate_gone (d := db.store) ⟨h.own x l1, fun he => hfr.1 (by rw [show env.scores = _ from he.symm]; simp [names]),
        fun he => hfr.2 (by rw [show env.index = _ from he.symm]; simp [names])⟩ (hk x l1 l2 st l4)
    obtain ⟨c1, -, c3⟩ := cleared_spec (env := env') (ws := ws.take k) h l1 ⟨hf'.now, hf'.differ, hf'.fresh, hf'.reduce⟩
      (by
        intro w hw z hz hne hp
        rcases parent_populate w (List.mem_of_mem_take hw) with (h6 | h6) | (h6 | h6)
        · exact hne (h.names z hz x l1 _ hp (by simp [names, h6]))
        · exact hne (h.names z hz x l1 _ hp (by simp [names, h6]))
        · exact (hf.fresh z (List.mem_append_left _ hz)).1 (by rw [h6] at hp; exact hp)
        · exact (hf.fresh z (List.mem_append_left _ hz)).2 (by rw [h6] at hp; exact hp))
      hgone
    rw [l2] at c1 c3
    refine ⟨c1, ?_⟩
    rw [c3]
    congr 2
  · rw [hl] at h2; simp at h2

/-! ### Examples -/

/-- The list of `exDb` and the update `exUpdate`, which makes 7 writes; the server crashes after 4 of them. -/
example : Good exDb ∧ exDb.file = exDb.lists ∧ Fits exEnv exDb ∧ Spec.Allowed exDb (.putElements [65] exUpdate) ∧
    Edits [65] (.putElements [65] exUpdate) ∧ (look exDb [65]).isSome ∧
    (∀ l, look exDb [65] = some l → 2 * (l.content.length + given (.putElements [65] exUpdate)) + 2 ≤ 2 ^ 32) ∧
    Fits exEnv2 (crashed 4 exEnv exDb (.putElements [65] exUpdate)) ∧
    (handle exEnv exDb (.putElements [65] exUpdate)).2.length = 7 :=
  ⟨exDb_good, rfl, exEnv_fits, by unfold Spec.Allowed; decide +kernel, rfl, by decide +kernel, by
    intro l hl
    have : (look exDb [65]).all (fun l => decide (2 * (l.content.length + given (.putElements [65] exUpdate)) + 2 ≤ 2 ^ 32)) = true := by
      decide +kernel
    rw [hl] at this
    simpa using this, ⟨by decide, by decide, by decide +kernel, fun _ h => h⟩, by decide +kernel⟩

/-- After 4 writes element 6 is in the list twice and element 8, which is moved too, is not there. The repair leaves 6 once; 8
is lost. -/
example : (look (crashed 4 exEnv exDb (.putElements [65] exUpdate)) [65]).map (fun l => l.content.map (·.id)) =
      some [6, 3, 1, 2, 9, 5, 7, 4, 6] ∧
    (look (repaired exEnv2 (crashed 4 exEnv exDb (.putElements [65] exUpdate)) [65]).2 [65]).map
      (fun l => l.content.map (·.id)) = some [3, 1, 2, 9, 5, 7, 4, 6] := by decide +kernel

/-- A history before the crash: list 66 exists since before the save. -/
def exRecovery : List (Env × Request) :=
  [(exEnvAt 1, .create false exPayload), (exEnvAt 7, .save), (exEnvAt 2, .putElements [65] [⟨99, 6, [], 0, 0⟩, ⟨1, 77, [], 0, 0⟩])]

example : Ready exDb exRecovery ∧ exRecovery = [(exEnvAt 1, .create false exPayload)] ++ (exEnvAt 7, .save) ::
      [(exEnvAt 2, .putElements [65] [⟨99, 6, [], 0, 0⟩, ⟨1, 77, [], 0, 0⟩])] ∧
    Fits exEnv (serveAll exDb exRecovery).2 ∧ (look (serveAll exDb exRecovery).2 [66]).isSome ∧
    Fits exEnv2 (crashed 1 exEnv (serveAll exDb exRecovery).2 (.deleteElements [66] [2])) ∧
    Ready (repaired exEnv2 (crashed 1 exEnv (serveAll exDb exRecovery).2 (.deleteElements [66] [2])) [66]).2
      [(exEnvAt 3, .createElement [66] ⟨4, 5, [], 0, 0⟩)] :=
  ⟨ready_of_test _ _ (by
      intro x hx
      simp only [exRecovery, List.mem_cons, List.not_mem_nil, or_false] at hx
      rcases hx with h | h | h <;> (rw [h]; rfl)) (by decide +kernel), rfl,
    ⟨by decide, by decide, by decide +kernel, fun _ h => h⟩, by decide +kernel,
    ⟨by decide, by decide, by decide +kernel, fun _ h => h⟩,
    ready_of_test _ _ (by
      intro x hx
      simp only [List.mem_cons, List.not_mem_nil, or_false] at hx
      rw [hx]; rfl) (by decide +kernel)⟩

theorem exDb_reload {x : Listing} {st : ListState} (hx : x ∈ exDb.lists) (h : reload exDb.store x.ent = some st) : st = exList := by
  simp only [exDb, List.mem_singleton] at hx
  subst hx
  have := exStore_reload
  rw [show exDb.store = exStore from rfl] at h
  rw [show exListing.ent = exEntry from rfl, this] at h
  exact (Option.some.inj h).symm

/-- Splitting, reindexing and repairing the list of `exDb`. -/
example : Spec.Allowed exDb (.split [65] true) ∧ Spec.Allowed exDb (.reindex [65]) ∧ Spec.Allowed exDb (.repair [65]) ∧
    Fits exEnv2 (crashed 2 exEnv exDb (.split [65] true)) ∧ Fits exEnv2 (crashed 8 exEnv exDb (.repair [65])) ∧
    (∀ x ∈ exDb.lists, x.id = [65] → ∀ st, reload exDb.store x.ent = some st → st.scores.segs.length < 8) ∧
    (handle exEnv exDb (.repair [65])).2.length = 17 :=
  ⟨fun l hl _ st hst => by rw [exDb_reload hl hst]; decide +kernel, fun l hl _ st hst => by rw [exDb_reload hl hst]; decide +kernel,
    fun l hl _ st hst => by rw [exDb_reload hl hst]; decide +kernel, ⟨by decide, by decide, by decide +kernel, fun _ h => h⟩,
    ⟨by decide, by decide, by decide +kernel, fun _ h => h⟩, fun l hl _ st hst => by rw [exDb_reload hl hst]; decide +kernel,
    by decide +kernel⟩

end RankDB.Props

import Verif.Proofs.Crowd
/-
Property C93: requests that change any lists at the same time take effect one after the other.
Specification: `Verif/Spec/Crowd.lean`, `Verif/Spec/Server.lean`.
-/
namespace RankDB.Props
open Spec Server

/-! ### C93 Changes of all lists take effect one after the other -/

theorem crowd_served {s : List Served} {c : Crowd} (hf : CrowdFits s) (hi : CrowdInv s c) :
    ∀ p ∈ c.order, ∃ x cl, s[p.1]? = some x ∧ x.clients[p.2]? = some cl := by
  intro p hp
  have h1 := hi.range p hp
  have hx : s[p.1]? = some s[p.1] := List.getElem?_eq_getElem h1
  have hw : c.worlds[p.1]? = some (c.worlds[p.1]'(by have := hi.length; omega)) := List.getElem?_eq_getElem (by have := hi.length; omega)
  have ho := hi.order _ _ hw
  have hr := Serial.inv_run (fits_calls hf (List.mem_of_getElem? hx)) (hi.run _ _ _ hx hw)
  obtain ⟨q, hq, -⟩ := hr.begun p.2 (by rw [← ho]; exact mem_ofList.2 hp)
  rw [List.getElem?_map] at hq
  obtain ⟨cl, hcl, -⟩ := Option.map_eq_some_iff.1 hq
  exact ⟨_, cl, hx, hcl⟩

/-- Any number of requests that put or delete elements, repair, reindex or split run at the same time, for any lists,
with any interleaving of their goroutines and of their small changes. Whenever the changes that have begun are complete,
all lists are what the requests mean that have changed something, one after the other and each answered with success,
in the order in which they began. All lists are in good order. -/
theorem C93_serial (s : List Served) (hf : CrowdFits s) (hroom : ∀ x ∈ s, CrowdRoom x) (c : Crowd)
    (hr : CrowdRun (.start s) c) (hq : c.Settled) :
    c.order.Nodup ∧
    MeansAll (Crowd.look s (.start s)) (c.order.filterMap (clientAt s)) (List.replicate c.order.length .ok) (Crowd.look s c) ∧
    ∀ w ∈ c.worlds, ListOK w.list := by
  have hi := crowd_run hr
  have hnd : c.order.Nodup := by
    refine nodup_ofList fun i => ?_
    rcases Nat.lt_or_ge i s.length with h1 | h1
    · have hx : s[i]? = some s[i] := List.getElem?_eq_getElem h1
      have hw : c.worlds[i]? = some (c.worlds[i]'(by have := hi.length; omega)) := List.getElem?_eq_getElem (by have := hi.length; omega)
      rw [hi.order _ _ hw]
      exact (Serial.inv_run (fits_calls hf (List.mem_of_getElem? hx)) (hi.run _ _ _ hx hw)).nodup
    · have : ofList i c.order = [] := by
        rw [List.eq_nil_iff_forall_not_mem]
        intro k hk
        have := hi.range _ (mem_ofList.1 hk)
        dsimp only at this
        omega
      rw [this]
      exact .nil
  have hst : (Crowd.start s).worlds.map (·.list) = s.map (·.list) := by simp [Crowd.start, Serial.start, Function.comp_def]
  have key := crowd_means hf hroom c.order [] (s.map (·.list)) (c.worlds.map (·.list)) (by simp) (by simpa using hi.length)
    (fun l hl => by obtain ⟨x, hx, rfl⟩ := List.mem_map.1 hl; exact hf.ok x hx) (by simpa using hnd) (crowd_served hf hi)
    (fun i x a hx ha => by
      rw [List.getElem?_map, hx] at ha
      cases ha
      exact .nil _)
    (fun i x a b hx ha hb => by
      rw [List.getElem?_map, hx] at ha
      cases ha
      rw [List.getElem?_map] at hb
      obtain ⟨w, hw, rfl⟩ := Option.map_eq_some_iff.1 hb
      have hrun := hi.run i x w hx hw
      have := Serial.settled (Serial.inv_run (fits_calls hf (List.mem_of_getElem? hx)) hrun) (hq w (List.mem_of_getElem? hw))
      rw [jobsAt_eq] at this
      rw [hi.order i w hw]
      exact this)
  refine ⟨hnd, ?_, fun w hw => key.2 _ (List.mem_map_of_mem hw)⟩
  unfold Crowd.look
  rw [hst]
  exact key.1

/-- Without requests for maintenance there is always room. -/
theorem C93_put_delete (s : List Served) (hf : CrowdFits s) (hm : ∀ x ∈ s, ∀ cl ∈ x.clients, ¬ Maintains cl.req) (c : Crowd)
    (hr : CrowdRun (.start s) c) (hq : c.Settled) :
    MeansAll (Crowd.look s (.start s)) (c.order.filterMap (clientAt s)) (List.replicate c.order.length .ok) (Crowd.look s c) :=
  (C93_serial s hf (fun x hx _ _ _ _ ⟨cl, h1, h2⟩ => absurd h2 (hm x hx cl h1)) c hr hq).2.1

theorem call_undone {id : Str} {cl : Client} (h : AllowedClient id cl) : ¬ cl.call.2.done cl.call.2.vars := by
  obtain ⟨env, req, op⟩ := cl
  obtain ⟨-, hcall, -, -⟩ := h
  dsimp only at hcall
  cases req with
  | putElements => exact fun h => h
  | deleteElements => exact fun h => h
  | reindex => exact fun h => by cases h
  | repair => exact fun h => by cases h
  | split => exact fun h => by cases h
  | _ => exact absurd hcall (by simp [calls])

/-- The order agrees with real time: what has begun stays in front of what begins later, and a request that has been
answered has its place. -/
theorem C93_real_time (s : List Served) (hf : CrowdFits s) (c d : Crowd) (hr : CrowdRun (.start s) c) (hr' : CrowdRun c d) :
    (∃ later, d.order = c.order ++ later) ∧
    ∀ p, (clientAt s p).isSome → Crowd.Answered c p → p ∈ c.order := by
  refine ⟨?_, fun p hp ha => ?_⟩
  · clear hr
    induction hr' with
    | refl => exact ⟨[], by simp⟩
    | step _ hs ih =>
      obtain ⟨l, hl⟩ := ih
      obtain ⟨i, hw, hst⟩ := hs
      exact ⟨l ++ _, by dsimp only; rw [hl, List.append_assoc]⟩
  · have hi := crowd_run hr
    obtain ⟨w, hw, hret⟩ := ha
    unfold clientAt at hp
    cases hx : s[p.1]? with
    | none => rw [hx] at hp; cases hp
    | some x =>
      rw [hx, Option.bind_some] at hp
      cases hc : x.clients[p.2]? with
      | none => rw [hc] at hp; cases hp
      | some cl =>
        have hxm := List.mem_of_getElem? hx
        have hud := call_undone (hf.clients x hxm cl (List.mem_of_getElem? hc))
        have hrun := hi.run _ _ _ hx hw
        have := (C91_real_time _ (fits_calls hf hxm) _ w w hrun (.refl _)).2 p.2 cl.call
          (by rw [List.getElem?_map, hc]; rfl) hud hret
        rw [← hi.order _ _ hw] at this
        exact mem_ofList.1 this

/-- Once all requests have been answered, the changes of all of them are there: every request has its place in the
order. -/
theorem C93_all (s : List Served) (hf : CrowdFits s) (hroom : ∀ x ∈ s, CrowdRoom x) (c : Crowd) (hr : CrowdRun (.start s) c)
    (hall : ∀ p, (clientAt s p).isSome → Crowd.Answered c p) :
    (∀ p, (clientAt s p).isSome ↔ p ∈ c.order) ∧
    MeansAll (Crowd.look s (.start s)) (c.order.filterMap (clientAt s)) (List.replicate c.order.length .ok) (Crowd.look s c) := by
  have hi := crowd_run hr
  have hserved := crowd_served hf hi
  have hsome : ∀ p ∈ c.order, (clientAt s p).isSome := by
    intro p hp
    obtain ⟨x, cl, h1, h2⟩ := hserved p hp
    unfold clientAt
    rw [h1, Option.bind_some, h2]
    rfl
  refine ⟨fun p => ⟨fun hp => (C93_real_time s hf c c hr (.refl _)).2 p hp (hall p hp), hsome p⟩, (C93_serial s hf hroom c hr ?_).2.1⟩
  intro w hw k hk j hj
  obtain ⟨i, hwi⟩ := List.mem_iff_getElem?.1 hw
  rw [← hi.order i w hwi] at hk
  obtain ⟨w', hw', -, j', hj', hd⟩ := hall (i, k) (hsome _ (mem_ofList.1 hk))
  dsimp only at hw'
  rw [hwi] at hw'
  cases hw'
  rw [hj] at hj'
  cases hj'
  exact hd

theorem meansAll_other {id : Str} : ∀ {rs : List (Nat × Request)} {as : List Answer} {L L' : Spec.Lists}, MeansAll L rs as L' →
    (∀ x ∈ rs, target x.2 ≠ some id) → L' id = L id
  | [], as, L, L', h, _ => by rw [h.2]
  | (now, r) :: rs, as, L, L', h, ht => by
    obtain ⟨a, as', M, -, hm, hrest⟩ := h
    rw [meansAll_other hrest (fun x hx => ht x (by simp [hx])), means_other hm (ht (now, r) (by simp))]

/-- An update of one request is not lost because of the others: if no other request for the list names the element, and
the request has been answered, the element is there as it was sent, and with the time of the request. -/
theorem C93_not_lost (s : List Served) (hf : CrowdFits s) (c : Crowd) (hr : CrowdRun (.start s) c) (hq : c.Settled)
    (p : Nat × Nat) (x : Served) (cl : Client) (id : Str) (e : Element) (hx : s[p.1]? = some x) (hcl : x.clients[p.2]? = some cl)
    (hreq : cl.req = .putElements id [e]) (ha : Crowd.Answered c p)
    (hno : ∀ k other, x.clients[k]? = some other → k ≠ p.2 → (∃ id' es, other.req = .putElements id' es ∧ ∀ y ∈ es, y.id ≠ e.id) ∨
      ∃ id' ids, other.req = .deleteElements id' ids ∧ e.id ∉ ids) :
    ∃ w, c.worlds[p.1]? = some w ∧ { e with updated := cl.env.now } ∈ w.list.content := by
  have hi := crowd_run hr
  have hw := List.getElem?_eq_getElem (l := c.worlds) (i := p.1) (by have := hi.length; have := (List.getElem?_eq_some_iff.1 hx).1; omega)
  generalize c.worlds[p.1]'_ = w at hw
  have hxm := List.mem_of_getElem? hx
  have hrun := hi.run _ _ _ hx hw
  have hin : p.2 ∈ w.order := by
    rw [← hi.order _ _ hw]
    refine mem_ofList.2 ((C93_real_time s hf c c hr (.refl _)).2 p ?_ ha)
    unfold clientAt
    rw [hx, Option.bind_some, hcl]
    rfl
  let op : Nat → Op := fun k => match x.clients[k]? with
    | some ⟨env, .putElements _ es, _⟩ => .update env.now env.sch (Elements.deduplicate (Elements.updateTime env.now es)).1
    | some ⟨env, .deleteElements _ ids, _⟩ => .delete env.now env.sch ids
    | _ => .delete 0 .inOrder []
  have hkind : ∀ (k : Nat) (d : Client), x.clients[k]? = some d →
      (∃ env id es o, d = ⟨env, .putElements id es, o⟩) ∨ ∃ env id ids o, d = ⟨env, .deleteElements id ids, o⟩ := by
    intro k d hd
    by_cases hk : k = p.2
    · subst hk
      rw [hcl] at hd
      cases hd
      obtain ⟨env, r, o⟩ := cl
      dsimp only at hreq
      exact .inl ⟨env, _, _, o, by rw [hreq]⟩
    · obtain ⟨env, r, o⟩ := d
      rcases hno k _ hd hk with ⟨id', es, h1, -⟩ | ⟨id', ids, h1, -⟩
      · dsimp only at h1; exact .inl ⟨env, _, _, o, by rw [h1]⟩
      · dsimp only at h1; exact .inr ⟨env, _, _, o, by rw [h1]⟩
  have hdo : ∀ (k : Nat) (q : Locks.Op × Serial.Job), (x.clients.map Client.call)[k]? = some q → q.2.Does (op k) := by
    intro k q hk
    rw [List.getElem?_map] at hk
    obtain ⟨d, hd, rfl⟩ := Option.map_eq_some_iff.1 hk
    rcases hkind k d hd with ⟨env, id', es, o, rfl⟩ | ⟨env, id', ids, o, rfl⟩
    · have : op k = .update env.now env.sch (Elements.deduplicate (Elements.updateTime env.now es)).1 := by simp only [op, hd]
      rw [this]
      exact (C91_does env.now env.sch .inOrder (fun _ => 0) false _ []).1
    · have : op k = .delete env.now env.sch ids := by simp only [op, hd]
      rw [this]
      exact (C91_does env.now env.sch .inOrder (fun _ => 0) false [] ids).2.1
  have hpd : ∀ k, k < (x.clients.map Client.call).length → Serial.PutOrDelete (op k) := by
    intro k hk
    have hd : x.clients[k]? = some (x.clients[k]'(by simpa using hk)) := List.getElem?_eq_getElem (by simpa using hk)
    generalize x.clients[k]'_ = d at hd
    have hal := hf.clients x hxm d (List.mem_of_getElem? hd)
    rcases hkind k d hd with ⟨env, id', es, o, rfl⟩ | ⟨env, id', ids, o, rfl⟩
    · have : op k = .update env.now env.sch (Elements.deduplicate (Elements.updateTime env.now es)).1 := by simp only [op, hd]
      rw [this]
      have hc := dedup_chosen env.now es
      exact ⟨chosen_storable hc hal.2.2.2 hal.1.2, hc.distinct, hal.1.2⟩
    · have : op k = .delete env.now env.sch ids := by simp only [op, hd]
      rw [this]
      exact hal.2.2.2
  refine ⟨w, hw, ?_⟩
  have hlost := C91_none_lost (x.clients.map Client.call) (fits_calls hf hxm) op hdo hpd x.list (hf.ok x hxm) w hrun
    (hq w (List.mem_of_getElem? hw)) p.2 e.id hin (by
      intro k hk hkp hn
      have hd : x.clients[k]? = some (x.clients[k]'(by simpa using hk)) := List.getElem?_eq_getElem (by simpa using hk)
      generalize x.clients[k]'_ = d at hd
      rcases hno k d hd hkp with ⟨id', es, h1, h2⟩ | ⟨id', ids, h1, h2⟩
      · obtain ⟨env, r, o⟩ := d
        dsimp only at h1
        subst h1
        have : op k = .update env.now env.sch (Elements.deduplicate (Elements.updateTime env.now es)).1 := by simp only [op, hd]
        rw [this] at hn
        obtain ⟨y, hy, hye⟩ := hn
        obtain ⟨z, hz, rfl⟩ := (dedup_chosen env.now es).given y hy
        exact h2 z hz hye
      · obtain ⟨env, r, o⟩ := d
        dsimp only at h1
        subst h1
        have : op k = .delete env.now env.sch ids := by simp only [op, hd]
        rw [this] at hn
        exact h2 hn)
  obtain ⟨env, r, o⟩ := cl
  dsimp only at hreq
  subst hreq
  have hop : op p.2 = .update env.now env.sch (Elements.deduplicate (Elements.updateTime env.now [e])).1 := by simp only [op, hcl]
  have hc := dedup_chosen env.now [e]
  obtain ⟨y, hy, hyid, -⟩ := hc.all e (by simp)
  obtain ⟨z, hz, hyz⟩ := hc.given y hy
  have hze : z = e := by simpa using hz
  subst hze
  have := hlost.1 _ _ _ y hop hy hyid
  have hst : stamp env.now y = y := by
    rw [hyz]
    unfold stamp
    rw [if_neg]
    have hal := (hf.clients x hxm _ (List.mem_of_getElem? hcl)).1
    show ¬ env.now = 0
    have : 0 < env.now := hal.1
    omega
  rw [hst, hyz] at this
  exact this

/-! ### A run -/

/-- Steps of one list are steps of the server. -/
theorem crowd_lift {c : Crowd} {i : Nat} {w w' : Serial.World} (hw : c.worlds[i]? = some w) (h : Serial.Run w w') :
    ∃ d, CrowdRun c d ∧ d.worlds = c.worlds.set i w' := by
  induction h with
  | refl =>
    refine ⟨c, .refl c, ?_⟩
    apply List.ext_getElem?
    intro k
    by_cases hk : i = k
    · subst hk
      rw [List.getElem?_set_self (List.getElem?_eq_some_iff.1 hw).1, hw]
    · rw [List.getElem?_set_ne hk]
  | step _ hs ih =>
    obtain ⟨d, h1, h2⟩ := ih
    have hil := (List.getElem?_eq_some_iff.1 hw).1
    refine ⟨_, .step h1 (.at i (by rw [h2, List.getElem?_set_self hil]) hs), ?_⟩
    dsimp only
    rw [h2, List.set_set]

theorem crowd_trans {a b c : Crowd} (h1 : CrowdRun a b) (h2 : CrowdRun b c) : CrowdRun a c := by
  induction h2 with
  | refl => exact h1
  | step _ hs ih => exact .step ih hs

/-- An environment with a given time. -/
def crowdEnv (now : Nat) : Env := ⟨now, .inOrder, .inOrder, fun n => n, [83], [73]⟩

/-- A request that puts two elements, one of them new, and one that deletes two. -/
def crowdClients (id : Str) : List Client :=
  [⟨crowdEnv 200, .putElements id exUpd, .updateElements .cached true 1 [(0, [0])] [(false, 0), (true, 1)] none⟩,
   ⟨crowdEnv 201, .deleteElements id [5, 6], .deleteElements .cached 1 [0] false [0, 1] [1]⟩]

/-- Two lists with such requests. -/
def exCrowd : List Served :=
  [⟨exListing, exList, crowdClients exListing.id⟩, ⟨{ exListing with id := [90] }, exList, crowdClients [90]⟩]

theorem exCrowd_fits : CrowdFits exCrowd := by
  refine ⟨by decide +kernel, ?_, ?_⟩
  · intro x hx
    simp only [exCrowd, List.mem_cons, List.not_mem_nil, or_false] at hx
    rcases hx with rfl | rfl <;> exact exList_ok
  · have : ∀ id, ∀ c ∈ crowdClients id, AllowedClient id c := by
      intro id c hc
      simp only [crowdClients, List.mem_cons, List.not_mem_nil, or_false] at hc
      rcases hc with rfl | rfl
      · exact ⟨(by decide : 0 < 200 ∧ 200 < 2 ^ 32 - 1), trivial, rfl, (by decide : ∀ e ∈ exUpd, Storable e)⟩
      · exact ⟨(by decide : 0 < 201 ∧ 201 < 2 ^ 32 - 1), trivial, rfl, (by decide : ∀ v ∈ [5, 6], v < 2 ^ 64)⟩
    intro x hx
    simp only [exCrowd, List.mem_cons, List.not_mem_nil, or_false] at hx
    rcases hx with rfl | rfl <;> exact this _

theorem exCrowd_room : ∀ x ∈ exCrowd, CrowdRoom x := by
  intro x hx order _ l _ ⟨c, hc, hm⟩
  exfalso
  simp only [exCrowd, List.mem_cons, List.not_mem_nil, or_false] at hx
  rcases hx with rfl | rfl <;> simp only [crowdClients, List.mem_cons, List.not_mem_nil, or_false] at hc <;>
    rcases hc with rfl | rfl <;> exact hm

/-- A list with a job that splits its segments. -/
def exSplitting : Served :=
  ⟨exListing, exList, [⟨crowdEnv 300, .split exListing.id true, .split .cached [] [] 0 0 []⟩]⟩

/-- The hypotheses can be met with maintenance too. -/
example : CrowdFits [exSplitting] ∧ CrowdRoom exSplitting := by
  refine ⟨⟨by decide +kernel, ?_, ?_⟩, ?_⟩
  · intro x hx
    simp only [List.mem_cons, List.not_mem_nil, or_false] at hx
    rw [hx]
    exact exList_ok
  · intro x hx c hc
    simp only [List.mem_cons, List.not_mem_nil, or_false] at hx
    subst hx
    simp only [exSplitting, List.mem_cons, List.not_mem_nil, or_false] at hc
    subst hc
    exact ⟨(by decide : 0 < 300 ∧ 300 < 2 ^ 32 - 1), trivial, rfl, trivial⟩
  · intro order hn l hl _
    have key : ∀ order : List Nat, order.Nodup →
        (order.filterMap fun k => (exSplitting.clients[k]?).map fun c => c.call.2) = [] ∨
        (order.filterMap fun k => (exSplitting.clients[k]?).map fun c => c.call.2) =
          [Serial.Job.whole fun l => some (Lists.split 300 true l)] := by
      intro order
      induction order with
      | nil => intro _; exact .inl rfl
      | cons k order ih =>
        intro hn
        rw [List.nodup_cons] at hn
        cases k with
        | zero =>
          right
          rw [List.filterMap_cons]
          show (Serial.Job.whole fun l => some (Lists.split 300 true l)) :: _ = _
          congr 1
          rw [List.filterMap_eq_nil_iff]
          intro k hk
          cases k with
          | zero => exact absurd hk hn.1
          | succ k => rfl
        | succ k =>
          rw [List.filterMap_cons]
          exact ih hn.2
    rcases key order hn with h | h
    · rw [h] at hl
      cases hl
      decide +kernel
    · rw [h] at hl
      cases hl with
      | cons h1 h2 =>
        have := Serial.whole_alone (f := fun l => some (Lists.split 300 true l)) h1
        cases this
        cases h2
        decide +kernel

/-- What the calls of the requests do. -/
def crowdFs : List (ListState → Option ListState) :=
  [fun l => some (Lists.updateElements 200 .inOrder l (Elements.deduplicate (Elements.updateTime 200 exUpd)).1),
   fun l => some (Lists.deleteElements 201 .inOrder l [5, 6])]

theorem crowd_world (id : Str) : exSim.world crowdFs = Serial.start ((crowdClients id).map Client.call) exList := rfl

theorem crowdFs_done : ∀ (i : Nat), i < 2 → (((Sim.go crowdFs 150 26 (Sim.go crowdFs 26 0 exSim)).world crowdFs)).Returned i := by
  have hlen : (Sim.go crowdFs 150 26 (Sim.go crowdFs 26 0 exSim)).storing.length = 2 ∧
      (Sim.go crowdFs 150 26 (Sim.go crowdFs 26 0 exSim)).storing.all (fun v => match v with | .storing _ [] [] => true | _ => false) = true ∧
      (Sim.go crowdFs 150 26 (Sim.go crowdFs 26 0 exSim)).locks.length = 2 ∧
      (Sim.go crowdFs 150 26 (Sim.go crowdFs 26 0 exSim)).locks.all (fun c => c.main.prog.isEmpty && c.kids.isEmpty) = true := by
    decide +kernel
  intro i hi
  constructor
  · have hi2 : i < (Sim.go crowdFs 150 26 (Sim.go crowdFs 26 0 exSim)).locks.length := by rw [hlen.2.2.1]; exact hi
    refine ⟨_, List.getElem?_eq_getElem hi2, ?_⟩
    have := List.all_eq_true.1 hlen.2.2.2 _ (List.getElem_mem hi2)
    rw [Bool.and_eq_true, List.isEmpty_iff, List.isEmpty_iff] at this
    exact ⟨this.1, by rw [this.2]; simp⟩
  · have hi2 : i < ((Sim.go crowdFs 150 26 (Sim.go crowdFs 26 0 exSim)).world crowdFs).jobs.length := by
      show i < ((crowdFs.zip (Sim.go crowdFs 150 26 (Sim.go crowdFs 26 0 exSim)).storing).map _).length
      rw [List.length_map, List.length_zip, hlen.1]
      exact hi
    refine ⟨_, List.getElem?_eq_getElem hi2, ?_⟩
    obtain ⟨⟨f, v⟩, hp, hj⟩ := List.mem_map.1 (List.getElem_mem hi2)
    rw [← hj]
    have hv := List.all_eq_true.1 hlen.2.1 v (List.of_mem_zip hp).2
    show (Serial.Job.bySegment f).done v
    match v, hv with
    | .storing _ [] [], _ => exact ⟨rfl, rfl⟩

/-- All four requests run to their end. Those of the second list begin and end while those of the first are in the
middle; all changes are there. -/
example : ∃ c, CrowdRun (.start exCrowd) c ∧ (∀ p, (clientAt exCrowd p).isSome → Crowd.Answered c p) ∧
    c.worlds.map (fun w => w.list.content.map (·.id)) = [[4, 3, 11, 1, 2, 9, 8, 7], [4, 3, 11, 1, 2, 9, 8, 7]] := by
  have r1 := run_trans_serial (sim_go (fs := crowdFs) 26 0 exSim) (.refl _)
  have r2 := sim_go (fs := crowdFs) 150 26 (Sim.go crowdFs 26 0 exSim)
  obtain ⟨c1, h1, e1⟩ := crowd_lift (c := .start exCrowd) (i := 0) (w := exSim.world crowdFs) rfl r1
  obtain ⟨c2, h2, e2⟩ := crowd_lift (c := c1) (i := 1) (w := exSim.world crowdFs) (by rw [e1]; rfl)
    (run_trans_serial r1 r2)
  obtain ⟨c3, h3, e3⟩ := crowd_lift (c := c2) (i := 0) (w := (Sim.go crowdFs 26 0 exSim).world crowdFs) (by rw [e2, e1]; rfl) r2
  have e : c3.worlds = [(Sim.go crowdFs 150 26 (Sim.go crowdFs 26 0 exSim)).world crowdFs,
      (Sim.go crowdFs 150 26 (Sim.go crowdFs 26 0 exSim)).world crowdFs] := by rw [e3, e2, e1]; rfl
  refine ⟨c3, crowd_trans h1 (crowd_trans h2 h3), fun p hp => ?_, ?_⟩
  · obtain ⟨i, k⟩ := p
    have hk : ∀ id, ((crowdClients id)[k]?.map fun c => (c.env.now, c.req)).isSome = true → k < 2 := by
      intro id h
      rcases Nat.lt_or_ge k 2 with h2 | h2
      · exact h2
      · rw [List.getElem?_eq_none (by exact h2)] at h
        cases h
    match i, hp with
    | 0, hp => exact ⟨_, by rw [e]; rfl, crowdFs_done k (hk _ hp)⟩
    | 1, hp => exact ⟨_, by rw [e]; rfl, crowdFs_done k (hk _ hp)⟩
    | i + 2, hp => cases hp
  · rw [e]
    have : (Sim.go crowdFs 150 26 (Sim.go crowdFs 26 0 exSim)).list.content.map (·.id) = [4, 3, 11, 1, 2, 9, 8, 7] := by decide +kernel
    show [(Sim.go crowdFs 150 26 (Sim.go crowdFs 26 0 exSim)).list.content.map (·.id), (Sim.go crowdFs 150 26 (Sim.go crowdFs 26 0 exSim)).list.content.map (·.id)] = _
    rw [this]

end RankDB.Props

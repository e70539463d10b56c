import Verif.Spec.Crowd
import Verif.Props.Serial
import Verif.Props.Server
/-
Requests for any lists at the same time: helper lemmas.
-/
namespace RankDB.Server
open Spec Props

/-! ### What users see -/

theorem find_zip {s : List Served} : ∀ {sts : List ListState} {i : Nat} {x : Served} {st : ListState},
    (s.map (·.listing.id)).Nodup → s[i]? = some x → sts[i]? = some st →
    (s.zip sts).find? (fun p => p.1.listing.id == x.listing.id) = some (x, st) := by
  induction s with
  | nil => intro sts i x st _ h; simp at h
  | cons y s ih =>
    intro sts i x st hn hx hst
    cases sts with
    | nil => simp at hst
    | cons t sts =>
      cases i with
      | zero =>
        simp only [List.getElem?_cons_zero, Option.some.injEq] at hx hst
        subst hx hst
        simp
      | succ i =>
        simp only [List.getElem?_cons_succ] at hx hst
        simp only [List.map_cons, List.nodup_cons] at hn
        have hne : y.listing.id ≠ x.listing.id := by
          intro he
          exact hn.1 (List.mem_map.2 ⟨x, List.mem_of_getElem? hx, he.symm⟩)
        rw [List.zip_cons_cons, List.find?_cons_of_neg (by simpa using hne)]
        exact ih hn.2 hx hst

theorem sights_at {s : List Served} {sts : List ListState} {i : Nat} {x : Served} {st : ListState}
    (hn : (s.map (·.listing.id)).Nodup) (hx : s[i]? = some x) (hst : sts[i]? = some st) :
    sights s sts x.listing.id = some (sight x.listing st) := by
  unfold sights
  rw [find_zip hn hx hst]
  rfl

theorem sights_none {s : List Served} {sts : List ListState} {id : Str} (h : ∀ x ∈ s, x.listing.id ≠ id) :
    sights s sts id = none := by
  unfold sights
  rw [List.find?_eq_none.2]
  · rfl
  · intro p hp
    simpa using h p.1 (List.of_mem_zip hp).1

theorem sights_set {s : List Served} {sts : List ListState} {i : Nat} {x : Served} (st' : ListState)
    (hn : (s.map (·.listing.id)).Nodup) (hl : sts.length = s.length) (hx : s[i]? = some x) :
    sights s (sts.set i st') = (sights s sts).set x.listing.id (some (sight x.listing st')) := by
  funext id
  unfold Spec.Lists.set
  by_cases hid : id = x.listing.id
  · rw [if_pos hid, hid]
    have hi := (List.getElem?_eq_some_iff.1 hx).1
    exact sights_at hn hx (by rw [List.getElem?_set_self (by omega)])
  · rw [if_neg hid]
    by_cases hex : ∃ y ∈ s, y.listing.id = id
    · obtain ⟨y, hy, rfl⟩ := hex
      obtain ⟨k, hk⟩ := List.mem_iff_getElem?.1 hy
      have hkl := (List.getElem?_eq_some_iff.1 hk).1
      have hki : i ≠ k := by
        rintro rfl
        rw [hx] at hk
        cases hk
        exact hid rfl
      have hst : sts[k]? = some sts[k] := List.getElem?_eq_getElem (by omega)
      rw [sights_at hn hk hst, sights_at hn hk (by rw [List.getElem?_set_ne hki]; exact hst)]
    · have : ∀ y ∈ s, y.listing.id ≠ id := fun y hy he => hex ⟨y, hy, he⟩
      rw [sights_none this, sights_none this]

theorem set_same {L : Spec.Lists} {id : Str} {v : Option Seen} (h : L id = v) : L.set id v = L := by
  funext x
  unfold Spec.Lists.set
  split
  · rename_i hx; rw [hx, h]
  · rfl

/-! ### One request alone -/

theorem client_means {c : Client} {li : Listing} {l l' : ListState} {L : Spec.Lists} (ha : AllowedClient li.id c) (hok : ListOK l)
    (hroom : Maintains c.req → l.content.length + 2 ≤ 2 ^ 32 ∧ l.scores.nextID ≤ 2 ^ 31 ∧ l.index.nextID ≤ 2 ^ 31)
    (hL : L li.id = some (sight li l)) (h : c.call.2.Alone l l') :
    ListOK l' ∧ Means c.env.now L c.req .ok (L.set li.id (some (sight li l'))) := by
  obtain ⟨env, req, op⟩ := c
  obtain ⟨hnow, hcall, ht, hargs⟩ := ha
  dsimp only at *
  cases req with
  | putElements id es =>
    cases ht
    have h' := Serial.bySegment_alone (Serial.keeps_update env.now env.sch _) h
    cases h'
    have hc := dedup_chosen env.now es
    generalize (Elements.deduplicate (Elements.updateTime env.now es)).1 = es' at hc
    have hstamp : es'.map (stamp env.now) = es' := by
      conv => rhs; rw [← List.map_id es']
      apply List.map_congr_left
      intro e he
      obtain ⟨x, hx, rfl⟩ := hc.given e he
      unfold stamp
      rw [if_neg (by show ¬ env.now = 0; omega)]
      rfl
    obtain ⟨u1, u2⟩ := C16_update_upserts env.now env.sch l es' hok (chosen_storable hc hargs hnow.2) hc.distinct hnow.2
    refine ⟨u1, ?_⟩
    unfold Means
    dsimp only
    rw [hL]
    refine ⟨rfl, es', hc, ?_⟩
    unfold sight
    rw [u2, hstamp]
  | deleteElements id ids =>
    cases ht
    have h' := Serial.bySegment_alone (Serial.keeps_delete env.now env.sch _) h
    cases h'
    obtain ⟨u1, u2⟩ := C17_delete env.now env.sch l ids hok hargs
    refine ⟨u1, ?_⟩
    unfold Means
    dsimp only
    rw [hL]
    refine ⟨rfl, ?_⟩
    unfold sight
    rw [u2]
    congr 3
    unfold remove
    apply List.filter_congr
    intro e _
    simp
  | reindex id =>
    cases ht
    have h' := Serial.whole_alone (f := fun l => Lists.reindex env.now env.sch l) h
    obtain ⟨r1, -, -⟩ := hroom trivial
    obtain ⟨u1, u2⟩ := C19_reindex env.now env.sch l l' hok.scores hok.scoresCount hok.scoresIDs hok.flags.1 r1 h'
    refine ⟨u1, ?_⟩
    unfold Means
    dsimp only
    rw [hL]
    refine ⟨by simp, set_same ?_⟩
    rw [hL]
    unfold sight
    rw [u2]
  | repair id =>
    cases ht
    have h' := Serial.whole_alone (f := fun l => Lists.repair env.now env.sch env.shuffle env.reduce (fun _ => false) l) h
    obtain ⟨r1, -, -⟩ := hroom trivial
    obtain ⟨u1, u2⟩ := C31_repair_wellformed env.now env.sch env.shuffle env.reduce l l' hok r1 h'
    refine ⟨u1, ?_⟩
    unfold Means
    dsimp only
    rw [hL]
    refine ⟨by simp, set_same ?_⟩
    rw [hL]
    unfold sight
    rw [u2]
  | split id merge =>
    cases ht
    have h' := Serial.whole_alone (f := fun l => some (Lists.split env.now merge l)) h
    cases h'
    obtain ⟨-, r2, r3⟩ := hroom trivial
    obtain ⟨u1, u2⟩ := C18_split_keeps_content env.now merge l hok hnow.2 r2 r3
    refine ⟨u1, ?_⟩
    unfold Means
    dsimp only
    rw [hL]
    refine ⟨by simp, set_same ?_⟩
    rw [hL]
    unfold sight
    rw [u2]
  | _ => exact absurd hcall (by simp [calls])

/-! ### The order of all lists -/

/-- The requests of one list among the numbers. -/
def ofList (i : Nat) (order : List (Nat × Nat)) : List Nat := (order.filter fun p => p.1 == i).map (·.2)

theorem ofList_append (i : Nat) (a b : List (Nat × Nat)) : ofList i (a ++ b) = ofList i a ++ ofList i b := by simp [ofList]

theorem ofList_self (i : Nat) (ks : List Nat) : ofList i (ks.map fun k => (i, k)) = ks := by
  unfold ofList
  rw [List.filter_eq_self.2 (by simp), List.map_map]
  simp [Function.comp_def]

theorem ofList_other {i j : Nat} (h : i ≠ j) (ks : List Nat) : ofList j (ks.map fun k => (i, k)) = [] := by
  unfold ofList
  rw [List.filter_eq_nil_iff.2]
  · rfl
  · intro p hp
    obtain ⟨k, -, rfl⟩ := List.mem_map.1 hp
    simpa using h

theorem mem_ofList {i k : Nat} {order : List (Nat × Nat)} : k ∈ ofList i order ↔ (i, k) ∈ order := by
  unfold ofList
  constructor
  · intro h
    obtain ⟨p, hp, rfl⟩ := List.mem_map.1 h
    obtain ⟨h1, h2⟩ := List.mem_filter.1 hp
    rw [← beq_iff_eq.1 h2]
    exact h1
  · intro h
    exact List.mem_map.2 ⟨_, List.mem_filter.2 ⟨h, by simp⟩, rfl⟩

theorem nodup_ofList : ∀ {order : List (Nat × Nat)}, (∀ i, (ofList i order).Nodup) → order.Nodup
  | [], _ => .nil
  | p :: order, h => by
    rw [List.nodup_cons]
    have key : ∀ i, ofList i (p :: order) = ofList i [p] ++ ofList i order := fun i => ofList_append i [p] order
    refine ⟨fun hm => ?_, nodup_ofList fun i => ?_⟩
    · have hh := h p.1
      rw [key] at hh
      have : ofList p.1 [p] = [p.2] := by simp [ofList]
      rw [this] at hh
      exact (List.nodup_cons.1 hh).1 (mem_ofList.2 hm)
    · have hh := h i
      rw [key] at hh
      exact (List.nodup_append.1 hh).2.1

theorem step_order {w w' : Serial.World} (h : Serial.Step w w') : ∃ t, w'.order = w.order ++ t := by
  cases h with
  | lock h => exact ⟨[], by simp⟩
  | change i hc hj hm hs =>
    dsimp only
    split
    · exact ⟨[], by simp⟩
    · exact ⟨[i], rfl⟩

/-- What is true of all lists while requests run. -/
structure CrowdInv (s : List Served) (c : Crowd) : Prop where
  length : c.worlds.length = s.length
  run : ∀ (i : Nat) (x : Served) (w : Serial.World), s[i]? = some x → c.worlds[i]? = some w → Serial.Run (Serial.start (x.clients.map Client.call) x.list) w
  order : ∀ (i : Nat) (w : Serial.World), c.worlds[i]? = some w → ofList i c.order = w.order
  range : ∀ p ∈ c.order, p.1 < s.length

theorem crowd_start (s : List Served) : CrowdInv s (Crowd.start s) where
  length := by simp [Crowd.start]
  run := by
    intro i x w hx hw
    simp only [Crowd.start, List.getElem?_map, hx, Option.map_some, Option.some.injEq] at hw
    rw [← hw]
    exact .refl _
  order := by
    intro i w hw
    simp only [Crowd.start, List.getElem?_map] at hw
    obtain ⟨x, -, rfl⟩ := Option.map_eq_some_iff.1 hw
    rfl
  range := by simp [Crowd.start]

theorem crowd_step {s : List Served} {c d : Crowd} (h : CrowdInv s c) (hs : CrowdStep c d) : CrowdInv s d := by
  obtain ⟨i, hw, hst⟩ := hs
  rename_i w w'
  obtain ⟨t, ht⟩ := step_order hst
  have hil := (List.getElem?_eq_some_iff.1 hw).1
  have hd : w'.order.drop w.order.length = t := by rw [ht]; simp
  rw [hd]
  refine ⟨by simpa using h.length, fun k x v hx hv => ?_, fun k v hv => ?_, fun p hp => ?_⟩
  · by_cases hk : i = k
    · subst hk
      rw [List.getElem?_set_self hil] at hv
      cases hv
      exact .step (h.run i x w hx hw) hst
    · rw [List.getElem?_set_ne hk] at hv
      exact h.run k x v hx hv
  · dsimp only at hv ⊢
    rw [ofList_append]
    by_cases hk : i = k
    · subst hk
      rw [List.getElem?_set_self hil] at hv
      cases hv
      rw [ofList_self, h.order i w hw, ht]
    · rw [List.getElem?_set_ne hk] at hv
      rw [ofList_other hk, h.order k v hv, List.append_nil]
  · rcases List.mem_append.1 hp with hp | hp
    · exact h.range p hp
    · obtain ⟨k, -, rfl⟩ := List.mem_map.1 hp
      have := h.length
      dsimp only
      omega

theorem crowd_run {s : List Served} {c : Crowd} (h : CrowdRun (Crowd.start s) c) : CrowdInv s c := by
  induction h with
  | refl => exact crowd_start s
  | step _ hs ih => exact crowd_step ih hs

theorem fits_calls {s : List Served} (hf : CrowdFits s) {x : Served} (hx : x ∈ s) : Serial.Fits (x.clients.map Client.call) := by
  intro p hp
  obtain ⟨c, hc, rfl⟩ := List.mem_map.1 hp
  obtain ⟨-, hcall, -, -⟩ := hf.clients x hx c hc
  left
  obtain ⟨env, req, op⟩ := c
  dsimp only at hcall
  show Serial.Changes op
  cases req <;> cases op <;> first | exact hcall.elim | trivial | exact hcall

/-- The jobs of the requests of one list. -/
def jobsAt (x : Served) (order : List Nat) : List Serial.Job := order.filterMap fun k => (x.clients[k]?).map fun c => c.call.2

theorem jobsAt_eq (x : Served) (order : List Nat) :
    (order.filterMap fun i => ((x.clients.map Client.call)[i]?).map (·.2)) = jobsAt x order := by
  unfold jobsAt
  congr 1
  funext k
  simp [List.getElem?_map, Option.map_map, Function.comp_def]

theorem jobsAt_append (x : Served) (a b : List Nat) : jobsAt x (a ++ b) = jobsAt x a ++ jobsAt x b := by simp [jobsAt]

theorem crowd_means {s : List Served} (hf : CrowdFits s) (hroom : ∀ x ∈ s, CrowdRoom x) : ∀ (order pre : List (Nat × Nat))
    (sts sts' : List ListState), sts.length = s.length → sts'.length = s.length → (∀ l ∈ sts, ListOK l) → (pre ++ order).Nodup →
    (∀ p ∈ order, ∃ x c, s[p.1]? = some x ∧ x.clients[p.2]? = some c) →
    (∀ i x a, s[i]? = some x → sts[i]? = some a → Serial.OneByOne (jobsAt x (ofList i pre)) x.list a) →
    (∀ i x a b, s[i]? = some x → sts[i]? = some a → sts'[i]? = some b → Serial.OneByOne (jobsAt x (ofList i order)) a b) →
    MeansAll (sights s sts) (order.filterMap (clientAt s)) (List.replicate order.length .ok) (sights s sts') ∧ ∀ l ∈ sts', ListOK l
  | [], pre, sts, sts', h1, h2, hok, _, _, _, hone => by
    have : sts' = sts := by
      apply List.ext_getElem?
      intro i
      rcases Nat.lt_or_ge i s.length with hi | hi
      · have e1 : sts[i]? = some sts[i] := List.getElem?_eq_getElem (by omega)
        have e2 : sts'[i]? = some sts'[i] := List.getElem?_eq_getElem (by omega)
        have := hone i s[i] _ _ (List.getElem?_eq_getElem hi) e1 e2
        rw [e1, e2]
        congr 1
        generalize sts[i] = a at this
        generalize sts'[i] = b at this
        cases this
        rfl
      · rw [List.getElem?_eq_none (by omega), List.getElem?_eq_none (by omega)]
    rw [this]
    exact ⟨⟨rfl, rfl⟩, hok⟩
  | p :: order, pre, sts, sts', h1, h2, hok, hnd, hex, hpre, hone => by
    obtain ⟨x, c, hx, hc⟩ := hex p (by simp)
    have hil := (List.getElem?_eq_some_iff.1 hx).1
    have e1 : sts[p.1]? = some sts[p.1] := List.getElem?_eq_getElem (by omega)
    have e2 : sts'[p.1]? = some sts'[p.1] := List.getElem?_eq_getElem (by omega)
    have hp1 : ∀ o, ofList p.1 (p :: o) = p.2 :: ofList p.1 o := by intro o; simp [ofList]
    have hp2 : ∀ i o, p.1 ≠ i → ofList i (p :: o) = ofList i o := by
      intro i o hi
      unfold ofList
      rw [List.filter_cons_of_neg (by simpa using hi)]
    have ho := hone p.1 x _ _ hx e1 e2
    rw [hp1] at ho
    have hj : jobsAt x (p.2 :: ofList p.1 order) = c.call.2 :: jobsAt x (ofList p.1 order) := by
      unfold jobsAt
      rw [List.filterMap_cons, hc]
      rfl
    rw [hj] at ho
    have hnd' : ((pre ++ [p]) ++ order).Nodup := by simpa using hnd
    have hprend : (ofList p.1 pre).Nodup := by
      have hpn : pre.Nodup := (List.nodup_append.1 hnd).1
      have hfn : (pre.filter fun q => q.1 == p.1).Nodup := hpn.sublist List.filter_sublist
      unfold ofList
      rw [List.Nodup, List.pairwise_map]
      refine List.Pairwise.imp_of_mem ?_ hfn
      intro a b ha hb hab he
      refine hab (Prod.ext ?_ he)
      have ea := (List.mem_filter.1 ha).2
      have eb := (List.mem_filter.1 hb).2
      simp only [beq_iff_eq] at ea eb
      rw [ea, eb]
    cases ho with
    | cons hal ht =>
      rename_i m
      have hxm : x ∈ s := List.mem_of_getElem? hx
      have hcm : c ∈ x.clients := List.mem_of_getElem? hc
      have hL := sights_at hf.ids hx e1
      have hal1 := hpre p.1 x _ hx e1
      obtain ⟨m1, m2⟩ := client_means (L := sights s sts) (li := x.listing) (hf.clients x hxm c hcm) (hok _ (List.mem_of_getElem? e1))
        (fun hmt => hroom x hxm _ hprend _ hal1 ⟨c, hcm, hmt⟩) hL hal
      rw [← sights_set m hf.ids h1 hx] at m2
      have ih := crowd_means hf hroom order (pre ++ [p]) (sts.set p.1 m) sts' (by simpa using h1) h2
        (fun l hl => by
          rcases List.mem_or_eq_of_mem_set hl with hl | rfl
          · exact hok l hl
          · exact m1)
        hnd' (fun q hq => hex q (by simp [hq]))
        (fun i y a hy ha => by
          rw [ofList_append]
          by_cases hi : p.1 = i
          · subst hi
            rw [hx] at hy
            cases hy
            rw [List.getElem?_set_self (by omega)] at ha
            cases ha
            rw [show ofList p.1 [p] = [p.2] from hp1 [], jobsAt_append]
            refine Serial.oneByOne_append hal1 ?_
            have : jobsAt x [p.2] = [c.call.2] := by simp [jobsAt, hc]
            rw [this]
            exact .cons hal (.nil _)
          · rw [List.getElem?_set_ne hi] at ha
            rw [show ofList i [p] = [] from hp2 i [] hi, List.append_nil]
            exact hpre i y a hy ha)
        (fun i y a b hy ha hb => by
          by_cases hi : p.1 = i
          · subst hi
            rw [hx] at hy
            cases hy
            rw [List.getElem?_set_self (by omega)] at ha
            cases ha
            rw [e2] at hb
            cases hb
            exact ht
          · rw [List.getElem?_set_ne hi] at ha
            rw [← hp2 i order hi]
            exact hone i y a b hy ha hb)
      refine ⟨?_, ih.2⟩
      have hca : clientAt s p = some (c.env.now, c.req) := by
        unfold clientAt
        rw [hx, Option.bind_some, hc]
        rfl
      rw [List.filterMap_cons_some hca]
      exact ⟨.ok, _, _, rfl, m2, ih.1⟩

end RankDB.Server

import Verif.Proofs.Serial
import Verif.Props.Maintenance
import Verif.Props.Locks
import Verif.Props.Example
import Verif.Proofs.Faults
/-
Property C91: calls that change one list at the same time take effect one after the other.
Specification: `Verif/Spec/Serial.lean`.
-/
namespace RankDB.Serial
open Spec

theorem inv_run {calls : List (Locks.Op × Job)} {l : ListState} (hf : Fits calls) {w : World}
    (h : Run (start calls l) w) : WInv calls l w := by
  induction h with
  | refl => exact inv_start
  | step _ hs ih => exact inv_step hf ih hs

/-- All changes that have begun are complete. -/
theorem settled {calls : List (Locks.Op × Job)} {l : ListState} {w : World} (hi : WInv calls l w) (hq : w.Settled) :
    OneByOne (w.order.filterMap fun i => (calls[i]?).map (·.2)) l w.list := by
  rcases hi.state with ⟨i, hio, c, j, h1, h2, h3, h4⟩ | ⟨done, l1, h1, h2, h3⟩
  · exact absurd (hq i hio j h2) h4
  · rcases h3 with ⟨h3, h4⟩ | ⟨i, p, c, v, h3, h4, h5, h6, h7, h8⟩
    · rw [h3, h4]; exact h2
    · rw [h3, List.filterMap_append]
      refine oneByOne_append h2 ?_
      simp only [List.filterMap_cons, List.filterMap_nil, h4, Option.map_some]
      exact .cons ⟨v, h8, hq i (by rw [h3]; simp) _ h7⟩ (.nil _)

/-! ### Storing segments one by one -/

/-- The call changes neither the number of segments nor anything but segments. -/
def KeepsShape (f : ListState → Option ListState) : Prop := ∀ l next, f l = some next →
  next.scores.segs.length = l.scores.segs.length ∧ next.index.segs.length = l.index.segs.length ∧
  next = { l with scores := { l.scores with segs := next.scores.segs }, index := { l.index with segs := next.index.segs } }

/-- The segments that are not in `left` are those of `next`. -/
def Taken (next now : List Seg) (left : List Nat) : Prop :=
  now.length = next.length ∧ ∀ i, i ∉ left → now[i]? = next[i]?

theorem taken_take {next now : Segs} {left : List Nat} {i : Nat} (h : Taken next.segs now.segs left) :
    Taken next.segs (takeSeg next i now).segs (left.erase i) := by
  obtain ⟨h1, h2⟩ := h
  refine ⟨by simpa [takeSeg] using h1, fun k hk => ?_⟩
  unfold takeSeg
  dsimp only
  rw [List.getElem?_modify]
  by_cases hki : i = k
  · subst hki
    rcases Nat.lt_or_ge i now.segs.length with hlt | hge
    · rw [List.getElem?_eq_getElem hlt, List.getElem?_eq_getElem (by omega)]
      simp
    · rw [List.getElem?_eq_none hge, List.getElem?_eq_none (by omega)]; rfl
  · simp only [if_neg hki]
    show Option.map (fun a => a) _ = _
    rw [Option.map_id']
    refine h2 k fun hmem => hk ?_
    exact (List.mem_erase_of_ne (Ne.symm hki)).2 hmem

theorem steps_ind {j : Job} {v : j.Vars} {l : ListState} (P : j.Vars → ListState → Prop) (h0 : P v l)
    (hs : ∀ v' l' v'' l'', P v' l' → j.step v' l' v'' l'' → P v'' l'') {v' : j.Vars} {l' : ListState}
    (h : j.Steps v l v' l') : P v' l' := by
  induction h with
  | refl => exact h0
  | step _ h ih => exact hs _ _ _ _ ih h

theorem bySegment_steps {f : ListState → Option ListState} (hf : KeepsShape f) {l l' : ListState} {v : Storing}
    (h : (Job.bySegment f).Steps Storing.before l v l') :
    (v = Storing.before ∧ l' = l) ∨ ∃ next scores index, v = .storing next scores index ∧ f l = some next ∧
      Taken next.scores.segs l'.scores.segs scores ∧ Taken next.index.segs l'.index.segs index ∧
      l' = { l with scores := { l.scores with segs := l'.scores.segs }, index := { l.index with segs := l'.index.segs } } := by
  refine steps_ind (j := Job.bySegment f) (fun (v : Storing) l' =>
    (v = Storing.before ∧ l' = l) ∨ ∃ next scores index, v = .storing next scores index ∧ f l = some next ∧
      Taken next.scores.segs l'.scores.segs scores ∧ Taken next.index.segs l'.index.segs index ∧
      l' = { l with scores := { l.scores with segs := l'.scores.segs }, index := { l.index with segs := l'.index.segs } })
    (.inl ⟨rfl, rfl⟩) ?_ h
  · intro v l2 v' l3 ih hs
    rcases ih with ⟨rfl, rfl⟩ | ⟨next, scores, index, rfl, h1, h2, h3, h4⟩
    · obtain ⟨rfl, next, h1, rfl⟩ := hs
      obtain ⟨h2, h3, h4⟩ := hf _ _ h1
      refine .inr ⟨next, _, _, rfl, h1, ⟨h2.symm, fun i hi => ?_⟩, ⟨h3.symm, fun i hi => ?_⟩, rfl⟩
      · rw [List.mem_range] at hi
        rw [List.getElem?_eq_none (by omega), List.getElem?_eq_none (by omega)]
      · rw [List.mem_range] at hi
        rw [List.getElem?_eq_none (by omega), List.getElem?_eq_none (by omega)]
    · rcases hs with ⟨i, hi, rfl, rfl⟩ | ⟨i, hi, rfl, rfl⟩
      · refine .inr ⟨next, _, _, rfl, h1, taken_take h2, h3, ?_⟩
        rw [h4]
        rfl
      · refine .inr ⟨next, _, _, rfl, h1, h2, taken_take h3, ?_⟩
        rw [h4]
        rfl

theorem bySegment_alone {f : ListState → Option ListState} (hf : KeepsShape f) {l l' : ListState}
    (h : (Job.bySegment f).Alone l l') : f l = some l' := by
  obtain ⟨v, hs, hd⟩ := h
  rcases bySegment_steps hf hs with ⟨rfl, -⟩ | ⟨next, scores, index, rfl, h1, h2, h3, h4⟩
  · exact hd.elim
  · obtain ⟨rfl, rfl⟩ := hd
    obtain ⟨-, -, h5⟩ := hf _ _ h1
    have e1 : l'.scores.segs = next.scores.segs := List.ext_getElem? fun i => h2.2 i (by simp)
    have e2 : l'.index.segs = next.index.segs := List.ext_getElem? fun i => h3.2 i (by simp)
    rw [h1, h5, h4, e1, e2]

theorem whole_alone {f : ListState → Option ListState} {l l' : ListState} (h : (Job.whole f).Alone l l') :
    f l = some l' := by
  obtain ⟨v, hs, hd⟩ := h
  have key : ∀ {v : Bool} {l' : ListState}, (Job.whole f).Steps false l v l' →
      (v = false ∧ l' = l) ∨ v = true ∧ f l = some l' := by
    intro v l' hs
    refine steps_ind (j := Job.whole f) (fun (v : Bool) l' => (v = false ∧ l' = l) ∨ v = true ∧ f l = some l')
      (.inl ⟨rfl, rfl⟩) ?_ hs
    · intro v l2 v' l3 ih hs
      obtain ⟨h1, h2, h3⟩ := hs
      rcases ih with ⟨-, rfl⟩ | ⟨h4, _⟩
      · exact .inr ⟨h2, h3⟩
      · rw [h4] at h1; cases h1
  rcases key hs with ⟨rfl, -⟩ | h
  · cases hd
  · exact h.2

end RankDB.Serial

namespace RankDB.Serial
open Spec

/-! ### The operations change the list as specified -/

theorem onElems_length (f : List Element → List Element) (i : Nat) (l : List Seg) : (Lists.onElems f i l).length = l.length := by
  unfold Lists.onElems
  exact Faults.modifyAt_length _ _ _

theorem updateOne_length (now : Nat) (org : List Seg) (loc : List (Nat × Nat × Option Element)) (i : Nat)
    (st : List Seg × List Seg) (e : Element) :
    (Lists.updateOne now org loc i st e).1.length = st.1.length ∧ (Lists.updateOne now org loc i st e).2.length = st.2.length := by
  unfold Lists.updateOne
  dsimp only
  split
  · simp [onElems_length]
  · split
    · simp [onElems_length]
    · split <;> simp [onElems_length]

theorem foldl_length {α : Type} (f : List Seg × List Seg → α → List Seg × List Seg)
    (h : ∀ st a, (f st a).1.length = st.1.length ∧ (f st a).2.length = st.2.length) : ∀ (l : List α) (st : List Seg × List Seg),
    (l.foldl f st).1.length = st.1.length ∧ (l.foldl f st).2.length = st.2.length
  | [], _ => ⟨rfl, rfl⟩
  | a :: l, st => by
    have h1 := foldl_length f h l (f st a)
    have h2 := h st a
    exact ⟨h1.1.trans h2.1, h1.2.trans h2.2⟩

theorem keeps_update (now : Nat) (sch : Sched) (es : List Element) :
    KeepsShape fun l => some (Lists.updateElements now sch l es) := by
  intro l next h
  cases h
  unfold Lists.updateElements Lists.refresh Lists.updateAll
  dsimp only
  rw [Faults.mapFrom_length, Faults.mapFrom_length]
  have := foldl_length _ (fun st (d : Nat × List Element) =>
    foldl_length _ (updateOne_length now l.scores.segs (Lists.locate l.index.segs (Lists.updateIDs es)) d.1) d.2 st)
    (sch.order (Segments.splitElementsIdx 0 l.scores.segs (Elements.sortSlice es))) (l.scores.segs, l.index.segs)
  exact ⟨this.1, this.2, rfl⟩

theorem deleteSegs_length (now : Nat) : ∀ (l : List Seg) (e : List Element), (Segments.deleteElements now l e).length = l.length
  | [], _ => rfl
  | s :: l, e => by
    unfold Segments.deleteElements
    dsimp only
    split <;> simp [deleteSegs_length now l]

theorem keeps_delete (now : Nat) (sch : Sched) (ids : List Nat) :
    KeepsShape fun l => some (Lists.deleteElements now sch l ids) := by
  intro l next h
  cases h
  unfold Lists.deleteElements Segments.deleteElementsIdx
  dsimp only
  split
  · exact ⟨Faults.mapFrom_length _ _ _, rfl, rfl⟩
  · exact ⟨Faults.mapFrom_length _ _ _, deleteSegs_length _ _ _, rfl⟩

theorem insertLoop_length (now : Nat) : ∀ (l : List Seg) (e : List Element), (Segments.insertLoop now l e).1.length = l.length
  | [], _ => rfl
  | s :: l, e => by
    unfold Segments.insertLoop
    dsimp only
    split <;> simp [insertLoop_length now l]

theorem keeps_insert (now : Nat) (sch : Sched) (es : List Element) : KeepsShape fun l => Lists.insert now sch l es := by
  intro l next h
  unfold Lists.insert at h
  obtain ⟨cs, -, rfl⟩ := Option.map_eq_some_iff.1 h
  have key : ∀ (cs : List (List Element)) (a : ListState),
      (cs.foldl (Lists.insertChunk now sch) a).scores.segs.length = a.scores.segs.length ∧
      (cs.foldl (Lists.insertChunk now sch) a).index.segs.length = a.index.segs.length ∧
      cs.foldl (Lists.insertChunk now sch) a =
        { a with scores := { a.scores with segs := (cs.foldl (Lists.insertChunk now sch) a).scores.segs },
                 index := { a.index with segs := (cs.foldl (Lists.insertChunk now sch) a).index.segs } } := by
    intro cs
    induction cs with
    | nil => intro a; exact ⟨rfl, rfl, rfl⟩
    | cons c cs ih =>
      intro a
      obtain ⟨h1, h2, h3⟩ := ih (Lists.insertChunk now sch a c)
      rw [List.foldl_cons]
      refine ⟨h1.trans ?_, h2.trans ?_, h3⟩
      · exact insertLoop_length _ _ _
      · exact insertLoop_length _ _ _
  exact key cs l

end RankDB.Serial

namespace RankDB.Props
open Spec Serial

/-! ### C91 Changes of one list take effect one after the other -/

/-- Any number of calls on one list run at the same time, among them any that change the list, with any interleaving of
their goroutines and of their small changes. Whenever the changes that have begun are complete, the list is what the
calls give that have changed it, one after the other and each alone, in the order in which they began. No call is
counted twice. -/
theorem C91_serial (calls : List (Locks.Op × Job)) (hf : Fits calls) (l : ListState) (w : World)
    (hr : Run (start calls l) w) (hq : w.Settled) :
    w.order.Nodup ∧ (∀ i ∈ w.order, i < calls.length) ∧
    OneByOne (w.order.filterMap fun i => (calls[i]?).map (·.2)) l w.list := by
  have hi := inv_run hf hr
  refine ⟨hi.nodup, fun i hio => ?_, settled hi hq⟩
  obtain ⟨p, hp, -⟩ := hi.begun i hio
  exact (List.getElem?_eq_some_iff.1 hp).1

/-- Once all calls have returned, the changes of all of them are there. -/
theorem C91_all (calls : List (Locks.Op × Job)) (hf : Fits calls) (l : ListState) (w : World)
    (hr : Run (start calls l) w) (hall : ∀ i, i < calls.length → w.Returned i) :
    OneByOne (w.order.filterMap fun i => (calls[i]?).map (·.2)) l w.list ∧
    ∀ i p, calls[i]? = some p → ¬ p.2.done p.2.vars → i ∈ w.order := by
  have hi := inv_run hf hr
  refine ⟨settled hi fun i hio j hj => ?_, fun i p hp hnd => ?_⟩
  · obtain ⟨p, hp, -⟩ := hi.begun i hio
    obtain ⟨-, j', hj', hd⟩ := hall i (List.getElem?_eq_some_iff.1 hp).1
    rw [hj] at hj'
    cases hj'
    exact hd
  · apply Classical.byContradiction
    intro hni
    obtain ⟨-, j', hj', hd⟩ := hall i (List.getElem?_eq_some_iff.1 hp).1
    rw [hi.idle i p hp hni] at hj'
    cases hj'
    exact hnd hd

/-- The order is that of real time: what has been changed stays first, whoever comes later. A call that has returned,
and has something to change, is in the order. -/
theorem C91_real_time (calls : List (Locks.Op × Job)) (hf : Fits calls) (l : ListState) (w w' : World)
    (hr : Run (start calls l) w) (hr' : Run w w') :
    (∃ later, w'.order = w.order ++ later) ∧
    ∀ i p, calls[i]? = some p → ¬ p.2.done p.2.vars → w.Returned i → i ∈ w.order := by
  have hi := inv_run hf hr
  refine ⟨?_, fun i p hp hnd hret => ?_⟩
  · clear hr hi
    induction hr' with
    | refl => exact ⟨[], by simp⟩
    | step _ hs ih =>
      obtain ⟨later, hl⟩ := ih
      cases hs with
      | lock h => exact ⟨later, hl⟩
      | change i hc hj hm hs =>
        dsimp only
        split
        · exact ⟨later, hl⟩
        · exact ⟨later ++ [i], by rw [hl]; simp⟩
  · apply Classical.byContradiction
    intro hni
    obtain ⟨-, j', hj', hd⟩ := hret
    rw [hi.idle i p hp hni] at hj'
    cases hj'
    exact hnd hd

/-- What a call reads while it has the update lock and after it has made its changes (`UpdateElements` looks up the
elements it reports like that, list.go:1482-1493) is the list right after this call in the order: nobody else has
changed anything. -/
theorem C91_report (calls : List (Locks.Op × Job)) (hf : Fits calls) (l : ListState) (w : World)
    (hr : Run (start calls l) w) (i : Nat) (c : Locks.Call) (hc : w.locks[i]? = some c)
    (hu : (Locks.Lock.update, true) ∈ Locks.held c) (hio : i ∈ w.order) (hq : w.Settled) :
    ∃ before, w.order = before ++ [i] ∧
      OneByOne ((before ++ [i]).filterMap fun i => (calls[i]?).map (·.2)) l w.list := by
  have hi := inv_run hf hr
  have hover : ∀ d, w.locks[i]? = some d → ¬ Over d := by
    intro d hd ho
    rw [hc] at hd
    cases hd
    have := Locks.hasUpdate_pos.1 hu
    have := ho.2
    omega
  rcases hi.state with ⟨k, hko, d, j, h1, h2, h3, h4⟩ | ⟨done, l1, h1, h2, h3⟩
  · exact absurd (hq k hko j h2) h4
  · rcases h3 with ⟨h3, h4⟩ | ⟨k, p, d, v, h3, h4, h5, h6, h7, h8⟩
    · rw [h3] at hio
      obtain ⟨d, j, h5, -, h6, -⟩ := h1 i hio
      exact absurd h6 (hover d h5)
    · have hki : i = k := by
        rw [h3] at hio
        rcases List.mem_append.1 hio with h | h
        · obtain ⟨d, j, h5, -, h6, -⟩ := h1 i h
          exact absurd h6 (hover d h5)
        · exact List.mem_singleton.1 h
      subst hki
      refine ⟨done, h3, ?_⟩
      rw [← h3]
      exact settled hi hq

/-- The calls of `Model/Serial` do what the operations of the specification do, in whatever order they store the
segments. -/
theorem C91_does (now : Nat) (sch shuffle : Sched) (reduce : Nat → Nat) (merge : Bool) (es : List Element) (ids : List Nat) :
    (Job.bySegment fun l => some (Lists.updateElements now sch l es)).Does (.update now sch es) ∧
    (Job.bySegment fun l => some (Lists.deleteElements now sch l ids)).Does (.delete now sch ids) ∧
    (Job.bySegment fun l => Lists.insert now sch l es).Does (.insert now sch es) ∧
    (Job.whole fun l => some (Lists.split now merge l)).Does (.split now merge) ∧
    (Job.whole fun l => Lists.reindex now sch l).Does (.reindex now sch) ∧
    (Job.whole fun l => Lists.populate now sch shuffle reduce l.mergeSize l.splitSize es).Does (.populate now sch shuffle reduce es) ∧
    (Job.whole fun l => Lists.repair now sch shuffle reduce (fun _ => false) l).Does (.repair now sch shuffle reduce) :=
  ⟨fun _ _ h => bySegment_alone (keeps_update now sch es) h, fun _ _ h => bySegment_alone (keeps_delete now sch ids) h,
   fun _ _ h => bySegment_alone (keeps_insert now sch es) h, fun _ _ h => whole_alone (f := fun l => some (Lists.split now merge l)) h, fun _ _ h => whole_alone h,
   fun _ _ h => whole_alone h, fun _ _ h => whole_alone h⟩

theorem stamp_id (now : Nat) (e : Element) : (stamp now e).id = e.id := by
  unfold stamp
  split <;> rfl

theorem eq_of_id : ∀ {l : List Element}, DistinctIDs l → ∀ {a b : Element}, a ∈ l → b ∈ l → a.id = b.id → a = b
  | [], _, _, _, ha, _, _ => by cases ha
  | x :: l, hd, a, b, ha, hb, h => by
    unfold DistinctIDs at hd
    rw [List.map_cons, List.nodup_cons] at hd
    rcases List.mem_cons.1 ha with rfl | ha <;> rcases List.mem_cons.1 hb with rfl | hb
    · rfl
    · exact absurd (h ▸ List.mem_map_of_mem (f := (·.id)) hb) hd.1
    · exact absurd (h ▸ List.mem_map_of_mem (f := (·.id)) (by assumption : a ∈ l)) hd.1
    · exact eq_of_id hd.2 ha hb h

theorem oneByOne_map {calls : List (Locks.Op × Job)} {op : Nat → Op} (hdo : ∀ (i : Nat) (p : Locks.Op × Job), calls[i]? = some p → p.2.Does (op i)) :
    ∀ (order : List Nat), (∀ i ∈ order, i < calls.length) → (∀ i ∈ order, PutOrDelete (op i)) →
    ∀ {l l' : ListState} {m : ElementMap}, Agrees l m → OneByOne (order.filterMap fun i => (calls[i]?).map (·.2)) l l' →
    Agrees l' (meanings m (order.map op))
  | [], _, _, l, l', m, ha, h => by cases h; exact ha
  | i :: order, hlt, hpd, l, l', m, ha, h => by
    have hi := hlt i (by simp)
    rw [List.filterMap_cons, List.getElem?_eq_getElem hi, Option.map_some] at h
    dsimp only at h
    cases h with
    | cons h1 h2 =>
      have hrun := hdo i _ (List.getElem?_eq_getElem hi) _ _ h1
      have hal : (op i).Allowed l m := by
        have := hpd i (by simp)
        cases hop : op i <;> rw [hop] at this <;> first | exact this | exact this.elim
      exact oneByOne_map hdo order (fun k hk => hlt k (by simp [hk])) (fun k hk => hpd k (by simp [hk]))
        (C21_step _ _ _ _ ha hal hrun) h2

/-- Updates and deletions at the same time: the list is ranked, has no ID twice, and has exactly the elements of the map
that the calls build one after the other. -/
theorem C91_map (calls : List (Locks.Op × Job)) (hf : Fits calls) (op : Nat → Op)
    (hdo : ∀ (i : Nat) (p : Locks.Op × Job), calls[i]? = some p → p.2.Does (op i)) (hpd : ∀ i, i < calls.length → PutOrDelete (op i))
    (l : ListState) (m : ElementMap) (hok : ListOK l) (hm : ∀ e, e ∈ l.content ↔ m e.id = some e) (w : World)
    (hr : Run (start calls l) w) (hq : w.Settled) :
    ListOK w.list ∧ Ranked w.list.content ∧ DistinctIDs w.list.content ∧
    ∀ e, e ∈ w.list.content ↔ meanings m (w.order.map op) e.id = some e := by
  obtain ⟨-, h2, h3⟩ := C91_serial calls hf l w hr hq
  exact oneByOne_map hdo w.order h2 (fun i hi => hpd i (h2 i hi)) (agrees_of hok hm) h3

theorem meanings_other {id : Nat} : ∀ (ops : List Op), (∀ o ∈ ops, PutOrDelete o ∧ ¬ Names id o) → ∀ m : ElementMap,
    meanings m ops id = m id
  | [], _, _ => rfl
  | o :: ops, h, m => by
    show meanings (o.meaning m) ops id = _
    rw [meanings_other ops (fun x hx => h x (by simp [hx])) _]
    obtain ⟨h1, h2⟩ := h o (by simp)
    cases o with
    | update now sch es =>
      show m.put (es.map (stamp now)) id = _
      unfold ElementMap.put
      have : (es.map (stamp now)).find? (fun e => e.id == id) = none := by
        rw [List.find?_eq_none]
        intro x hx hxe
        obtain ⟨y, hy, rfl⟩ := List.mem_map.1 hx
        rw [stamp_id] at hxe
        exact h2 ⟨y, hy, by simpa using hxe⟩
      rw [this]
    | delete now sch ids =>
      show (if id ∈ ids then none else m id) = _
      exact if_neg h2
    | _ => exact h1.elim

/-- No update is lost: an element that one call has updated, and that no other call names, is in the list as it was
sent, and one that a call has deleted is gone, whatever the other calls do at the same time. -/
theorem C91_none_lost (calls : List (Locks.Op × Job)) (hf : Fits calls) (op : Nat → Op)
    (hdo : ∀ (i : Nat) (p : Locks.Op × Job), calls[i]? = some p → p.2.Does (op i)) (hpd : ∀ i, i < calls.length → PutOrDelete (op i))
    (l : ListState) (hok : ListOK l) (w : World) (hr : Run (start calls l) w) (hq : w.Settled) (i id : Nat)
    (hi : i ∈ w.order) (hno : ∀ k, k < calls.length → k ≠ i → ¬ Names id (op k)) :
    (∀ now sch es e, op i = .update now sch es → e ∈ es → e.id = id → stamp now e ∈ w.list.content) ∧
    (∀ now sch ids, op i = .delete now sch ids → id ∈ ids → ∀ e ∈ w.list.content, e.id ≠ id) := by
  have hm : ∃ m : ElementMap, ∀ e, e ∈ l.content ↔ m e.id = some e := by
    refine ⟨fun id => l.content.find? fun e => e.id == id, fun e => ?_⟩
    have hd := (C21_content_is_ranked l hok).2.1
    constructor
    · intro he
      cases hx : l.content.find? (fun x => x.id == e.id) with
      | none => have := List.find?_eq_none.1 hx e he; simp at this
      | some x =>
        have h1 := List.mem_of_find?_eq_some hx
        have h2 := List.find?_some hx
        exact hx.trans (congrArg some (eq_of_id hd h1 he (by simpa using h2)))
    · intro h
      exact List.mem_of_find?_eq_some h
  obtain ⟨m, hm⟩ := hm
  obtain ⟨hnd, hlt, -⟩ := C91_serial calls hf l w hr hq
  obtain ⟨-, -, -, h4⟩ := C91_map calls hf op hdo hpd l m hok hm w hr hq
  obtain ⟨a, b, hab⟩ := List.append_of_mem hi
  have hb : ∀ o ∈ b.map op, PutOrDelete o ∧ ¬ Names id o := by
    intro o ho
    obtain ⟨k, hk, rfl⟩ := List.mem_map.1 ho
    have hko : k ∈ w.order := by rw [hab]; simp [hk]
    refine ⟨hpd k (hlt k hko), hno k (hlt k hko) fun hki => ?_⟩
    rw [hab] at hnd
    have := (List.nodup_cons.1 (List.nodup_append.1 hnd).2.1).1
    exact this (hki ▸ hk)
  have hval : meanings m (w.order.map op) id = (op i).meaning (meanings m (a.map op)) id := by
    rw [hab]
    unfold meanings
    rw [List.map_append, List.foldl_append, List.map_cons, List.foldl_cons]
    exact meanings_other _ hb _
  refine ⟨fun now sch es e hop he hid => ?_, fun now sch ids hop hids e he hid => ?_⟩
  · rw [h4]
    have hpdi := hpd i (hlt i hi)
    rw [hop] at hpdi hval
    have h5 : (stamp now e).id = id := (stamp_id now e).trans hid
    rw [h5, hval]
    show ElementMap.put _ (es.map (stamp now)) id = _
    rw [← h5]
    have hds : DistinctIDs (es.map (stamp now)) := by
      have := hpdi.2.1
      unfold DistinctIDs at this ⊢
      rw [List.map_map]
      have h6 : ((fun x : Element => x.id) ∘ stamp now) = fun x => x.id := funext fun x => stamp_id now x
      rw [h6]
      exact this
    exact (put_iff hds _).2 (.inl (List.mem_map_of_mem he))
  · rw [h4, hid, hval, hop] at he
    have : (Op.delete now sch ids).meaning (meanings m (a.map op)) id = none := by
      show (if id ∈ ids then none else _) = _
      rw [if_pos hids]
    rw [this] at he
    cases he

/-! ### A run with two calls at the same time -/

/-- The state of calls that store segments one by one. -/
structure Sim where
  locks : Locks.State
  storing : List Storing
  list : ListState
  order : List Nat

def Sim.world (fs : List (ListState → Option ListState)) (s : Sim) : World :=
  { locks := s.locks, jobs := (fs.zip s.storing).map fun p => { Job.bySegment p.1 with vars := p.2 }, list := s.list,
    order := s.order }

def mayChangeB (c : Locks.Call) : Bool := (Locks.held c).any fun p => match p with
  | (.seg _ _, true) => true
  | _ => false

/-- One small change by call `i`. -/
def Sim.change (fs : List (ListState → Option ListState)) (s : Sim) (i : Nat) : Option Sim :=
  match s.locks[i]?, fs[i]?, s.storing[i]? with
  | some c, some f, some v =>
    if mayChangeB c then
      let order := if i ∈ s.order then s.order else s.order ++ [i]
      match v with
      | .before => (f s.list).map fun next =>
        { s with storing := s.storing.set i (.storing next (List.range s.list.scores.segs.length)
            (List.range s.list.index.segs.length)), order := order }
      | .storing next (a :: sc) ix =>
        some { s with storing := s.storing.set i (.storing next sc ix), order := order,
                      list := { s.list with scores := takeSeg next.scores a s.list.scores } }
      | .storing next [] (a :: ix) =>
        some { s with storing := s.storing.set i (.storing next [] ix), order := order,
                      list := { s.list with index := takeSeg next.index a s.list.index } }
      | .storing _ [] [] => none
    else none
  | _, _, _ => none

def Sim.lock (s : Sim) (i j : Nat) : Option Sim := (Locks.exec s.locks i j).map fun st => { s with locks := st }

theorem zip_set {α β : Type} : ∀ (a : List α) (b : List β) (i : Nat) (x : α) (y : β), a[i]? = some x →
    a.zip (b.set i y) = (a.zip b).set i (x, y)
  | [], b, i, x, y, h => by simp at h
  | a :: as, [], i, x, y, h => by simp
  | a :: as, b :: bs, 0, x, y, h => by simp at h; simp [h]
  | a :: as, b :: bs, i + 1, x, y, h => by
    have := zip_set as bs i x y (by simpa using h)
    simp [this]

theorem sim_change {fs : List (ListState → Option ListState)} {s s' : Sim} {i : Nat} (h : s.change fs i = some s') :
    Step (s.world fs) (s'.world fs) := by
  unfold Sim.change at h
  split at h
  · rename_i c f v hc hf hv
    split at h
    · rename_i hm
      have hm' : MayChange c := by
        unfold mayChangeB at hm
        obtain ⟨⟨l, b⟩, h1, h2⟩ := List.any_eq_true.1 hm
        split at h2
        · rename_i index k he
          cases he
          exact .inl ⟨index, k, h1⟩
        · cases h2
      have hj : (s.world fs).jobs[i]? = some { Job.bySegment f with vars := v } := by
        have : (fs.zip s.storing)[i]? = some (f, v) := by
          rw [List.getElem?_zip_eq_some]
          exact ⟨hf, hv⟩
        show ((fs.zip s.storing).map _)[i]? = _
        rw [List.getElem?_map, this]
        rfl
      have key : ∀ (v' : Storing) (l' : ListState), (Job.bySegment f).step v s.list v' l' →
          Step (s.world fs) (Sim.world fs ⟨s.locks, s.storing.set i v', l', if i ∈ s.order then s.order else s.order ++ [i]⟩) := by
        intro v' l' hs
        have := @Step.change (s.world fs) i c { Job.bySegment f with vars := v } v' l' hc hj hm' hs
        have he : (Sim.world fs ⟨s.locks, s.storing.set i v', l', if i ∈ s.order then s.order else s.order ++ [i]⟩).jobs =
            (s.world fs).jobs.set i { Job.bySegment f with vars := v' } := by
          show (fs.zip (s.storing.set i v')).map _ = ((fs.zip s.storing).map _).set i _
          rw [zip_set _ _ _ _ _ hf, List.map_set]
        unfold Sim.world at this he ⊢
        dsimp only at this he ⊢
        rw [he]
        exact this
      dsimp only at h
      cases v with
      | before =>
        obtain ⟨next, hn, rfl⟩ := Option.map_eq_some_iff.1 h
        exact key _ _ ⟨rfl, next, hn, rfl⟩
      | storing next sc ix =>
        cases sc with
        | cons a sc =>
          cases h
          exact key _ _ (.inl ⟨a, by simp, by simp, rfl⟩)
        | nil =>
          cases ix with
          | nil => cases h
          | cons a ix =>
            cases h
            exact key _ _ (.inr ⟨a, by simp, by simp, rfl⟩)
    · cases h
  · cases h

theorem sim_lock {fs : List (ListState → Option ListState)} {s s' : Sim} {i j : Nat} (h : s.lock i j = some s') :
    Step (s.world fs) (s'.world fs) := by
  obtain ⟨st, hst, rfl⟩ := Option.map_eq_some_iff.1 h
  exact .lock (w := s.world fs) ⟨i, j, hst⟩

/-- The first step that is possible: calls in turn, changes as soon as they are allowed. -/
def Sim.next (fs : List (ListState → Option ListState)) (t : Nat) (s : Sim) : Option Sim :=
  ((List.range fs.length).map (fun i => (i + t) % fs.length)).findSome? fun i =>
    (s.change fs i).or ((List.range 6).findSome? fun j => s.lock i j)

theorem sim_next {fs : List (ListState → Option ListState)} {t : Nat} {s s' : Sim} (h : s.next fs t = some s') :
    Step (s.world fs) (s'.world fs) := by
  unfold Sim.next at h
  obtain ⟨i, -, h⟩ := List.exists_of_findSome?_eq_some h
  rw [Option.or_eq_some_iff] at h
  rcases h with h | ⟨-, h⟩
  · exact sim_change h
  · obtain ⟨j, -, h⟩ := List.exists_of_findSome?_eq_some h
    exact sim_lock h

def Sim.go (fs : List (ListState → Option ListState)) : Nat → Nat → Sim → Sim
  | 0, _, s => s
  | n + 1, t, s => match s.next fs t with
    | none => s
    | some s' => Sim.go fs n (t + 1) s'

theorem run_trans_serial {a b c : World} (h1 : Run a b) (h2 : Run b c) : Run a c := by
  induction h2 with
  | refl => exact h1
  | step _ hs ih => exact .step ih hs

theorem sim_go {fs : List (ListState → Option ListState)} : ∀ (n t : Nat) (s : Sim), Run (s.world fs) ((Sim.go fs n t s).world fs)
  | 0, _, s => .refl _
  | n + 1, t, s => by
    unfold Sim.go
    split
    · exact .refl _
    · rename_i s' hs
      exact run_trans_serial (.step (.refl _) (sim_next hs)) (sim_go n (t + 1) s')

/-- A call that updates two elements, one of them new, and a call that deletes two, at the same time. -/
def exUpd : List Element := [⟨95, 4, [], 0, 0⟩, ⟨60, 11, [], 0, 0⟩]
def exFs : List (ListState → Option ListState) :=
  [fun l => some (Lists.updateElements 200 .inOrder l exUpd), fun l => some (Lists.deleteElements 201 .inOrder l [5, 6])]
def exLockOps : List Locks.Op :=
  [.updateElements .cached true 1 [(0, [0])] [(false, 0), (true, 1)] none, .deleteElements .cached 1 [0] false [0, 1] [1]]
def exConc : List (Locks.Op × Job) := exLockOps.zip (exFs.map Job.bySegment)
def exSim : Sim := ⟨Locks.start exLockOps, exFs.map fun _ => .before, exList, []⟩

theorem exSim_world : exSim.world exFs = start exConc exList := rfl

/-- The calls meet the hypotheses of the theorems above. -/
example : Fits exConc ∧
    (∀ (i : Nat) (p : Locks.Op × Job), exConc[i]? = some p →
      p.2.Does (if i = 0 then .update 200 .inOrder exUpd else .delete 201 .inOrder [5, 6])) ∧
    (∀ i, i < exConc.length → PutOrDelete (if i = 0 then .update 200 .inOrder exUpd else .delete 201 .inOrder [5, 6])) := by
  refine ⟨?_, ?_, ?_⟩
  · intro p hp
    left
    have : p.1 ∈ exLockOps := (List.of_mem_zip (by exact hp : (p.1, p.2) ∈ _)).1
    simp only [exLockOps, List.mem_cons, List.not_mem_nil, or_false] at this
    rcases this with h | h <;> rw [h] <;> trivial
  · intro i p hp
    match i, hp with
    | 0, hp => cases hp; exact (C91_does 200 .inOrder .inOrder id false exUpd []).1
    | 1, hp => cases hp; exact (C91_does 201 .inOrder .inOrder id false [] [5, 6]).2.1
    | i + 2, hp => cases hp
  · intro i _
    split
    · exact ⟨by decide, by decide, by decide⟩
    · show ∀ v ∈ [5, 6], v < 2 ^ 64
      decide

/-- They run to their end together, and both changes are there. -/
example : ∃ w, Run (start exConc exList) w ∧ (∀ i, i < exConc.length → w.Returned i) ∧ w.Settled ∧ w.order = [0, 1] ∧
    w.list.content.map (·.id) = [4, 3, 11, 1, 2, 9, 8, 7] := by
  have hlen : (Sim.go exFs 150 0 exSim).storing.length = 2 ∧
      (Sim.go exFs 150 0 exSim).storing.all (fun v => match v with | .storing _ [] [] => true | _ => false) = true ∧
      (Sim.go exFs 150 0 exSim).locks.length = 2 ∧
      (Sim.go exFs 150 0 exSim).locks.all (fun c => c.main.prog.isEmpty && c.kids.isEmpty) = true := by decide +kernel
  have hjobs : ∀ (i : Nat) (j : Job), ((Sim.go exFs 150 0 exSim).world exFs).jobs[i]? = some j → j.done j.vars := by
    intro i j hj
    obtain ⟨⟨f, v⟩, hp, rfl⟩ := List.mem_map.1 (List.mem_of_getElem? hj)
    have hv := List.all_eq_true.1 hlen.2.1 v (List.of_mem_zip hp).2
    show (Job.bySegment f).done v
    match v, hv with
    | .storing _ [] [], _ => exact ⟨rfl, rfl⟩
  refine ⟨_, exSim_world ▸ sim_go 150 0 exSim, fun i hi => ⟨?_, ?_⟩, fun i _ j hj => hjobs i j hj, ?_, ?_⟩
  · have hi2 : i < (Sim.go exFs 150 0 exSim).locks.length := by rw [hlen.2.2.1]; exact hi
    refine ⟨_, List.getElem?_eq_getElem hi2, ?_⟩
    have := List.all_eq_true.1 hlen.2.2.2 _ (List.getElem_mem hi2)
    rw [Bool.and_eq_true, List.isEmpty_iff, List.isEmpty_iff] at this
    exact ⟨this.1, by rw [this.2]; simp⟩
  · have hi2 : i < ((Sim.go exFs 150 0 exSim).world exFs).jobs.length := by
      show i < ((exFs.zip (Sim.go exFs 150 0 exSim).storing).map _).length
      rw [List.length_map, List.length_zip, hlen.1]
      exact hi
    exact ⟨_, List.getElem?_eq_getElem hi2, hjobs i _ (List.getElem?_eq_getElem hi2)⟩
  · show (Sim.go exFs 150 0 exSim).order = _
    decide +kernel
  · show (Sim.go exFs 150 0 exSim).list.content.map _ = _
    decide +kernel

/-- On the way, after 26 steps, the first call has made its changes and still has the update lock, as `C91_report`
wants it; the second call has begun to wait. -/
example : ((Sim.go exFs 26 0 exSim).locks[0]?.map fun c => decide ((Locks.Lock.update, true) ∈ Locks.held c)) = some true ∧
    (Sim.go exFs 26 0 exSim).order = [0] ∧
    ((Sim.go exFs 26 0 exSim).storing[0]?.map fun v => match v with | .storing _ [] [] => true | _ => false) = some true := by
  decide +kernel

end RankDB.Props

import Verif.Spec.Serial
import Verif.Proofs.LockOps
/-
Lemmas for concurrent changes of one list: at most one call has the update lock, and it takes it once.
-/
namespace RankDB.Locks

/-! ### Locks exclude each other, for all programs -/

theorem stepped_grow_any {hs : Held} {ps : List Lock} {c c' : Call} (h : Stepped hs ps c c') :
    Grow hs (held c) (held c') := by
  cases h with
  | act hd => simpa [held] using did_grow hd [] _
  | @unload own pend l p kids sh =>
    have hp := List.filter_append_perm (fun x => x != l) sh
    refine .inr ⟨(sh.filter fun x => !(x != l)).map fun l => (l, true), ?_⟩
    unfold held
    dsimp only
    have hp2 : (sh.map fun l => ((l, true) : Lock × Bool)).Perm
        ((sh.filter fun x => !(x != l)).map (fun l => (l, true)) ++ (sh.filter (· != l)).map fun l => (l, true)) := by
      rw [← List.map_append]
      exact (hp.symm.trans List.perm_append_comm).map _
    refine (hp2.append_left _).trans ?_
    exact List.perm_append_comm_assoc _ _ _
  | @par own pend qs p kids sh =>
    have : (List.map Gor.start qs).flatMap (fun k : Gor Act => k.own) = [] := by
      rw [List.flatMap_eq_nil_iff]
      intro k hk
      obtain ⟨q, _, rfl⟩ := List.mem_map.1 hk
      rfl
    refine .inr ⟨[], ?_⟩
    simp [held, this]
  | @join own pend p kids sh hk =>
    refine .inr ⟨kids.flatMap (·.own), ?_⟩
    simp only [held, List.flatMap_nil, List.append_nil, List.append_assoc]
    exact List.perm_append_comm_assoc _ _ _
  | @kid main a b own pend x p sh r hd =>
    have := did_grow hd (main.own ++ a.flatMap (·.own)) (b.flatMap (·.own))
    simpa [held] using this

theorem excl_init (ps : List (List Instr)) : Excl ((init ps).flatMap held) := by
  have hnil : (init ps).flatMap held = [] := by
    rw [List.flatMap_eq_nil_iff]
    intro c hc
    obtain ⟨p, _, rfl⟩ := List.mem_map.1 hc
    rfl
  intro l hl
  rw [hnil] at hl
  cases hl

theorem excl_step {st st' : State} (he : Excl (st.flatMap held)) (h : Step st st') : Excl (st'.flatMap held) := by
  obtain ⟨i, j, h⟩ := h
  obtain ⟨a, c, b, c', rfl, rfl, hs⟩ := exec_stepped h
  rw [List.flatMap_append, List.flatMap_cons] at he ⊢
  refine excl_grow he ?_ (stepped_grow_any hs)
  rw [List.flatMap_append, List.flatMap_cons]

/-- A lock held for writing by one call is held by no other. -/
theorem excl_index {st : State} (he : Excl (st.flatMap held)) {i j : Nat} {c d : Call} (hi : st[i]? = some c)
    (hj : st[j]? = some d) {l : Lock} {w : Bool} (h1 : (l, true) ∈ held c) (h2 : (l, w) ∈ held d) : i = j := by
  apply Classical.byContradiction
  intro hij
  obtain ⟨a, b, rfl, rfl⟩ := split_at hi
  have hcount := he l (List.mem_flatMap.2 ⟨c, by simp, h1⟩)
  have hpos : ∀ (x : Held) (w : Bool), (l, w) ∈ x → 0 < x.countP (fun h => h.1 == l) :=
    fun x w hx => List.countP_pos_iff.2 ⟨_, hx, by simp⟩
  rw [List.flatMap_append, List.flatMap_cons, List.countP_append, List.countP_append] at hcount
  have hc1 := hpos _ _ h1
  have hd : d ∈ a ∨ d ∈ b := by
    rcases Nat.lt_or_ge j a.length with hlt | hge
    · rw [List.getElem?_append_left hlt] at hj
      exact .inl (List.mem_of_getElem? hj)
    · rw [List.getElem?_append_right hge] at hj
      cases hk : j - a.length with
      | zero => omega
      | succ n =>
        rw [hk] at hj
        exact .inr (List.mem_of_getElem? (by simpa using hj))
  rcases hd with hd | hd
  · have := hpos (a.flatMap held) w (List.mem_flatMap.2 ⟨d, hd, h2⟩)
    omega
  · have := hpos (b.flatMap held) w (List.mem_flatMap.2 ⟨d, hd, h2⟩)
    omega

/-! ### How often a program takes the update lock -/

def actCost : Act → Nat
  | .acq .update true => 1
  | .load .update _ => 1
  | _ => 0

def actsCost (p : List Act) : Nat := (p.map actCost).sum

def instrCost : Instr → Nat
  | .act a => actCost a
  | .par ps => (ps.map actsCost).sum
  | _ => 0

def cost (p : List Instr) : Nat := (p.map instrCost).sum

def callCost (c : Call) : Nat := cost c.main.prog + (c.kids.map fun k => actsCost k.prog).sum

def hasUpdate (c : Call) : Nat := (held c).count (.update, true)

theorem held_count (c : Call) : hasUpdate c = c.main.own.count (Lock.update, true) +
    (c.kids.map fun k => k.own.count (Lock.update, true)).sum + (c.shared.map fun l => (l, true)).count (Lock.update, true) := by
  unfold hasUpdate held
  rw [List.count_append, List.count_append, List.count_flatMap]
  rfl

/-- Taking the lock uses up what is left in the program. -/
theorem did_cost {hs : Held} {ps sh : List Lock} {own : Held} {pend : Bool} {a : Act}
    {r : Held × Bool × Bool × List Lock} (h : Did hs ps sh own pend a r) :
    (if r.2.2.1 then 0 else actCost a) + r.1.count (Lock.update, true) +
      (r.2.2.2.map fun l => (l, true)).count (Lock.update, true) ≤
    actCost a + own.count (Lock.update, true) + (sh.map fun l => (l, true)).count (Lock.update, true) ∧
    (actCost a = 0 → (Lock.update, true) ∈ r.1 → (Lock.update, true) ∈ own) ∧
    (actCost a = 0 → Lock.update ∈ r.2.2.2 → Lock.update ∈ sh) := by
  cases h with
  | read l h1 h2 =>
    refine ⟨?_, fun _ h => ?_, fun _ h => h⟩
    · simp
    · simpa using h
  | write l h1 =>
    cases l <;> simp [actCost] <;> omega
  | announce l hp => simp
  | release l w hm =>
    refine ⟨?_, fun _ h => List.mem_of_mem_erase h, fun _ h => h⟩
    have := (List.erase_sublist (l := own) (a := (l, w))).count_le (Lock.update, true)
    simp; omega
  | has => simp
  | load l h1 h2 => cases l <;> simp [actCost] <;> omega
  | loadFails => simp
  | announceLoad => simp

theorem stepped_cost {hs : Held} {ps : List Lock} {c c' : Call} (h : Stepped hs ps c c') :
    callCost c' + hasUpdate c' ≤ callCost c + hasUpdate c ∧ callCost c' ≤ callCost c := by
  rw [held_count, held_count]
  unfold callCost
  cases h with
  | @act own pend a p kids sh r hd =>
    obtain ⟨h1, -, -⟩ := did_cost hd
    dsimp only
    cases hb : r.2.2.1
    · simp only [hb, Bool.false_eq_true, if_false] at h1 ⊢
      omega
    · simp only [hb, if_true] at h1 ⊢
      simp only [cost, List.map_cons, List.sum_cons, instrCost]
      omega
  | @unload own pend l p kids sh =>
    have : ((sh.filter (· != l)).map fun l => (l, true)).count (Lock.update, true) ≤
        (sh.map fun l => (l, true)).count (Lock.update, true) :=
      (List.filter_sublist.map _).count_le _
    simp only [cost, List.map_cons, List.sum_cons, instrCost]
    omega
  | @par own pend qs p kids sh =>
    have h1 : ((qs.map (Gor.start (α := Act))).map fun k => actsCost k.prog).sum = (qs.map actsCost).sum := by
      rw [List.map_map]; rfl
    have h2 : ((qs.map (Gor.start (α := Act))).map fun k => k.own.count (Lock.update, true)).sum = 0 := by
      rw [List.map_map]
      clear h1
      induction qs with
      | nil => rfl
      | cons q qs ih =>
        rw [List.map_cons, List.sum_cons, ih]
        rfl
    simp only [cost, List.map_cons, List.sum_cons, instrCost, List.map_append, List.sum_append, h1, h2]
    omega
  | @join own pend p kids sh hk =>
    simp only [cost, List.map_cons, List.sum_cons, instrCost, List.map_nil, List.sum_nil]
    omega
  | @kid main a b own pend x p sh r hd =>
    obtain ⟨h1, -, -⟩ := did_cost hd
    simp only [List.map_append, List.map_cons, List.sum_append, List.sum_cons, actsCost]
    cases hb : r.2.2.1
    · simp only [hb, Bool.false_eq_true, if_false] at h1 ⊢
      simp only [List.map_cons, List.sum_cons]
      omega
    · simp only [hb, if_true] at h1 ⊢
      omega

theorem hasUpdate_pos {c : Call} : (Lock.update, true) ∈ held c ↔ 0 < hasUpdate c := by
  unfold hasUpdate
  rw [List.count_pos_iff]

/-! ### The operations -/

theorem cost_append (p q : List Instr) : cost (p ++ q) = cost p + cost q := by simp [cost]

theorem cost_cons (x : Instr) (p : List Instr) : cost (x :: p) = instrCost x + cost p := by simp [cost]

theorem cost_nil : cost [] = 0 := rfl

theorem cost_flatMap {α : Type} (f : α → List Instr) (h : ∀ x, cost (f x) = 0) : ∀ l : List α, cost (l.flatMap f) = 0
  | [] => rfl
  | x :: l => by rw [List.flatMap_cons, cost_append, h x, cost_flatMap f h l]

theorem cost_zero {p : List Instr} (h : ∀ x ∈ p, instrCost x = 0) : cost p = 0 := by
  unfold cost
  induction p with
  | nil => rfl
  | cons x p ih =>
    rw [List.map_cons, List.sum_cons, h x (by simp), ih fun y hy => h y (by simp [hy])]

theorem acts_zero {p : List Act} (h : ∀ x ∈ p, actCost x = 0) : actsCost p = 0 := by
  unfold actsCost
  induction p with
  | nil => rfl
  | cons x p ih =>
    rw [List.map_cons, List.sum_cons, h x (by simp), ih fun y hy => h y (by simp [hy])]

theorem par_zero {α : Type} {f : α → List Act} (h : ∀ x, actsCost (f x) = 0) (l : List α) :
    instrCost (.par (l.map f)) = 0 := by
  show ((l.map f).map actsCost).sum = 0
  induction l with
  | nil => rfl
  | cons x l ih =>
    rw [List.map_cons, List.map_cons, List.sum_cons, h x, ih]

theorem cost_list (w : Bool) : cost (touch .list w) = 0 := by cases w <;> rfl
theorem cost_table (b w : Bool) : cost (touch (.table b) w) = 0 := by cases w <;> rfl
theorem cost_seg (b w : Bool) (i : Nat) : cost (touch (.seg b i) w) = 0 := by cases w <;> rfl

theorem cost_peek (b : Bool) (n : Nat) : cost (peek b n) = 0 := by
  refine cost_zero fun x hx => ?_
  unfold peek at hx
  obtain ⟨y, hy, hxy⟩ := List.mem_flatten.1 hx
  rw [(List.mem_replicate.1 hy).2] at hxy
  simp only [touch, List.mem_cons, List.not_mem_nil, or_false] at hxy
  rcases hxy with rfl | rfl <;> rfl

theorem cost_readSegs (b : Bool) (is : List Nat) : cost (readSegs b is) = 0 := by
  unfold readSegs
  rw [cost_cons, par_zero (fun i => rfl)]
  rfl

theorem cost_readEach (b : Bool) (is : List Nat) : cost (readEach b is) = 0 :=
  cost_flatMap _ (fun i => cost_seg b false i) is

theorem cost_save : cost save = 0 := by simp [save, cost_append, cost_list, cost_peek]

theorem cost_checkSplit : cost checkSplit = 0 := by simp [checkSplit, cost_append, cost_list, cost_peek]

theorem cost_verifyTables (n m : Nat) : cost (verifyTables n m) = 0 := by
  simp [verifyTables, cost_append, cost_list, cost_peek]

theorem cost_rebuildIndex (segs : List Nat) : cost (rebuildIndex segs) = 0 := by
  simp [rebuildIndex, cost_append, cost_list, cost_peek, cost_readSegs, cost_save]

theorem cost_ensureIdx (b m : Bool) : cost (ensureIdx b m) = 0 := by
  cases m <;> simp [ensureIdx, cost_append, cost_table]

theorem cost_writeSegs (b : Bool) (is : List Nat) : cost (writeSegs b is) = 0 := by
  unfold writeSegs
  rw [cost_cons, cost_cons, par_zero (fun i => rfl)]
  rfl

theorem cost_writePar (b : Bool) (is : List Nat) : cost [.par (is.map (writeSeg b)), .join] = 0 := by
  rw [cost_cons, par_zero (fun i => rfl)]
  rfl

theorem cost_inserts (rounds : List (List Nat × List Nat)) : cost (inserts rounds) = 0 :=
  cost_flatMap _ (fun r => by rw [cost_append, cost_writeSegs, cost_writeSegs]) rounds

theorem acts_findIn (i : Nat) (near : List (List Nat)) : actsCost (findIn i near) = 0 := by
  refine acts_zero fun x hx => ?_
  simp only [findIn, neighbours, List.cons_append, List.mem_cons, List.mem_append, List.mem_flatMap, List.mem_map,
    List.not_mem_nil, or_false] at hx
  rcases hx with rfl | ⟨is, -, ⟨j, -, rfl⟩ | ⟨j, -, rfl⟩⟩ | rfl <;> rfl

theorem cost_lookup (looks : Nat) (index : List Nat) (missing : Bool) (found : List (Nat × List (List Nat))) :
    cost (lookup looks index missing found) = 0 := by
  simp only [lookup, cost_append, cost_list, cost_peek, cost_readSegs, cost_ensureIdx]
  rw [cost_cons, par_zero (fun p : Nat × List (List Nat) => acts_findIn p.1 p.2)]
  rfl

theorem acts_updateKid (k : Nat × List Nat) : actsCost (updateKid k.1 k.2) = 0 := by
  refine acts_zero fun x hx => ?_
  simp only [updateKid, List.mem_cons, List.mem_flatMap, List.not_mem_nil, or_false] at hx
  rcases hx with rfl | ⟨j, -, rfl | rfl | rfl⟩ <;> rfl

theorem cost_replace (b : Bool) (i : Nat) : cost (replace b i) = 0 := rfl

theorem cost_updateBody {missing : Bool} {looks : Nat} {kids : List (Nat × List Nat)} {dsts : List (Bool × Nat)}
    {results : List Instr} (h : cost results = 0) : cost (updateBody missing looks kids dsts results) = 0 := by
  simp only [updateBody, cost_append, cost_list, cost_peek, cost_ensureIdx, h, cost_checkSplit, cost_save]
  rw [cost_cons, par_zero acts_updateKid, cost_flatMap _ (fun _ => cost_replace _ _),
    cost_flatMap _ (fun _ => cost_replace _ _), cost_flatMap]
  · rfl
  · intro d
    cases d.1 <;> rfl

theorem cost_splitAct (b : Bool) (a : SplitAct) : cost (splitAct b a) = 0 := by
  cases a <;> cases b <;> rfl

theorem cost_splitBody (scores index : List SplitAct) (upd : List Nat) (n m : Nat) :
    cost (splitBody scores upd n m index) = 0 := by
  simp only [splitBody, cost_append, cost_list, cost_peek, cost_save, cost_flatMap _ (cost_splitAct _), cost_writePar]

theorem cost_populateBody (empty : Bool) (rounds : List (List Nat × List Nat)) (n m : Nat) :
    cost (populateBody empty rounds n m) = 0 := by
  unfold populateBody
  simp only [cost_append, cost_list, cost_inserts, cost_save, cost_verifyTables]
  cases empty <;> rfl

theorem cost_unlock (upd wr : Bool) : cost (unlock upd wr) = 0 := by cases upd <;> cases wr <;> rfl

theorem cost_withSegments {upd wr : Bool} {how : Loading} {body : List Instr} (h : cost body = 0) :
    cost (withSegments upd wr how body) = if upd then 1 else 0 := by
  unfold withSegments
  cases how with
  | rebuilt segs =>
    cases upd <;> cases wr <;> simp [cost_append, cost_cons, cost_rebuildIndex, h, instrCost, actCost]
  | cached => cases upd <;> cases wr <;> simp [cost_cons, h, instrCost, actCost]
  | read => cases upd <;> cases wr <;> simp [cost_cons, h, instrCost, actCost]
  | failed => cases upd <;> cases wr <;> simp [cost_cons, cost_nil, instrCost, actCost]

/-- The operations that change a list take the update lock once. -/
theorem changes_cost {op : Op} (h : Serial.Changes op) : cost op.program ≤ 1 := by
  cases op with
  | insert how rounds =>
    simp only [Op.program, updater]
    rw [cost_withSegments] <;> simp [cost_append, cost_inserts, cost_checkSplit, cost_save, cost_unlock]
  | updateElements how missing looks kids dsts results =>
    simp only [Op.program, updater]
    rw [cost_withSegments]
    · simp
    · rw [cost_append, cost_unlock, cost_updateBody]
      cases results with
      | none => rfl
      | some r => exact cost_lookup ..
  | deleteElements how looks found missing scores index =>
    simp only [Op.program, updater]
    rw [cost_withSegments]
    · simp
    · simp only [cost_append, cost_list, cost_peek, cost_readSegs, cost_ensureIdx, cost_writePar, cost_writeSegs,
        cost_checkSplit, cost_save, cost_unlock]
  | split how scores upd n m index =>
    simp only [Op.program]
    rw [cost_withSegments] <;> simp [cost_append, cost_splitBody, cost_unlock]
  | reindex how segs =>
    simp only [Op.program]
    rw [cost_withSegments] <;> simp [cost_append, cost_rebuildIndex, cost_unlock]
  | populate how empty rounds n m =>
    simp only [Op.program]
    rw [cost_withSegments] <;> simp [cost_populateBody]
  | repair stat how segs empty rounds n m =>
    simp only [Op.program, reader]
    rw [cost_append, cost_append, cost_withSegments, cost_withSegments, cost_list]
    · simp
    · simp [cost_append, cost_cons, instrCost, actCost, cost_readEach, cost_populateBody]
    · simp [cost_append, cost_peek, cost_unlock]
  | deleteAll how =>
    simp only [Op.program]
    rw [cost_withSegments] <;> simp [cost_append, cost_list, cost_unlock]
  | _ => exact h.elim

theorem changes_simple {op : Op} (h : Serial.Changes op) : op.Simple := by
  cases op <;> first | trivial | exact h | exact h.elim

end RankDB.Locks

namespace RankDB.Serial
open Locks

/-- A call that changes the list: it keeps to the discipline, and takes the update lock once. -/
def Good (c : Call) : Prop := (∃ Sh, CallOK c Sh) ∧ callCost c + hasUpdate c ≤ 1

theorem good_start {op : Locks.Op} (h : Changes op) : Good ⟨.start op.program, [], []⟩ := by
  refine ⟨⟨[], fun l hl => (by cases hl), fun h hh => (by cases hh), fun l _ hh => (by cases hh),
    .inl ⟨rfl, simple_disciplined op (changes_simple h)⟩⟩, ?_⟩
  have := changes_cost h
  simpa [callCost, hasUpdate, held, Gor.start] using this

theorem mayChange_update {c : Call} (hg : Good c) (h : MayChange c) : 0 < hasUpdate c := by
  rw [← hasUpdate_pos]
  rcases h with ⟨b, i, h⟩ | ⟨-, h⟩
  · obtain ⟨⟨Sh, hok⟩, -⟩ := hg
    exact own_held (hok.segW _ rfl h)
  · exact h

/-- The call has used the update lock and given it back. -/
def Over (c : Call) : Prop := callCost c = 0 ∧ hasUpdate c = 0

/-- The calls from the start. -/
structure WInv (calls : List (Locks.Op × Job)) (l0 : ListState) (w : World) : Prop where
  excl : Excl (w.locks.flatMap held)
  good : ∀ (i : Nat) (p : Locks.Op × Job), calls[i]? = some p → Changes p.1 → ∃ c, w.locks[i]? = some c ∧ Good c
  idle : ∀ (i : Nat) (p : Locks.Op × Job), calls[i]? = some p → i ∉ w.order → w.jobs[i]? = some p.2
  same : ∀ (i : Nat) (p : Locks.Op × Job), calls[i]? = some p → ∃ v, w.jobs[i]? = some { p.2 with vars := v }
  only : ∀ (i : Nat) (j : Job), w.jobs[i]? = some j → ∃ p, calls[i]? = some p
  begun : ∀ i ∈ w.order, ∃ p, calls[i]? = some p ∧ Changes p.1
  nodup : w.order.Nodup
  /-- Either a call gave the update lock back too early, or calls take effect one by one. -/
  state : (∃ i ∈ w.order, ∃ (c : Call) (j : Job), w.locks[i]? = some c ∧ w.jobs[i]? = some j ∧ Over c ∧ ¬ j.done j.vars) ∨
    ∃ (done : List Nat) (l : ListState), (∀ i ∈ done, ∃ (c : Call) (j : Job), w.locks[i]? = some c ∧ w.jobs[i]? = some j ∧ Over c ∧ j.done j.vars) ∧
      OneByOne (done.filterMap fun i => (calls[i]?).map (·.2)) l0 l ∧
      (w.order = done ∧ w.list = l ∨
       ∃ (i : Nat) (p : Locks.Op × Job) (c : Call) (v : p.2.Vars), w.order = done ++ [i] ∧ calls[i]? = some p ∧ w.locks[i]? = some c ∧ 0 < hasUpdate c ∧
         w.jobs[i]? = some { p.2 with vars := v } ∧ p.2.Steps p.2.vars l v w.list)

theorem vars_inj {j : Job} {a b : j.Vars} (h : ({ j with vars := a } : Job) = { j with vars := b }) : a = b := by
  injection h

theorem oneByOne_append {js ks : List Job} {l l' l'' : ListState} (h1 : OneByOne js l l') (h2 : OneByOne ks l' l'') :
    OneByOne (js ++ ks) l l'' := by
  induction h1 with
  | nil => exact h2
  | cons h _ ih => exact .cons h (ih h2)

theorem over_stepped {hs : Held} {ps : List Lock} {c c' : Call} (h : Stepped hs ps c c') (ho : Over c) : Over c' := by
  obtain ⟨h1, h2⟩ := stepped_cost h
  obtain ⟨h3, h4⟩ := ho
  constructor <;> omega

theorem good_stepped {hs : Held} {ps : List Lock} {c c' : Call} (h : Stepped hs ps c c') (hg : Good c) : Good c' := by
  obtain ⟨⟨Sh, h1⟩, h2⟩ := hg
  refine ⟨stepped_ok h1 h, ?_⟩
  have := (stepped_cost h).1
  omega

/-- Every call stays where it is or makes a step. -/
theorem step_calls {st st' : State} (h : Locks.Step st st') (i : Nat) (c : Call) (hc : st[i]? = some c) :
    ∃ c', st'[i]? = some c' ∧ (c' = c ∨ ∃ hs ps, Stepped hs ps c c') := by
  obtain ⟨k, j, h⟩ := h
  obtain ⟨a, x, b, x', rfl, rfl, hs⟩ := exec_stepped h
  by_cases hi : i = a.length
  · subst hi
    rw [List.getElem?_append_right (Nat.le_refl _)] at hc
    simp at hc
    subst hc
    exact ⟨x', by simp, .inr ⟨_, _, hs⟩⟩
  · refine ⟨c, ?_, .inl rfl⟩
    rw [← hc]
    rcases Nat.lt_or_ge i a.length with hlt | hge
    · rw [List.getElem?_append_left hlt, List.getElem?_append_left hlt]
    · rw [List.getElem?_append_right hge, List.getElem?_append_right hge]
      cases hk : i - a.length with
      | zero => omega
      | succ n => simp

theorem inv_start {calls : List (Locks.Op × Job)} {l : ListState} : WInv calls l (start calls l) := by
  have hl : ∀ (i : Nat) (p : Locks.Op × Job), calls[i]? = some p → (start calls l).locks[i]? = some ⟨.start p.1.program, [], []⟩ := by
    intro i p hp
    simp [start, Locks.start, Locks.init, hp]
  refine ⟨excl_init _, fun i p hp hc => ⟨_, hl i p hp, good_start hc⟩, fun i p hp _ => by simp [start, hp],
    fun i p hp => ⟨p.2.vars, by simp [start, hp]⟩, fun i j hj => ?_, fun i hi => (by cases hi), List.nodup_nil,
    .inr ⟨[], l, fun i hi => (by cases hi), .nil l, .inl ⟨rfl, rfl⟩⟩⟩
  simp only [start, List.getElem?_map, Option.map_eq_some_iff] at hj
  obtain ⟨p, hp, -⟩ := hj
  exact ⟨p, hp⟩

theorem inv_step {calls : List (Locks.Op × Job)} {l0 : ListState} (hf : Fits calls) {w w' : World}
    (hi : WInv calls l0 w) (h : Step w w') : WInv calls l0 w' := by
  cases h with
  | @lock st h =>
    have hcalls := step_calls h
    have hover : ∀ (i : Nat) (c : Call), w.locks[i]? = some c → Over c → ∃ c', st[i]? = some c' ∧ Over c' := by
      intro i c hc ho
      obtain ⟨c', h1, h2⟩ := hcalls i c hc
      refine ⟨c', h1, ?_⟩
      rcases h2 with rfl | ⟨hs, ps, h2⟩
      · exact ho
      · exact over_stepped h2 ho
    refine ⟨excl_step hi.excl h, fun i p hp hc => ?_, hi.idle, hi.same, hi.only, hi.begun, hi.nodup, ?_⟩
    · obtain ⟨c, h1, h2⟩ := hi.good i p hp hc
      obtain ⟨c', h3, h4⟩ := hcalls i c h1
      refine ⟨c', h3, ?_⟩
      rcases h4 with rfl | ⟨hs, ps, h4⟩
      · exact h2
      · exact good_stepped h4 h2
    · rcases hi.state with ⟨i, hio, c, j, h1, h2, h3, h4⟩ | ⟨done, l, h1, h2, h3⟩
      · obtain ⟨c', h5, h6⟩ := hover i c h1 h3
        exact .inl ⟨i, hio, c', j, h5, h2, h6, h4⟩
      · have h1' : ∀ i ∈ done, ∃ (c : Call) (j : Job), st[i]? = some c ∧ w.jobs[i]? = some j ∧ Over c ∧ j.done j.vars := by
          intro i hid
          obtain ⟨c, j, h5, h6, h7, h8⟩ := h1 i hid
          obtain ⟨c', h9, h10⟩ := hover i c h5 h7
          exact ⟨c', j, h9, h6, h10, h8⟩
        rcases h3 with ⟨h3, h4⟩ | ⟨i, p, c, v, h3, h4, h5, h6, h7, h8⟩
        · exact .inr ⟨done, l, h1', h2, .inl ⟨h3, h4⟩⟩
        · obtain ⟨c', h9, h10⟩ := hcalls i c h5
          by_cases hu : 0 < hasUpdate c'
          · exact .inr ⟨done, l, h1', h2, .inr ⟨i, p, c', v, h3, h4, h9, hu, h7, h8⟩⟩
          · have ho : Over c' := by
              obtain ⟨q, hq, hch⟩ := hi.begun i (by rw [h3]; simp)
              rw [h4] at hq
              cases hq
              obtain ⟨d, hd, hg⟩ := hi.good i p h4 hch
              rw [h5] at hd
              cases hd
              have h11 := hg.2
              have : callCost c' ≤ callCost c := by
                rcases h10 with rfl | ⟨hs, ps, h10⟩
                · exact Nat.le_refl _
                · exact (stepped_cost h10).2
              constructor <;> omega
            by_cases hd : p.2.done v
            · refine .inr ⟨done ++ [i], w.list, ?_, ?_, .inl ⟨h3, rfl⟩⟩
              · intro k hk
                rcases List.mem_append.1 hk with hk | hk
                · exact h1' k hk
                · rw [List.mem_singleton.1 hk]
                  exact ⟨c', _, h9, h7, ho, hd⟩
              · rw [List.filterMap_append]
                refine oneByOne_append h2 ?_
                simp only [List.filterMap_cons, List.filterMap_nil, h4, Option.map_some]
                exact .cons ⟨v, h8, hd⟩ (.nil _)
            · exact .inl ⟨i, by rw [h3]; simp, c', _, h9, h7, ho, hd⟩
  | @change i c j v l hc hj hm hs =>
    obtain ⟨p, hp⟩ := hi.only i j hj
    obtain ⟨v0, hv0⟩ := hi.same i p hp
    rw [hj] at hv0
    cases hv0
    have hch : Changes p.1 := by
      rcases hf p (List.mem_of_getElem? hp) with h1 | h1
      · exact h1
      · exact absurd hs (h1 _ _ _ _)
    obtain ⟨c1, hc1, hg⟩ := hi.good i p hp hch
    rw [hc] at hc1
    cases hc1
    have hu := mayChange_update hg hm
    have hlen : i < w.jobs.length := by
      rcases Nat.lt_or_ge i w.jobs.length with h' | h'
      · exact h'
      · rw [List.getElem?_eq_none h'] at hj; cases hj
    have hset : ∀ k, k ≠ i → (w.jobs.set i { p.2 with vars := v })[k]? = w.jobs[k]? := by
      intro k hk
      rw [List.getElem?_set_ne (Ne.symm hk)]
    have hself : (w.jobs.set i { p.2 with vars := v })[i]? = some { p.2 with vars := v } := by
      rw [List.getElem?_set_self hlen]
    have hmem : ∀ k, k ∈ (if i ∈ w.order then w.order else w.order ++ [i]) ↔ k ∈ w.order ∨ k = i := by
      intro k
      split
      · constructor
        · exact .inl
        · rintro (h | rfl) <;> assumption
      · simp
    refine ⟨hi.excl, hi.good, fun k q hq hk => ?_, fun k q hq => ?_, fun k q hq => ?_, fun k hk => ?_, ?_, ?_⟩
    · have hki : k ≠ i := fun he => hk ((hmem k).2 (.inr he))
      show (w.jobs.set i { p.2 with vars := v })[k]? = _
      rw [hset k hki]
      exact hi.idle k q hq fun h => hk ((hmem k).2 (.inl h))
    · show ∃ v', (w.jobs.set i { p.2 with vars := v })[k]? = _
      by_cases hki : k = i
      · subst hki
        rw [hp] at hq
        cases hq
        exact ⟨v, hself⟩
      · rw [hset k hki]
        exact hi.same k q hq
    · replace hq : (w.jobs.set i { p.2 with vars := v })[k]? = some q := hq
      by_cases hki : k = i
      · subst hki
        exact ⟨p, hp⟩
      · rw [hset k hki] at hq
        exact hi.only k q hq
    · rcases (hmem k).1 hk with h | rfl
      · exact hi.begun k h
      · exact ⟨p, hp, hch⟩
    · show (if i ∈ w.order then w.order else w.order ++ [i]).Nodup
      split
      · exact hi.nodup
      · rename_i hni
        rw [List.nodup_append]
        exact ⟨hi.nodup, by simp, fun a ha b hb => by rw [List.mem_singleton.1 hb]; exact fun he => hni (he ▸ ha)⟩
    · have hne : ∀ k d, w.locks[k]? = some d → Over d → k ≠ i := by
        intro k d hd ho hki
        rw [hki, hc] at hd
        cases hd
        have := ho.2
        omega
      rcases hi.state with ⟨k, hko, d, jk, h1, h2, h3, h4⟩ | ⟨done, l1, h1, h2, h3⟩
      · refine .inl ⟨k, (hmem k).2 (.inl hko), d, jk, h1, ?_, h3, h4⟩
        show (w.jobs.set i { p.2 with vars := v })[k]? = _
        rw [hset k (hne k d h1 h3)]
        exact h2
      · have h1' : ∀ k ∈ done, ∃ d jk, w.locks[k]? = some d ∧ (w.jobs.set i { p.2 with vars := v })[k]? = some jk ∧ Over d ∧
            jk.done jk.vars := by
          intro k hk
          obtain ⟨d, jk, h5, h6, h7, h8⟩ := h1 k hk
          exact ⟨d, jk, h5, by rw [hset k (hne k d h5 h7)]; exact h6, h7, h8⟩
        rcases h3 with ⟨h3, h4⟩ | ⟨k, q, d, v1, h3, h4, h5, h6, h7, h8⟩
        · have hni : i ∉ w.order := by
            intro hin
            rw [h3] at hin
            obtain ⟨d, _, h5, -, h7, -⟩ := h1 i hin
            exact hne i d h5 h7 rfl
          have h9 := hi.idle i p hp hni
          rw [hj] at h9
          have hv : v0 = p.2.vars := vars_inj (Option.some.inj h9)
          refine .inr ⟨done, l1, h1', h2, .inr ⟨i, p, c, v, ?_, hp, hc, hu, hself, ?_⟩⟩
          · show (if i ∈ w.order then w.order else w.order ++ [i]) = _
            rw [if_neg hni, h3]
          · rw [← h4]
            exact .step .refl (hv ▸ hs)
        · have hki : k = i := by
            rw [← hasUpdate_pos] at h6 hu
            exact excl_index hi.excl h5 hc h6 hu
          subst hki
          rw [hp] at h4
          cases h4
          rw [hj] at h7
          have hv : v0 = v1 := vars_inj (Option.some.inj h7)
          refine .inr ⟨done, l1, h1', h2, .inr ⟨k, p, c, v, ?_, hp, hc, hu, hself, ?_⟩⟩
          · show (if k ∈ w.order then w.order else w.order ++ [k]) = _
            rw [if_pos (by rw [h3]; simp), h3]
          · exact .step (hv ▸ h8) hs

end RankDB.Serial

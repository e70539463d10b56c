import Verif.Model.Badger
import Verif.Spec.LazySaver
/-
Property C62: the store with a queue of writes.
-/
namespace RankDB
namespace Badger
open Wire Spec.LazySaver

/-- Calls with the answers of the database; all answers are those of a database that does not fail. -/
inductive Op
  | set (s k : Str) (v : Bytes) (evs : List SetResult) (order : List (Str × Bytes) → List (Str × Bytes))
  | delete (s k : Str)
  | close (evs : List SetResult) (order : List (Str × Bytes) → List (Str × Bytes))

def step (st : State) : Op → State
  | .set s k v evs order => (set true evs order st s k v).1
  | .delete s k => deleteDb true (deleteQueue st s k) s k
  | .close evs order => (close true evs order true st).1

/-- The answers to one iteration over a queue: enough of them, and no failure; transactions may be too big. -/
def Fine (evs : List SetResult) : Prop := queueSize ≤ evs.length ∧ ∀ e ∈ evs, e = .ok ∨ e = .tooBig true true

/-- The iteration visits the entries of the queue, in any order. -/
def Visits (order : List (Str × Bytes) → List (Str × Bytes)) : Prop := ∀ q, (order q).Perm q

def Good (P : Str → Str → Prop) : Op → Prop
  | .set s k _ evs order => P s k ∧ Fine evs ∧ Visits order
  | .delete s k => P s k
  | .close evs order => Fine evs ∧ Visits order

/-- The last value of each key, from the calls only. -/
def lastOf (db : Str → Str → Option Bytes) (ops : List Op) : Str → Str → Option Bytes :=
  ops.foldl (fun m o => match o with
    | .set s k v _ _ => fun s' k' => if s' = s ∧ k' = k then some v else m s' k'
    | .delete s k => fun s' k' => if s' = s ∧ k' = k then none else m s' k'
    | .close _ _ => m) db

/-- The value of a joined key: from the queue, otherwise from the database. -/
def view (st : State) (k : Str) : Option Bytes := (find st.queue k).or (st.db k)

def UniqueKeys (q : List (Str × Bytes)) : Prop := (q.map (·.1)).Nodup

theorem find_drop (q : List (Str × Bytes)) (k k' : Str) : find (drop q k) k' = if k' = k then none else find q k' := by
  induction q with
  | nil => simp [find, drop]
  | cons e q ih =>
    unfold find drop at ih ⊢
    rw [List.filter_cons]
    by_cases he : e.1 = k
    · rw [if_neg (by simp [he]), ih]
      by_cases hk : k' = k
      · rw [if_pos hk, if_pos hk]
      · rw [if_neg hk, if_neg hk, List.find?_cons_of_neg (by simp; intro h; exact hk (h.symm.trans he))]
    · rw [if_pos (by simpa using he)]
      by_cases hek : e.1 = k'
      · rw [List.find?_cons_of_pos (by simpa using hek), List.find?_cons_of_pos (by simpa using hek),
          if_neg (by intro h; exact he (hek.trans h))]
      · rw [List.find?_cons_of_neg (by simpa using hek), List.find?_cons_of_neg (by simpa using hek)]
        exact ih

theorem find_append (q : List (Str × Bytes)) (e : Str × Bytes) (k : Str) (h : find q e.1 = none) :
    find (q ++ [e]) k = if k = e.1 then some e.2 else find q k := by
  unfold find at *
  rw [List.find?_append]
  by_cases hk : k = e.1
  · subst hk
    rw [if_pos rfl]
    cases hf : q.find? (fun x => x.1 = e.1) with
    | none => simp
    | some x => rw [hf] at h; simp at h
  · rw [if_neg hk]
    cases hf : q.find? (fun x => x.1 = k) with
    | none => simpa using fun h => hk (Eq.symm h)
    | some x => simp

theorem find_none_iff (q : List (Str × Bytes)) (k : Str) : find q k = none ↔ ∀ e ∈ q, e.1 ≠ k := by
  unfold find
  rw [Option.map_eq_none_iff, List.find?_eq_none]
  simp

theorem find_mem {q : List (Str × Bytes)} (h : UniqueKeys q) {e : Str × Bytes} (he : e ∈ q) : find q e.1 = some e.2 := by
  induction q with
  | nil => simp at he
  | cons x q ih =>
    unfold UniqueKeys at h
    rw [List.map_cons, List.nodup_cons] at h
    unfold find
    by_cases hx : x.1 = e.1
    · rw [List.find?_cons_of_pos (by simpa using hx)]
      rcases List.mem_cons.1 he with rfl | he
      · rfl
      · exact absurd (List.mem_map.2 ⟨e, he, hx.symm⟩) h.1
    · rw [List.find?_cons_of_neg (by simpa using hx)]
      rcases List.mem_cons.1 he with rfl | he
      · exact absurd rfl hx
      · exact ih h.2 he

theorem unique_drop {q : List (Str × Bytes)} (h : UniqueKeys q) (k : Str) : UniqueKeys (drop q k) := by
  unfold UniqueKeys drop
  exact List.Nodup.sublist (List.Sublist.map _ List.filter_sublist) h

theorem unique_add {q : List (Str × Bytes)} (h : UniqueKeys q) (e : Str × Bytes) : UniqueKeys (drop q e.1 ++ [e]) := by
  unfold UniqueKeys
  rw [List.map_append, List.nodup_append]
  refine ⟨unique_drop h e.1, by simp, ?_⟩
  intro a ha b hb
  obtain ⟨x, hx, rfl⟩ := List.mem_map.1 ha
  simp only [List.map_cons, List.map_nil, List.mem_cons, List.not_mem_nil, or_false] at hb
  subst hb
  simpa [drop] using (List.mem_filter.1 hx).2

theorem commit_snoc (db : Str → Option Bytes) (txn : List (Str × Bytes)) (e : Str × Bytes) (k : Str) :
    commit db (txn ++ [e]) k = if k = e.1 then some e.2 else commit db txn k := by
  unfold commit
  rw [List.foldl_append]
  rfl

/-- Flushing a queue without failures: the database has the entries of the queue, and the queue is empty. -/
theorem flushLoop_fine (evs : List SetResult) (todo txn : List (Str × Bytes)) (st : State)
    (hl : todo.length ≤ evs.length) (hf : ∀ e ∈ evs, e = .ok ∨ e = .tooBig true true)
    (hp : todo.Perm st.queue) (hu : UniqueKeys st.queue) (v : Str → Option Bytes)
    (hv : ∀ k, v k = (find st.queue k).or (commit st.db txn k)) :
    (flushLoop true evs todo txn st).2 = true ∧ (flushLoop true evs todo txn st).1.queue = [] ∧
      (flushLoop true evs todo txn st).1.db = v := by
  induction todo generalizing evs txn st with
  | nil =>
    have hq : st.queue = [] := List.nil_perm.1 hp
    simp only [flushLoop, if_true]
    refine ⟨trivial, hq, ?_⟩
    funext k
    rw [hv k, hq]
    simp [find]
  | cons e todo ih =>
    cases evs with
    | nil => simp at hl
    | cons ev evs =>
      have hmem : e ∈ st.queue := hp.subset (List.mem_cons_self ..)
      have hfe := find_mem hu hmem
      have hdrop : todo.Perm (drop st.queue e.1) := by
        have h1 : (drop (e :: todo) e.1).Perm (drop st.queue e.1) := hp.filter _
        have h2 : drop (e :: todo) e.1 = todo := by
          have hu2 : UniqueKeys (e :: todo) := (hp.map _).nodup_iff.2 hu
          unfold UniqueKeys at hu2
          rw [List.map_cons, List.nodup_cons] at hu2
          unfold drop
          rw [List.filter_cons, if_neg (by simp)]
          rw [List.filter_eq_self]
          intro x hx
          simp only [ne_eq, decide_not, Bool.not_eq_eq_eq_not, Bool.not_true, decide_eq_false_iff_not]
          intro hxe
          exact hu2.1 (List.mem_map.2 ⟨x, hx, hxe⟩)
        rw [h2] at h1
        exact h1
      have hlen : todo.length ≤ evs.length := by simpa using hl
      rcases hf ev (List.mem_cons_self ..) with rfl | rfl
      · simp only [flushLoop]
        apply ih evs (txn ++ [e]) _ hlen (fun x hx => hf x (List.mem_cons_of_mem _ hx)) hdrop (unique_drop hu _)
        intro k
        rw [hv k, find_drop, commit_snoc]
        by_cases hk : k = e.1
        · subst hk; simp [hfe]
        · rw [if_neg hk, if_neg hk]
      · simp only [flushLoop, if_true]
        apply ih evs [e] _ hlen (fun x hx => hf x (List.mem_cons_of_mem _ hx)) hdrop (unique_drop hu _)
        intro k
        dsimp only
        rw [hv k, find_drop, show ([e] : List (Str × Bytes)) = [] ++ [e] from rfl, commit_snoc]
        by_cases hk : k = e.1
        · subst hk; simp [hfe]
        · rw [if_neg hk, if_neg hk]
          rfl

theorem flushLoop_last (evs : List SetResult) (todo txn : List (Str × Bytes)) (st : State) :
    (flushLoop false evs todo txn st).2 = false := by
  induction todo generalizing evs txn st with
  | nil => simp [flushLoop]
  | cons e todo ih =>
    cases evs with
    | nil => rfl
    | cons ev evs =>
      cases ev with
      | ok => exact ih evs _ _
      | fail => rfl
      | tooBig c b =>
        cases b
        · rfl
        · exact ih evs _ _

/-- The same for any answers of the database, when success is reported and no commit on the way failed. -/
theorem flushLoop_reported (lastOk : Bool) (evs : List SetResult) (todo txn : List (Str × Bytes)) (st : State)
    (hs : ∀ b, SetResult.tooBig false b ∉ evs)
    (hp : todo.Perm st.queue) (hu : UniqueKeys st.queue) (v : Str → Option Bytes)
    (hv : ∀ k, v k = (find st.queue k).or (commit st.db txn k)) (hr : (flushLoop lastOk evs todo txn st).2 = true) :
    (flushLoop lastOk evs todo txn st).1.queue = [] ∧ (flushLoop lastOk evs todo txn st).1.db = v := by
  have hok : lastOk = true := by
    cases lastOk with
    | true => rfl
    | false => rw [flushLoop_last] at hr; cases hr
  subst hok
  have hlen : ∀ (evs : List SetResult) (todo txn : List (Str × Bytes)) (st : State), (∀ b, SetResult.tooBig false b ∉ evs) →
      (flushLoop true evs todo txn st).2 = true →
      ∃ evs', todo.length ≤ evs'.length ∧ (∀ e ∈ evs', e = .ok ∨ e = .tooBig true true) ∧
        flushLoop true evs todo txn st = flushLoop true evs' todo txn st := by
    intro evs todo
    induction todo generalizing evs with
    | nil => exact fun _ _ _ _ => ⟨[], Nat.le_refl _, nofun, by simp [flushLoop]⟩
    | cons e todo ih =>
      intro txn st hs hr
      cases evs with
      | nil => simp [flushLoop] at hr
      | cons ev evs =>
        have hs' : ∀ b, SetResult.tooBig false b ∉ evs := fun b hb => hs b (List.mem_cons_of_mem _ hb)
        cases ev with
        | ok =>
          obtain ⟨evs', h1, h2, h3⟩ := ih evs _ _ hs' hr
          exact ⟨.ok :: evs', by simpa using h1, List.forall_mem_cons.2 ⟨.inl rfl, h2⟩, h3⟩
        | fail => simp [flushLoop] at hr
        | tooBig c b =>
          cases b with
          | false => simp [flushLoop] at hr
          | true =>
            cases c with
            | false => exact absurd (List.mem_cons_self ..) (hs true)
            | true =>
              obtain ⟨evs', h1, h2, h3⟩ := ih evs _ _ hs' hr
              exact ⟨.tooBig true true :: evs', by simpa using h1, List.forall_mem_cons.2 ⟨.inr rfl, h2⟩, h3⟩
  obtain ⟨evs', h1, h2, h3⟩ := hlen evs todo txn st hs hr
  rw [h3]
  exact (flushLoop_fine evs' todo txn st h1 h2 hp hu v hv).2

structure Inv (P : Str → Str → Prop) (m : Str → Str → Option Bytes) (st : State) : Prop where
  unique : UniqueKeys st.queue
  short : st.queue.length < queueSize
  value : ∀ s k, P s k → view st (joined s k) = m s k

theorem drop_length (q : List (Str × Bytes)) (k : Str) : (drop q k).length ≤ q.length := List.length_filter_le _ _

theorem flush_inv {P : Str → Str → Prop} {m : Str → Str → Option Bytes} {st : State} {evs : List SetResult}
    {order : List (Str × Bytes) → List (Str × Bytes)} (hf : Fine evs) (hv : Visits order) (hu : UniqueKeys st.queue)
    (hlen : st.queue.length ≤ queueSize) (hval : ∀ s k, P s k → view st (joined s k) = m s k) :
    Inv P m (flush true evs (order st.queue) st).1 := by
  have hp := hv st.queue
  obtain ⟨_, h2, h3⟩ := flushLoop_fine evs (order st.queue) [] st (by
    rw [hp.length_eq]
    exact Nat.le_trans hlen hf.1) hf.2 hp hu (fun k => (find st.queue k).or (st.db k)) (fun k => rfl)
  unfold flush
  refine ⟨by rw [h2]; simp [UniqueKeys], by rw [h2]; decide, ?_⟩
  intro s k hk
  unfold view
  rw [h2, h3]
  exact hval s k hk

theorem inv_step {P : Str → Str → Prop} (hP : Distinct P) {m : Str → Str → Option Bytes} {st : State}
    (h : Inv P m st) {o : Op} (ho : Good P o) : Inv P (lastOf m [o]) (step st o) := by
  cases o with
  | set s k v evs order =>
    obtain ⟨hk, hf, hv⟩ := ho
    have hu := unique_add h.unique (joined s k, v)
    have hval : ∀ s' k', P s' k' →
        view { st with queue := drop st.queue (joined s k) ++ [(joined s k, v)] } (joined s' k') =
          if s' = s ∧ k' = k then some v else m s' k' := by
      intro s' k' hk'
      unfold view
      dsimp only
      rw [find_append _ _ _ (by rw [find_drop, if_pos rfl])]
      by_cases he : joined s' k' = joined s k
      · obtain ⟨rfl, rfl⟩ := hP s' k' s k hk' hk he
        simp
      · rw [if_neg he, if_neg (by rintro ⟨rfl, rfl⟩; exact he rfl), find_drop, if_neg he]
        exact h.value s' k' hk'
    show Inv P _ (set true evs order st s k v).1
    unfold set
    dsimp only
    split
    · apply flush_inv (st := { st with queue := drop st.queue (joined s k) ++ [(joined s k, v)] }) hf hv hu
      · have h1 := drop_length st.queue (joined s k)
        have h2 := h.short
        simp only [List.length_append, List.length_cons, List.length_nil]
        omega
      · exact hval
    · rename_i hlen
      exact ⟨hu, by dsimp only; omega, hval⟩
  | delete s k =>
    refine ⟨unique_drop h.unique _, Nat.lt_of_le_of_lt (drop_length _ _) h.short, ?_⟩
    intro s' k' hk'
    show (find (drop st.queue (joined s k)) (joined s' k')).or
      (if joined s' k' = joined s k then none else st.db (joined s' k')) = if s' = s ∧ k' = k then none else m s' k'
    rw [find_drop]
    by_cases he : joined s' k' = joined s k
    · obtain ⟨rfl, rfl⟩ := hP s' k' s k hk' ho he
      simp
    · rw [if_neg he, if_neg he, if_neg (by rintro ⟨rfl, rfl⟩; exact he rfl)]
      exact h.value s' k' hk'
  | close evs order =>
    obtain ⟨hf, hv⟩ := ho
    have := flush_inv (P := P) (m := m) hf hv h.unique (Nat.le_of_lt h.short) h.value
    show Inv P m (close true evs order true st).1
    unfold close
    dsimp only
    split <;> exact this

theorem inv_run {P : Str → Str → Prop} (hP : Distinct P) (ops : List Op) (m : Str → Str → Option Bytes) (st : State)
    (h : Inv P m st) (ho : ∀ o ∈ ops, Good P o) : Inv P (lastOf m ops) (ops.foldl step st) := by
  induction ops generalizing m st with
  | nil => exact h
  | cons o ops ih =>
    have h1 := inv_step hP h (ho o (List.mem_cons_self ..))
    exact ih _ _ h1 (fun o' h' => ho o' (List.mem_cons_of_mem _ h'))

theorem get_view (st : State) (s k : Str) : get st s k = view st (joined s k) := by
  unfold get view
  cases find st.queue (joined s k) <;> rfl

end Badger

namespace Props
open Badger Wire Spec.LazySaver

/-- Every history of calls, one at a time, with a database that does not fail: reading returns the last value set,
whatever the level of the queue, the order in which it is flushed, and the places where a transaction gets too big. -/
theorem C62_map_partial (P : Str → Str → Prop) (hP : Distinct P) (db : Str → Option Bytes) (ops : List Op)
    (ho : ∀ o ∈ ops, Good P o) (s k : Str) (hk : P s k) :
    get (ops.foldl step { db := db, queue := [] }) s k = lastOf (fun s k => db (s ++ 47 :: k)) ops s k := by
  rw [get_view]
  exact (inv_run hP ops _ _ ⟨by simp [UniqueKeys], by show 0 < 100; decide, fun s k _ => rfl⟩ ho).value s k hk

/-- At most 99 values are not yet in the database, and after closing all are. -/
theorem C62_queue_bound (P : Str → Str → Prop) (hP : Distinct P) (db : Str → Option Bytes) (ops : List Op)
    (ho : ∀ o ∈ ops, Good P o) : (ops.foldl step { db := db, queue := [] }).queue.length ≤ 99 :=
  Nat.le_of_lt_succ
    (inv_run hP ops (fun s k => db (joined s k)) _ ⟨by simp [UniqueKeys], by show 0 < 100; decide, fun s k _ => rfl⟩ ho).short

theorem C62_closed (P : Str → Str → Prop) (hP : Distinct P) (db : Str → Option Bytes) (ops : List Op)
    (evs : List SetResult) (order : List (Str × Bytes) → List (Str × Bytes)) (hc : Fine evs ∧ Visits order)
    (ho : ∀ o ∈ ops, Good P o) (s k : Str) (hk : P s k) :
    (step (ops.foldl step { db := db, queue := [] }) (.close evs order)).queue = [] ∧
    (step (ops.foldl step { db := db, queue := [] }) (.close evs order)).db (s ++ 47 :: k) =
      lastOf (fun s k => db (s ++ 47 :: k)) ops s k := by
  have hinv := inv_run hP ops (fun s k => db (joined s k)) { db := db, queue := [] }
    ⟨by simp [UniqueKeys], by show 0 < 100; decide, fun s k _ => rfl⟩ ho
  obtain ⟨h1, h2, h3⟩ := flushLoop_fine evs (order (ops.foldl step { db := db, queue := [] }).queue) []
    (ops.foldl step { db := db, queue := [] }) (by
      rw [(hc.2 _).length_eq]
      exact Nat.le_trans (Nat.le_of_lt hinv.short) hc.1.1) hc.1.2 (hc.2 _) hinv.unique
    (fun k => (find (ops.foldl step { db := db, queue := [] }).queue k).or
      ((ops.foldl step { db := db, queue := [] }).db k)) (fun k => rfl)
  have hclose : step (ops.foldl step { db := db, queue := [] }) (.close evs order) =
      (flushLoop true evs (order (ops.foldl step { db := db, queue := [] }).queue) []
        (ops.foldl step { db := db, queue := [] })).1 := by
    show (close true evs order true _).1 = _
    unfold close flush
    dsimp only
    split <;> rfl
  rw [hclose, h2, h3]
  exact ⟨rfl, hinv.value s k hk⟩

/-- Any answers of the database, also failures: when `Set` reports success, what was set and everything set before is
there, in the queue or in the database, provided no commit within `flush` failed (which is not reported, see
`C62_failed_commit_silent`). When it flushed, all of it is in the database. -/
theorem C62_reported (lastOk : Bool) (evs : List SetResult) (order : List (Str × Bytes) → List (Str × Bytes))
    (hv : Visits order) (hs : ∀ b, SetResult.tooBig false b ∉ evs) (st : State) (hu : UniqueKeys st.queue) (s k : Str)
    (v : Bytes) (hr : (Badger.set lastOk evs order st s k v).2 = true) :
    (∀ s' k', get (Badger.set lastOk evs order st s k v).1 s' k' =
      if s' ++ 47 :: k' = s ++ 47 :: k then some v else get st s' k') ∧
    ((Badger.set lastOk evs order st s k v).1.queue = [] ∨ (Badger.set lastOk evs order st s k v).1.db = st.db) := by
  have hview : ∀ k', view { st with queue := drop st.queue (joined s k) ++ [(joined s k, v)] } k' =
      if k' = joined s k then some v else view st k' := by
    intro k'
    unfold view
    dsimp only
    rw [find_append _ _ _ (by rw [find_drop, if_pos rfl])]
    by_cases he : k' = joined s k
    · rw [if_pos he, if_pos he]; rfl
    · rw [if_neg he, if_neg he, find_drop, if_neg he]
  unfold Badger.set at hr ⊢
  dsimp only at hr ⊢
  split at hr
  · rename_i hq
    rw [if_pos hq]
    unfold flush at hr ⊢
    obtain ⟨h2, h3⟩ := flushLoop_reported lastOk evs (order (drop st.queue (joined s k) ++ [(joined s k, v)])) []
      { st with queue := drop st.queue (joined s k) ++ [(joined s k, v)] } hs (hv _)
      (unique_add hu (joined s k, v)) _ (fun k' => rfl) hr
    refine ⟨fun s' k' => ?_, .inl h2⟩
    rw [get_view, get_view, view, h2, h3]
    exact hview (joined s' k')
  · rename_i hq
    rw [if_neg hq]
    refine ⟨fun s' k' => ?_, .inr rfl⟩
    rw [get_view, get_view]
    exact hview (joined s' k')

/-- `Set` never reports success when the last commit failed. -/
theorem C62_last_commit (evs : List SetResult) (order : List (Str × Bytes) → List (Str × Bytes)) (st : State) (s k : Str)
    (v : Bytes) (hr : (Badger.set false evs order st s k v).2 = true) :
    (Badger.set false evs order st s k v).1.db = st.db ∧ get (Badger.set false evs order st s k v).1 s k = some v := by
  unfold Badger.set at hr ⊢
  dsimp only at hr ⊢
  split at hr
  · exact absurd hr (by unfold flush; rw [flushLoop_last]; nofun)
  · rename_i hq
    rw [if_neg hq]
    refine ⟨rfl, ?_⟩
    rw [get_view]
    unfold view
    dsimp only
    rw [find_append _ _ _ (by rw [find_drop, if_pos rfl]), if_pos rfl]
    rfl

/-- Non-vacuity: the hundredth value is set with a transaction that gets too big on the way. -/
example : (Badger.set true (.ok :: .tooBig true true :: List.replicate 98 .ok) id
    { db := fun _ => none, queue := (List.range 99).map fun i => ([47, 1, i.toUInt8], [i.toUInt8]) } [] [2] [9]).2 = true ∧
    (Badger.set true (.ok :: .tooBig true true :: List.replicate 98 .ok) id
    { db := fun _ => none, queue := (List.range 99).map fun i => ([47, 1, i.toUInt8], [i.toUInt8]) } [] [2] [9]).1.queue = [] := by
  decide +kernel

/-! ### Where the property fails -/

/-- A `Get` between the two parts of a `Delete` returns a value older than the last one set. -/
theorem C62_stale_during_delete :
    let st1 := Badger.step { db := fun k => if k = [47, 1] then some [10] else none, queue := [] }
      (.set [] [1] [20] [] id)
    get st1 [] [1] = some [20] ∧ get (deleteQueue st1 [] [1]) [] [1] = some [10] ∧
      get (deleteDb true (deleteQueue st1 [] [1]) [] [1]) [] [1] = none := by
  decide

/-- When the commit fails, entries have left the queue and are lost; here `Close` even reports success. -/
theorem C62_failed_commit :
    let st : State := { db := fun _ => none, queue := [([47, 1], [10])] }
    get st [] [1] = some [10] ∧ (Badger.close false [.ok] id true st).2 = true ∧
      get (Badger.close false [.ok] id true st).1 [] [1] = none := by
  decide

/-- A commit in the middle of flushing that fails is not even reported by `flush`. -/
theorem C62_failed_commit_silent :
    let st : State := { db := fun _ => none, queue := [([47, 1], [10]), ([47, 2], [20])] }
    (flush true [.ok, .tooBig false true] st.queue st).2 = true ∧
      get (flush true [.ok, .tooBig false true] st.queue st).1 [] [1] = none := by
  decide

/-- Keys that are equal when joined interfere. -/
theorem C62_key_collision :
    get (Badger.step { db := fun _ => none, queue := [] } (.set [97] [98, 47, 99] [10] [] id)) [97, 47, 98] [99] =
      some [10] := by
  decide

/-- Non-vacuity: an answer list and an order as required, with a transaction that gets too big. -/
example : Fine (List.replicate 50 .ok ++ [.tooBig true true] ++ List.replicate 50 .ok) ∧ Visits List.reverse := by
  refine ⟨⟨by decide, ?_⟩, fun q => List.reverse_perm q⟩
  intro e he
  simp only [List.mem_append, List.mem_replicate, List.mem_cons, List.not_mem_nil, or_false] at he
  rcases he with (⟨_, rfl⟩ | rfl) | ⟨_, rfl⟩ <;> simp

/-- A hundred different keys: the queue is flushed at the hundredth. -/
example : ((List.range 100).foldl (fun st i => Badger.step st
    (.set [] [UInt8.ofNat i] [1] (List.replicate 100 .ok) List.reverse)) { db := fun _ => none, queue := [] }).queue = [] ∧
    ((List.range 99).foldl (fun st i => Badger.step st
    (.set [] [UInt8.ofNat i] [1] (List.replicate 100 .ok) List.reverse)) { db := fun _ => none, queue := [] }).queue.length = 99 := by
  decide +kernel

end Props
end RankDB

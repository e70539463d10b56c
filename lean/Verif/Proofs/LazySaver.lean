import Verif.Spec.LazySaver
/-
Invariants of the write-behind store, for C39 and C40.
-/
namespace RankDB.LazySaver
open Wire Spec.LazySaver

def Item.isWritten (e : Item) : Prop := ∃ i, e.status = .written i

def rank : Status → Nat
  | .queued => 0
  | .chosen => 1
  | .taken _ => 2
  | .written _ => 2

/-- Held by saver `i`. -/
def Item.heldBy (e : Item) (i : Nat) : Prop := e.status = .taken i ∨ e.status = .written i

/-- The queue: identities increase, items are chosen in order, one item at a time is chosen, each saver holds one
item at most. -/
structure Str0 (n : Nat) (σ : State) : Prop where
  ids : σ.queue.Pairwise (fun a b => a.id < b.id)
  bound : ∀ e ∈ σ.queue, e.id < σ.next
  order : σ.queue.Pairwise (fun a b => rank b.status ≤ rank a.status)
  chosen : σ.queue.Pairwise (fun a b => ¬(a.status = .chosen ∧ b.status = .chosen))
  held : σ.queue.Pairwise (fun a b => ∀ i, ¬(a.heldBy i ∧ b.heldBy i))
  savers : ∀ e ∈ σ.queue, ∀ i, e.heldBy i → i < n

/-- Two items of a list are equal or in this or that order. -/
theorem pairwise_cases {α : Type} {R : α → α → Prop} {l : List α} (h : l.Pairwise R) {a b : α} (ha : a ∈ l)
    (hb : b ∈ l) : a = b ∨ R a b ∨ R b a := by
  induction l with
  | nil => simp at ha
  | cons x l ih =>
    rw [List.pairwise_cons] at h
    rcases List.mem_cons.1 ha with ha | ha <;> rcases List.mem_cons.1 hb with hb | hb
    · exact Or.inl (ha.trans hb.symm)
    · exact Or.inr (Or.inl (ha ▸ h.1 b hb))
    · exact Or.inr (Or.inr (hb ▸ h.1 a ha))
    · exact ih h.2 ha hb

theorem Str0.eq_of_id {n : Nat} {σ : State} (h : Str0 n σ) {a b : Item} (ha : a ∈ σ.queue) (hb : b ∈ σ.queue)
    (e : a.id = b.id) : a = b := by
  rcases pairwise_cases h.ids ha hb with h | h | h
  · exact h
  · omega
  · omega

theorem Str0.eq_of_held {n : Nat} {σ : State} (h : Str0 n σ) {a b : Item} (ha : a ∈ σ.queue) (hb : b ∈ σ.queue)
    {i : Nat} (h1 : a.heldBy i) (h2 : b.heldBy i) : a = b := by
  rcases pairwise_cases h.held ha hb with h | h | h
  · exact h
  · exact absurd ⟨h1, h2⟩ (h i)
  · exact absurd ⟨h2, h1⟩ (h i)

theorem Str0.eq_of_chosen {n : Nat} {σ : State} (h : Str0 n σ) {a b : Item} (ha : a ∈ σ.queue) (hb : b ∈ σ.queue)
    (h1 : a.status = .chosen) (h2 : b.status = .chosen) : a = b := by
  rcases pairwise_cases h.chosen ha hb with h | h | h
  · exact h
  · exact absurd ⟨h1, h2⟩ h
  · exact absurd ⟨h2, h1⟩ h

theorem item_some {n : Nat} {σ : State} (h : Str0 n σ) {e : Item} (he : e ∈ σ.queue) : σ.item e.id = some e := by
  unfold State.item
  cases hf : σ.queue.find? (fun x => x.id = e.id) with
  | none =>
    have := List.find?_eq_none.1 hf e he
    simp at this
  | some x =>
    have h1 := List.mem_of_find?_eq_some hf
    have h2 := List.find?_some hf
    simp only [decide_eq_true_eq] at h2
    rw [h.eq_of_id h1 he h2]

theorem mem_of_item {σ : State} {id : Nat} {e : Item} (h : σ.item id = some e) : e ∈ σ.queue ∧ e.id = id := by
  unfold State.item at h
  have h2 := List.find?_some h
  simp only [decide_eq_true_eq] at h2
  exact ⟨List.mem_of_find?_eq_some h, h2⟩

/-! ### Structure -/

/-- Choosing, as a change of one item. -/
theorem chooseFirst_split (q : List Item) (h : ∃ e ∈ q, e.status = .queued) :
    ∃ l1 e l2, q = l1 ++ e :: l2 ∧ e.status = .queued ∧ (∀ x ∈ l1, x.status ≠ .queued) ∧
      chooseFirst q = l1 ++ { e with status := .chosen } :: l2 := by
  induction q with
  | nil => simp at h
  | cons x q ih =>
    by_cases hx : x.status = .queued
    · exact ⟨[], x, q, rfl, hx, by simp, by simp [chooseFirst, hx]⟩
    · have : ∃ e ∈ q, e.status = .queued := by
        obtain ⟨e, he, hs⟩ := h
        rcases List.mem_cons.1 he with rfl | he
        · exact absurd hs hx
        · exact ⟨e, he, hs⟩
      obtain ⟨l1, e, l2, h1, h2, h3, h4⟩ := ih this
      refine ⟨x :: l1, e, l2, by rw [h1]; rfl, h2, ?_, by simp [chooseFirst, hx, h4]⟩
      intro y hy
      rcases List.mem_cons.1 hy with rfl | hy
      · exact hx
      · exact h3 y hy

theorem str_put {n : Nat} {σ : State} (h : Str0 n σ) (s k : Str) (b : Option Bytes) : Str0 n (put σ s k b) := by
  have hadd : Str0 n { σ with
      queue := σ.queue ++ [{ id := σ.next, set := s, key := k, val := b, status := .queued }]
      idx := fun k' => if k' = lazyKey s k then some σ.next else σ.idx k'
      next := σ.next + 1 } := by
    constructor
    · rw [List.pairwise_append]
      exact ⟨h.ids, by simp, by simpa using h.bound⟩
    · intro e he
      simp only [List.mem_append, List.mem_cons, List.not_mem_nil, or_false] at he
      rcases he with he | rfl
      · exact Nat.lt_succ_of_lt (h.bound e he)
      · exact Nat.lt_succ_self _
    · rw [List.pairwise_append]
      exact ⟨h.order, by simp, by simp [rank]⟩
    · rw [List.pairwise_append]
      exact ⟨h.chosen, by simp, by simp⟩
    · rw [List.pairwise_append]
      exact ⟨h.held, by simp, by simp [Item.heldBy]⟩
    · intro e he
      simp only [List.mem_append, List.mem_cons, List.not_mem_nil, or_false] at he
      rcases he with he | rfl
      · exact h.savers e he
      · simp [Item.heldBy]
  unfold put
  dsimp only
  split
  · split
    · exact hadd
    · rename_i e _ _
      have fid : ∀ x : Item, (if x.id = e.id then { x with val := b } else x).id = x.id := by intro x; split <;> rfl
      have fst : ∀ x : Item, (if x.id = e.id then { x with val := b } else x).status = x.status := by
        intro x; split <;> rfl
      have fheld : ∀ (x : Item) i, (if x.id = e.id then { x with val := b } else x).heldBy i ↔ x.heldBy i := by
        intro x i; unfold Item.heldBy; rw [fst]
      constructor
      · rw [List.pairwise_map]; simp only [fid]; exact h.ids
      · intro x hx
        obtain ⟨y, hy, rfl⟩ := List.mem_map.1 hx
        rw [fid]; exact h.bound y hy
      · rw [List.pairwise_map]; simp only [fst]; exact h.order
      · rw [List.pairwise_map]; simp only [fst]; exact h.chosen
      · rw [List.pairwise_map]; simp only [fheld]; exact h.held
      · intro x hx i hi
        obtain ⟨y, hy, rfl⟩ := List.mem_map.1 hx
        exact h.savers y hy i ((fheld y i).1 hi)
  · exact hadd

theorem str_choose {n : Nat} {σ : State} (h : Str0 n σ) (he : enabled n σ .choose) : Str0 n (step σ .choose) := by
  obtain ⟨hno, hex⟩ := he
  obtain ⟨l1, e, l2, h1, h2, h3, h4⟩ := chooseFirst_split σ.queue hex
  have hids := h.ids
  have hord := h.order
  have hch := h.chosen
  have hheld := h.held
  rw [h1, List.pairwise_append, List.pairwise_cons] at hids hord hch hheld
  have hm1 : ∀ x ∈ l1, x ∈ σ.queue := fun x hx => by rw [h1]; simp [hx]
  have hm2 : ∀ x ∈ l2, x ∈ σ.queue := fun x hx => by rw [h1]; simp [hx]
  have hme : e ∈ σ.queue := by rw [h1]; simp
  have hq2 : ∀ x ∈ l2, rank x.status = 0 := by
    intro x hx
    have := hord.2.1.1 x hx
    rw [h2] at this
    simpa [rank] using this
  have hq1 : ∀ x ∈ l1, rank x.status = 2 := by
    intro x hx
    have ha := h3 x hx
    have hb := hno x (hm1 x hx)
    cases hs : x.status <;> simp_all [rank]
  show Str0 n { σ with queue := chooseFirst σ.queue }
  constructor <;> dsimp only <;> rw [h4]
  · rw [List.pairwise_append, List.pairwise_cons]
    refine ⟨hids.1, ⟨hids.2.1.1, hids.2.1.2⟩, ?_⟩
    intro a ha b hb
    rcases List.mem_cons.1 hb with rfl | hb
    · exact hids.2.2 a ha e (by simp)
    · exact hids.2.2 a ha b (by simp [hb])
  · intro x hx
    simp only [List.mem_append, List.mem_cons] at hx
    rcases hx with hx | rfl | hx
    · exact h.bound x (hm1 x hx)
    · exact h.bound e hme
    · exact h.bound x (hm2 x hx)
  · rw [List.pairwise_append, List.pairwise_cons]
    refine ⟨hord.1, ⟨?_, hord.2.1.2⟩, ?_⟩
    · intro b hb; rw [hq2 b hb]; exact Nat.zero_le _
    · intro a ha b hb
      rw [hq1 a ha]
      rcases List.mem_cons.1 hb with rfl | hb
      · simp [rank]
      · rw [hq2 b hb]; omega
  · rw [List.pairwise_append, List.pairwise_cons]
    refine ⟨hch.1, ⟨?_, hch.2.1.2⟩, ?_⟩
    · intro b hb ⟨_, hc⟩; exact hno b (hm2 b hb) hc
    · intro a ha b hb ⟨hc, _⟩; exact hno a (hm1 a ha) hc
  · rw [List.pairwise_append, List.pairwise_cons]
    refine ⟨hheld.1, ⟨?_, hheld.2.1.2⟩, ?_⟩
    · intro b hb i ⟨hc, _⟩; simp [Item.heldBy] at hc
    · intro a ha b hb i ⟨hc, hd⟩
      rcases List.mem_cons.1 hb with rfl | hb
      · simp [Item.heldBy] at hd
      · exact hheld.2.2 a ha b (by simp [hb]) i ⟨hc, hd⟩
  · intro x hx i hi
    simp only [List.mem_append, List.mem_cons] at hx
    rcases hx with hx | rfl | hx
    · exact h.savers x (hm1 x hx) i hi
    · simp [Item.heldBy] at hi
    · exact h.savers x (hm2 x hx) i hi

theorem setStatus_id (o w : Status) (e : Item) : (setStatus o w e).id = e.id := by unfold setStatus; split <;> rfl
theorem setStatus_set (o w : Status) (e : Item) : (setStatus o w e).set = e.set := by unfold setStatus; split <;> rfl
theorem setStatus_key (o w : Status) (e : Item) : (setStatus o w e).key = e.key := by unfold setStatus; split <;> rfl
theorem setStatus_val (o w : Status) (e : Item) : (setStatus o w e).val = e.val := by unfold setStatus; split <;> rfl
theorem setStatus_status (o w : Status) (e : Item) :
    (setStatus o w e).status = if e.status = o then w else e.status := by unfold setStatus; split <;> rfl

/-- Changing the status of the one item with some status that is at least chosen to one that saver `i` holds. -/
theorem pairwise_mono {α : Type} {R S : α → α → Prop} {l : List α} (h : l.Pairwise R)
    (hi : ∀ a ∈ l, ∀ b ∈ l, R a b → S a b) : l.Pairwise S :=
  List.Pairwise.imp_of_mem (fun ha hb hr => hi _ ha _ hb hr) h

theorem str_take {n : Nat} {σ : State} (h : Str0 n σ) {i : Nat} (he : enabled n σ (.take i)) :
    Str0 n (step σ (.take i)) := by
  obtain ⟨hi, hfree, hex⟩ := he
  have hheld : ∀ x ∈ σ.queue, ∀ j, (setStatus .chosen (.taken i) x).heldBy j ↔
      (x.heldBy j ∨ (x.status = .chosen ∧ j = i)) := by
    intro x hx j
    unfold Item.heldBy
    rw [setStatus_status]
    split
    · rename_i hc
      constructor
      · rintro (h | h)
        · simp only [Status.taken.injEq] at h; exact Or.inr ⟨hc, h.symm⟩
        · simp at h
      · rintro ((h | h) | h)
        · simp [hc] at h
        · simp [hc] at h
        · rw [h.2]; exact Or.inl rfl
    · rename_i hc
      constructor
      · exact Or.inl
      · rintro (h | h)
        · exact h
        · exact absurd h.1 hc
  show Str0 n { σ with queue := σ.queue.map (setStatus .chosen (.taken i)) }
  constructor <;> dsimp only
  · rw [List.pairwise_map]; simp only [setStatus_id]; exact h.ids
  · intro x hx
    obtain ⟨y, hy, rfl⟩ := List.mem_map.1 hx
    rw [setStatus_id]; exact h.bound y hy
  · rw [List.pairwise_map]
    have hboth : σ.queue.Pairwise (fun a b => rank b.status ≤ rank a.status ∧ ¬(a.status = .chosen ∧ b.status = .chosen)) :=
      List.Pairwise.and h.order h.chosen
    refine pairwise_mono hboth ?_
    intro a _ b _ ⟨hr, hc⟩
    simp only [setStatus_status]
    by_cases ha : a.status = .chosen
    · rw [if_pos ha]
      show _ ≤ 2
      split
      · exact Nat.le_refl _
      · cases b.status <;> simp [rank]
    · rw [if_neg ha]
      by_cases hb : b.status = .chosen
      · rw [if_pos hb]
        rw [hb] at hr
        cases hs : a.status <;> simp_all [rank]
      · rw [if_neg hb]; exact hr
  · rw [List.pairwise_map]
    refine pairwise_mono h.chosen ?_
    intro a _ b _ _ ⟨hx, _⟩
    rw [setStatus_status] at hx
    split at hx
    · simp at hx
    · contradiction
  · rw [List.pairwise_map]
    refine pairwise_mono (List.Pairwise.and h.held h.chosen) ?_
    intro a ha b hb ⟨hr, hc⟩ j ⟨h1, h2⟩
    rw [hheld a ha] at h1
    rw [hheld b hb] at h2
    rcases h1 with h1 | h1 <;> rcases h2 with h2 | h2
    · exact hr j ⟨h1, h2⟩
    · rw [h2.2] at h1
      have := hfree a ha
      rcases h1 with h1 | h1
      · exact this.1 h1
      · exact this.2 h1
    · rw [h1.2] at h2
      have := hfree b hb
      rcases h2 with h2 | h2
      · exact this.1 h2
      · exact this.2 h2
    · exact hc ⟨h1.1, h2.1⟩
  · intro x hx j hj
    obtain ⟨y, hy, rfl⟩ := List.mem_map.1 hx
    rw [hheld y hy] at hj
    rcases hj with hj | hj
    · exact h.savers y hy j hj
    · rw [hj.2]; exact hi

theorem str_write {n : Nat} {σ : State} (h : Str0 n σ) (i : Nat) (ok : Bool) : Str0 n (step σ (.write i ok)) := by
  have hheld : ∀ (x : Item) j, (setStatus (.taken i) (.written i) x).heldBy j ↔ x.heldBy j := by
    intro x j
    unfold Item.heldBy
    rw [setStatus_status]
    split
    · rename_i hc
      rw [hc]
      constructor
      · rintro (h | h)
        · simp at h
        · simp only [Status.written.injEq] at h; rw [h]; exact Or.inl rfl
      · rintro (h | h)
        · simp only [Status.taken.injEq] at h; rw [h]; exact Or.inr rfl
        · simp at h
    · exact Iff.rfl
  have hrank : ∀ x : Item, rank (setStatus (.taken i) (.written i) x).status = rank x.status := by
    intro x
    rw [setStatus_status]
    split
    · rename_i hc; rw [hc]; rfl
    · rfl
  unfold step
  dsimp only
  split
  · exact h
  · constructor <;> dsimp only
    · rw [List.pairwise_map]; simp only [setStatus_id]; exact h.ids
    · intro x hx
      obtain ⟨y, hy, rfl⟩ := List.mem_map.1 hx
      rw [setStatus_id]; exact h.bound y hy
    · rw [List.pairwise_map]; simp only [hrank]; exact h.order
    · rw [List.pairwise_map]
      refine pairwise_mono h.chosen ?_
      intro a _ b _ hr ⟨hx, hy⟩
      rw [setStatus_status] at hx hy
      split at hx
      · simp at hx
      · split at hy
        · simp at hy
        · exact hr ⟨hx, hy⟩
    · rw [List.pairwise_map]; simp only [hheld]; exact h.held
    · intro x hx j hj
      obtain ⟨y, hy, rfl⟩ := List.mem_map.1 hx
      exact h.savers y hy j ((hheld y j).1 hj)

theorem str_remove {n : Nat} {σ : State} (h : Str0 n σ) (i : Nat) : Str0 n (step σ (.remove i)) := by
  unfold step
  dsimp only
  split
  · exact h
  · exact ⟨h.ids.filter _, fun e he => h.bound e (List.mem_filter.1 he).1, h.order.filter _, h.chosen.filter _,
      h.held.filter _, fun e he => h.savers e (List.mem_filter.1 he).1⟩

theorem str_step {n : Nat} {σ : State} {l : Label} (h : Str0 n σ) (he : enabled n σ l) : Str0 n (step σ l) := by
  cases l with
  | put s k b => exact str_put h s k b
  | choose => exact str_choose h he
  | take i => exact str_take h he
  | write i ok => exact str_write h i ok
  | remove i => exact str_remove h i

theorem str_start (n : Nat) (store : MaxSize.Store) : Str0 n (start store) := by
  constructor <;> simp [start]

theorem str_run {n : Nat} {store : MaxSize.Store} {ls : List Label} {σ : State} (h : Run n (start store) ls σ) :
    Str0 n σ := by
  induction h with
  | nil => exact str_start n store
  | snoc _ he ih => exact str_step ih he

/-! ### Contents -/

/-- Each saver writes after all older items of the same key were written. -/
def InOrder (σ : State) : Label → Prop
  | .write i ok => ok = true ∧ ∀ e ∈ σ.queue, e.status = .taken i → ∀ e' ∈ σ.queue, e'.lk = e.lk → e'.id < e.id →
      e'.isWritten
  | _ => True

structure Inv (P : Str → Str → Prop) (last : Str → Str → Option Bytes) (σ : State) : Prop where
  keys : ∀ e ∈ σ.queue, P e.set e.key
  idx_item : ∀ k id, σ.idx k = some id → ∃ e ∈ σ.queue, e.id = id ∧ e.lk = k
  idx_max : ∀ e ∈ σ.queue, ∀ id, σ.idx e.lk = some id → e.id ≤ id
  idx_none : ∀ e ∈ σ.queue, σ.idx e.lk = none → e.isWritten
  waiting : ∀ e ∈ σ.queue, e.status = .queued → σ.idx e.lk = some e.id
  value : ∀ e ∈ σ.queue, σ.idx e.lk = some e.id → e.val = last e.set e.key
  done : ∀ e ∈ σ.queue, σ.idx e.lk = some e.id → e.isWritten →
    (∀ e' ∈ σ.queue, e'.lk = e.lk → e'.isWritten) ∧ σ.store e.set e.key = e.val
  stored : ∀ s k, P s k → σ.idx (lazyKey s k) = none → σ.store s k = last s k

theorem inv_start (P : Str → Str → Prop) (store : MaxSize.Store) : Inv P store (start store) := by
  constructor <;> simp [start]

/-- Changing the status of items without writing. -/
theorem inv_map {P : Str → Str → Prop} {last : Str → Str → Option Bytes} {σ : State} (h : Inv P last σ)
    (f : Item → Item) (hid : ∀ e, (f e).id = e.id) (hset : ∀ e, (f e).set = e.set) (hkey : ∀ e, (f e).key = e.key)
    (hval : ∀ e, (f e).val = e.val) (hw : ∀ e, (f e).isWritten ↔ e.isWritten)
    (hq : ∀ e, (f e).status = .queued → e.status = .queued) : Inv P last { σ with queue := σ.queue.map f } := by
  have hlk : ∀ e, (f e).lk = e.lk := by intro e; unfold Item.lk; rw [hset, hkey]
  constructor <;> dsimp only
  · intro e he
    obtain ⟨y, hy, rfl⟩ := List.mem_map.1 he
    rw [hset, hkey]; exact h.keys y hy
  · intro k id hk
    obtain ⟨e, he, h1, h2⟩ := h.idx_item k id hk
    exact ⟨f e, List.mem_map.2 ⟨e, he, rfl⟩, by rw [hid]; exact h1, by rw [hlk]; exact h2⟩
  · intro e he id hi
    obtain ⟨y, hy, rfl⟩ := List.mem_map.1 he
    rw [hlk] at hi; rw [hid]; exact h.idx_max y hy id hi
  · intro e he hi
    obtain ⟨y, hy, rfl⟩ := List.mem_map.1 he
    rw [hlk] at hi; rw [hw]; exact h.idx_none y hy hi
  · intro e he hs
    obtain ⟨y, hy, rfl⟩ := List.mem_map.1 he
    rw [hlk, hid]; exact h.waiting y hy (hq y hs)
  · intro e he hi
    obtain ⟨y, hy, rfl⟩ := List.mem_map.1 he
    rw [hlk, hid] at hi
    rw [hval, hset, hkey]; exact h.value y hy hi
  · intro e he hi hwr
    obtain ⟨y, hy, rfl⟩ := List.mem_map.1 he
    rw [hlk, hid] at hi
    rw [hw] at hwr
    obtain ⟨h1, h2⟩ := h.done y hy hi hwr
    rw [hset, hkey, hval]
    refine ⟨?_, h2⟩
    intro e' he' hl
    obtain ⟨z, hz, rfl⟩ := List.mem_map.1 he'
    rw [hlk, hlk] at hl
    rw [hw]; exact h1 z hz hl
  · exact h.stored

theorem inv_choose {P : Str → Str → Prop} {last : Str → Str → Option Bytes} {n : Nat} {σ : State} (hs : Str0 n σ)
    (h : Inv P last σ) (he : enabled n σ .choose) : Inv P last (step σ .choose) := by
  obtain ⟨_, hex⟩ := he
  obtain ⟨l1, e, l2, h1, h2, h3, h4⟩ := chooseFirst_split σ.queue hex
  have hne : ∀ x ∈ l1 ++ l2, x.id ≠ e.id := by
    intro x hx hi
    have hids := hs.ids
    rw [h1, List.pairwise_append, List.pairwise_cons] at hids
    rcases List.mem_append.1 hx with hx | hx
    · have := hids.2.2 x hx e (by simp); omega
    · have := hids.2.1.1 x hx; omega
  have hmap : chooseFirst σ.queue =
      σ.queue.map (fun x => if x.id = e.id ∧ x.status = .queued then { x with status := .chosen } else x) := by
    rw [h4, h1, List.map_append, List.map_cons, if_pos ⟨rfl, h2⟩]
    congr 1
    · symm
      calc l1.map _ = l1.map id := List.map_congr_left (fun x hx => by
            rw [if_neg]; · rfl
            · intro hh; exact hne x (by simp [hx]) hh.1)
        _ = l1 := List.map_id _
    · congr 1
      symm
      calc l2.map _ = l2.map id := List.map_congr_left (fun x hx => by
            rw [if_neg]; · rfl
            · intro hh; exact hne x (by simp [hx]) hh.1)
        _ = l2 := List.map_id _
  show Inv P last { σ with queue := chooseFirst σ.queue }
  rw [hmap]
  apply inv_map h
  · intro x; split <;> rfl
  · intro x; split <;> rfl
  · intro x; split <;> rfl
  · intro x; split <;> rfl
  · intro x
    unfold Item.isWritten
    split
    · rename_i hx; simp [hx.2]
    · exact Iff.rfl
  · intro x
    split
    · simp
    · exact id

theorem inv_take {P : Str → Str → Prop} {last : Str → Str → Option Bytes} {σ : State}
    (h : Inv P last σ) (i : Nat) : Inv P last (step σ (.take i)) := by
  apply inv_map h
  · exact setStatus_id _ _
  · exact setStatus_set _ _
  · exact setStatus_key _ _
  · exact setStatus_val _ _
  · intro x
    unfold Item.isWritten
    rw [setStatus_status]
    split
    · rename_i hx; simp [hx]
    · exact Iff.rfl
  · intro x
    rw [setStatus_status]
    split
    · simp
    · exact id

theorem lk_inj {P : Str → Str → Prop} (hP : Distinct P) {s k s' k' : Str} (h : P s k) (h' : P s' k')
    (e : lazyKey s k = lazyKey s' k') : s = s' ∧ k = k' := hP s k s' k' h h' e

theorem inv_put {P : Str → Str → Prop} (hP : Distinct P) {last : Str → Str → Option Bytes} {n : Nat} {σ : State}
    (hs : Str0 n σ) (h : Inv P last σ) {s k : Str} (hk : P s k) (b : Option Bytes) :
    Inv P (fun s' k' => if s' = s ∧ k' = k then b else last s' k') (put σ s k b) := by
  -- adding an item
  have hadd : (∀ e ∈ σ.queue, e.lk = lazyKey s k → e.status ≠ .queued) →
      Inv P (fun s' k' => if s' = s ∧ k' = k then b else last s' k') { σ with
        queue := σ.queue ++ [{ id := σ.next, set := s, key := k, val := b, status := .queued }]
        idx := fun k' => if k' = lazyKey s k then some σ.next else σ.idx k'
        next := σ.next + 1 } := by
    intro hno
    have hmem : ∀ e, e ∈ σ.queue ++ [{ id := σ.next, set := s, key := k, val := b, status := .queued }] →
        e ∈ σ.queue ∨ e = { id := σ.next, set := s, key := k, val := b, status := .queued } := by
      intro e he
      simpa using he
    have hlast : ∀ e ∈ σ.queue, e.lk ≠ lazyKey s k → ¬(e.set = s ∧ e.key = k) := by
      rintro e _ hne ⟨h1, h2⟩
      exact hne (by unfold Item.lk; rw [h1, h2])
    constructor <;> dsimp only
    · intro e he
      rcases hmem e he with he | rfl
      · exact h.keys e he
      · exact hk
    · intro k' id hid
      split at hid
      · rename_i hk'
        simp only [Option.some.injEq] at hid
        exact ⟨{ id := σ.next, set := s, key := k, val := b, status := .queued }, by simp, hid, hk'.symm⟩
      · obtain ⟨e, he, h1, h2⟩ := h.idx_item k' id hid
        exact ⟨e, by simp [he], h1, h2⟩
    · intro e he id hid
      split at hid
      · simp only [Option.some.injEq] at hid
        subst hid
        rcases hmem e he with he | rfl
        · exact Nat.le_of_lt (hs.bound e he)
        · exact Nat.le_refl _
      · rename_i hne
        rcases hmem e he with he | rfl
        · exact h.idx_max e he id hid
        · exact absurd rfl hne
    · intro e he hid
      split at hid
      · simp at hid
      · rename_i hne
        rcases hmem e he with he | rfl
        · exact h.idx_none e he hid
        · exact absurd rfl hne
    · intro e he hst
      rcases hmem e he with he | rfl
      · have hne : e.lk ≠ lazyKey s k := fun hl => hno e he hl hst
        rw [if_neg hne]
        exact h.waiting e he hst
      · exact if_pos rfl
    · intro e he hid
      rcases hmem e he with he | rfl
      · by_cases hl : e.lk = lazyKey s k
        · rw [if_pos hl] at hid
          simp only [Option.some.injEq] at hid
          have := hs.bound e he
          omega
        · rw [if_neg hl] at hid
          rw [if_neg (hlast e he hl)]
          exact h.value e he hid
      · simp
    · intro e he hid hw
      rcases hmem e he with he | rfl
      · by_cases hl : e.lk = lazyKey s k
        · rw [if_pos hl] at hid
          simp only [Option.some.injEq] at hid
          have := hs.bound e he
          omega
        · rw [if_neg hl] at hid
          obtain ⟨h1, h2⟩ := h.done e he hid hw
          refine ⟨?_, h2⟩
          intro e' he' hl'
          rcases hmem e' he' with he' | rfl
          · exact h1 e' he' hl'
          · exact absurd hl'.symm hl
      · obtain ⟨i, hi⟩ := hw
        simp at hi
    · intro s' k' hp hid
      split at hid
      · simp at hid
      · rename_i hne
        have : ¬(s' = s ∧ k' = k) := by
          rintro ⟨rfl, rfl⟩
          exact hne rfl
        rw [if_neg this]
        exact h.stored s' k' hp hid
  unfold put
  dsimp only
  split
  · rename_i e0 hlook
    unfold State.lookup at hlook
    cases hi : σ.idx (lazyKey s k) with
    | none => rw [hi] at hlook; simp at hlook
    | some id0 =>
      rw [hi] at hlook
      obtain ⟨hm0, hid0⟩ := mem_of_item (σ := σ) (id := id0) (e := e0) (by simpa using hlook)
      obtain ⟨e1, hm1, hid1, hlk1⟩ := h.idx_item _ _ hi
      have he01 : e0 = e1 := hs.eq_of_id hm0 hm1 (by omega)
      subst he01
      split
      · rename_i hsav
        apply hadd
        intro e he hl hst
        have := h.waiting e he hst
        rw [hl, hi] at this
        simp only [Option.some.injEq] at this
        have : e = e0 := hs.eq_of_id he hm0 (by omega)
        subst this
        simp [Item.saving, hst] at hsav
      · rename_i hsav
        have hst0 : e0.status = .queued := by simpa [Item.saving] using hsav
        have hk0 : e0.set = s ∧ e0.key = k := lk_inj hP (h.keys e0 hm0) hk hlk1
        -- overwriting in place
        have fid : ∀ x : Item, (if x.id = e0.id then { x with val := b } else x).id = x.id := by
          intro x; split <;> rfl
        have fst : ∀ x : Item, (if x.id = e0.id then { x with val := b } else x).status = x.status := by
          intro x; split <;> rfl
        have fset : ∀ x : Item, (if x.id = e0.id then { x with val := b } else x).set = x.set := by
          intro x; split <;> rfl
        have fkey : ∀ x : Item, (if x.id = e0.id then { x with val := b } else x).key = x.key := by
          intro x; split <;> rfl
        have flk : ∀ x : Item, (if x.id = e0.id then { x with val := b } else x).lk = x.lk := by
          intro x; unfold Item.lk; rw [fset, fkey]
        have fw : ∀ x : Item, (if x.id = e0.id then { x with val := b } else x).isWritten ↔ x.isWritten := by
          intro x; unfold Item.isWritten; rw [fst]
        constructor <;> dsimp only
        · intro e he
          obtain ⟨y, hy, rfl⟩ := List.mem_map.1 he
          rw [fset, fkey]; exact h.keys y hy
        · intro k' id hk'
          obtain ⟨e, he, h1, h2⟩ := h.idx_item k' id hk'
          exact ⟨_, List.mem_map.2 ⟨e, he, rfl⟩, by rw [fid]; exact h1, by rw [flk]; exact h2⟩
        · intro e he id hid
          obtain ⟨y, hy, rfl⟩ := List.mem_map.1 he
          rw [flk] at hid; rw [fid]; exact h.idx_max y hy id hid
        · intro e he hid
          obtain ⟨y, hy, rfl⟩ := List.mem_map.1 he
          rw [flk] at hid; rw [fw]; exact h.idx_none y hy hid
        · intro e he hst
          obtain ⟨y, hy, rfl⟩ := List.mem_map.1 he
          rw [flk, fid]; exact h.waiting y hy (by rw [← fst y]; exact hst)
        · intro e he hid
          obtain ⟨y, hy, rfl⟩ := List.mem_map.1 he
          rw [flk, fid] at hid
          rw [fset, fkey]
          by_cases hy0 : y.id = e0.id
          · have := hs.eq_of_id hy hm0 hy0
            subst this
            rw [if_pos rfl, if_pos hk0]
          · rw [if_neg hy0, if_neg]
            · exact h.value y hy hid
            · rintro ⟨h1, h2⟩
              have hl : y.lk = lazyKey s k := by unfold Item.lk; rw [h1, h2]
              rw [hl, hi] at hid
              simp only [Option.some.injEq] at hid
              omega
        · intro e he hid hw
          obtain ⟨y, hy, rfl⟩ := List.mem_map.1 he
          rw [flk, fid] at hid
          rw [fw] at hw
          obtain ⟨h1, h2⟩ := h.done y hy hid hw
          have hy0 : y.id ≠ e0.id := by
            intro hy0
            have := hs.eq_of_id hy hm0 hy0
            subst this
            obtain ⟨j, hj⟩ := hw
            rw [hst0] at hj
            simp at hj
          refine ⟨?_, by rw [if_neg hy0]; exact h2⟩
          intro e' he' hl
          obtain ⟨z, hz, rfl⟩ := List.mem_map.1 he'
          rw [flk, flk] at hl
          rw [fw]; exact h1 z hz hl
        · intro s' k' hp hid
          have : ¬(s' = s ∧ k' = k) := by
            rintro ⟨rfl, rfl⟩
            rw [hi] at hid
            simp at hid
          rw [if_neg this]
          exact h.stored s' k' hp hid
  · rename_i hlook
    unfold State.lookup at hlook
    apply hadd
    intro e he hl hst
    have := h.waiting e he hst
    rw [hl] at this
    rw [this] at hlook
    have h2 := item_some hs he
    rw [show (some e.id).bind σ.item = σ.item e.id from rfl, h2] at hlook
    simp at hlook

theorem inv_write {P : Str → Str → Prop} {last : Str → Str → Option Bytes} {n : Nat} {σ : State}
    (hs : Str0 n σ) (h : Inv P last σ) (i : Nat) (ok : Bool) (ho : InOrder σ (.write i ok)) :
    Inv P last (step σ (.write i ok)) := by
  obtain ⟨rfl, ho⟩ := ho
  unfold step
  dsimp only
  split
  · exact h
  · rename_i e ht
    have hem : e ∈ σ.queue := List.mem_of_find?_eq_some ht
    have hest : e.status = .taken i := by simpa using List.find?_some ht
    have hlk : ∀ x, (setStatus (.taken i) (.written i) x).lk = x.lk := by
      intro x; unfold Item.lk; rw [setStatus_set, setStatus_key]
    have hwr : ∀ x ∈ σ.queue, (setStatus (.taken i) (.written i) x).isWritten ↔ (x.isWritten ∨ x = e) := by
      intro x hx
      unfold Item.isWritten
      rw [setStatus_status]
      split
      · rename_i hxs
        have : x = e := hs.eq_of_held hx hem (i := i) (Or.inl hxs) (Or.inl hest)
        simp [this]
      · rename_i hxs
        constructor
        · exact Or.inl
        · rintro (h | rfl)
          · exact h
          · exact absurd hest hxs
    have hnw : ¬e.isWritten := by rintro ⟨j, hj⟩; rw [hest] at hj; simp at hj
    have hst : ∀ s k, lazyKey s k ≠ e.lk → σ.store.put e.set e.key e.val s k = σ.store s k := by
      intro s k hne
      unfold MaxSize.Store.put
      rw [if_neg]
      rintro ⟨rfl, rfl⟩
      exact hne rfl
    have hidx : ∃ id, σ.idx e.lk = some id := by
      cases hi : σ.idx e.lk with
      | none => exact absurd (h.idx_none e hem hi) hnw
      | some id => exact ⟨id, rfl⟩
    simp only [if_true]
    constructor <;> dsimp only
    · intro x hx
      obtain ⟨y, hy, rfl⟩ := List.mem_map.1 hx
      rw [setStatus_set, setStatus_key]; exact h.keys y hy
    · intro k' id hk'
      obtain ⟨x, hx, h1, h2⟩ := h.idx_item k' id hk'
      exact ⟨_, List.mem_map.2 ⟨x, hx, rfl⟩, by rw [setStatus_id]; exact h1, by rw [hlk]; exact h2⟩
    · intro x hx id hid
      obtain ⟨y, hy, rfl⟩ := List.mem_map.1 hx
      rw [hlk] at hid; rw [setStatus_id]; exact h.idx_max y hy id hid
    · intro x hx hid
      obtain ⟨y, hy, rfl⟩ := List.mem_map.1 hx
      rw [hlk] at hid; rw [hwr y hy]; exact Or.inl (h.idx_none y hy hid)
    · intro x hx hq
      obtain ⟨y, hy, rfl⟩ := List.mem_map.1 hx
      rw [setStatus_status] at hq
      split at hq
      · simp at hq
      · rw [hlk, setStatus_id]; exact h.waiting y hy hq
    · intro x hx hid
      obtain ⟨y, hy, rfl⟩ := List.mem_map.1 hx
      rw [hlk, setStatus_id] at hid
      rw [setStatus_val, setStatus_set, setStatus_key]; exact h.value y hy hid
    · intro x hx hid hw
      obtain ⟨y, hy, rfl⟩ := List.mem_map.1 hx
      rw [hlk, setStatus_id] at hid
      rw [hwr y hy] at hw
      rw [setStatus_set, setStatus_key, setStatus_val, hlk]
      by_cases hye : y = e
      · subst hye
        constructor
        · intro x' hx' hl
          obtain ⟨z, hz, rfl⟩ := List.mem_map.1 hx'
          rw [hlk] at hl
          rw [hwr z hz]
          have hle := h.idx_max z hz y.id (by rw [hl]; exact hid)
          rcases Nat.lt_or_eq_of_le hle with hlt | heq
          · exact Or.inl (ho y hem hest z hz hl hlt)
          · exact Or.inr (hs.eq_of_id hz hem heq)
        · unfold MaxSize.Store.put
          rw [if_pos ⟨rfl, rfl⟩]
      · have hyw : y.isWritten := hw.resolve_right hye
        obtain ⟨h1, h2⟩ := h.done y hy hid hyw
        have hne : lazyKey y.set y.key ≠ e.lk := by
          intro hl
          exact hnw (h1 e hem hl.symm)
        constructor
        · intro x' hx' hl
          obtain ⟨z, hz, rfl⟩ := List.mem_map.1 hx'
          rw [hlk] at hl
          rw [hwr z hz]
          exact Or.inl (h1 z hz hl)
        · rw [hst _ _ hne]; exact h2
    · intro s k hp hid
      have hne : lazyKey s k ≠ e.lk := by
        intro hl
        obtain ⟨id, hi⟩ := hidx
        rw [hl, hi] at hid
        simp at hid
      rw [hst _ _ hne]
      exact h.stored s k hp hid

theorem inv_remove {P : Str → Str → Prop} (hP : Distinct P) {last : Str → Str → Option Bytes} {n : Nat} {σ : State}
    (hs : Str0 n σ) (h : Inv P last σ) (i : Nat) : Inv P last (step σ (.remove i)) := by
  unfold step
  dsimp only
  split
  · exact h
  · rename_i e ht
    have hem : e ∈ σ.queue := List.mem_of_find?_eq_some ht
    have hest : e.status = .written i := by simpa using List.find?_some ht
    have hew : e.isWritten := ⟨i, hest⟩
    have hmem : ∀ x, x ∈ σ.queue.filter (fun x => x.status ≠ .written i) ↔ x ∈ σ.queue ∧ x ≠ e := by
      intro x
      rw [List.mem_filter]
      constructor
      · rintro ⟨hx, hn⟩
        refine ⟨hx, ?_⟩
        rintro rfl
        simp [hest] at hn
      · rintro ⟨hx, hn⟩
        refine ⟨hx, ?_⟩
        simp only [decide_eq_true_eq, ne_eq]
        intro hxs
        exact hn (hs.eq_of_held hx hem (i := i) (Or.inr hxs) (Or.inr hest))
    have hkeep : ∀ k id, (if k = e.lk ∧ σ.idx k = some e.id then none else σ.idx k) = some id → σ.idx k = some id ∧
        id ≠ e.id := by
      intro k id hid
      split at hid
      · simp at hid
      · rename_i hne
        refine ⟨hid, ?_⟩
        rintro rfl
        obtain ⟨x, hx, h1, h2⟩ := h.idx_item k _ hid
        have := hs.eq_of_id hx hem h1
        subst this
        exact hne ⟨h2.symm, hid⟩
    constructor <;> dsimp only
    · intro x hx
      exact h.keys x ((hmem x).1 hx).1
    · intro k id hid
      obtain ⟨hid, hne⟩ := hkeep k id hid
      obtain ⟨x, hx, h1, h2⟩ := h.idx_item k id hid
      refine ⟨x, (hmem x).2 ⟨hx, ?_⟩, h1, h2⟩
      rintro rfl
      exact hne h1.symm
    · intro x hx id hid
      exact h.idx_max x ((hmem x).1 hx).1 id (hkeep _ _ hid).1
    · intro x hx hid
      have hxm := ((hmem x).1 hx).1
      split at hid
      · rename_i hc
        exact (h.done e hem (hc.1 ▸ hc.2) hew).1 x hxm hc.1
      · exact h.idx_none x hxm hid
    · intro x hx hq
      obtain ⟨hxm, hne⟩ := (hmem x).1 hx
      have := h.waiting x hxm hq
      rw [if_neg]
      · exact this
      · rintro ⟨_, h2⟩
        rw [this] at h2
        simp only [Option.some.injEq] at h2
        exact hne (hs.eq_of_id hxm hem h2)
    · intro x hx hid
      exact h.value x ((hmem x).1 hx).1 (hkeep _ _ hid).1
    · intro x hx hid hw
      obtain ⟨h1, h2⟩ := h.done x ((hmem x).1 hx).1 (hkeep _ _ hid).1 hw
      exact ⟨fun e' he' hl => h1 e' ((hmem e').1 he').1 hl, h2⟩
    · intro s k hp hid
      split at hid
      · rename_i hc
        obtain ⟨rfl, rfl⟩ := lk_inj hP hp (h.keys e hem) hc.1
        have hc2 : σ.idx e.lk = some e.id := hc.2
        rw [(h.done e hem hc2 hew).2]
        exact h.value e hem hc2
      · exact h.stored s k hp hid

end RankDB.LazySaver

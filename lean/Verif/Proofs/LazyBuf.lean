import Verif.Model.LazyBuf
/-
A buffer has one owner: a pool, an item of the queue, a call that is waiting, or a caller.
-/
namespace RankDB.LazyBuf
open Wire
open LazySaver (Label Status lazyKey)

/-! ### Counting -/

theorem countP_eraseIdx {α : Type} {p : α → Bool} : ∀ {l : List α} {j : Nat} {a : α}, l[j]? = some a →
    (l.eraseIdx j).countP p + (if p a = true then 1 else 0) = l.countP p
  | [], j, a, h => by simp at h
  | b :: l, 0, a, h => by
    simp only [List.getElem?_cons_zero, Option.some.injEq] at h
    subst h
    simp [List.countP_cons]
  | b :: l, j + 1, a, h => by
    simp only [List.getElem?_cons_succ] at h
    have := countP_eraseIdx (p := p) h
    simp only [List.eraseIdx_cons_succ, List.countP_cons]
    omega

theorem countP_eraseIdx_le {α : Type} {p : α → Bool} (l : List α) (j : Nat) : (l.eraseIdx j).countP p ≤ l.countP p :=
  List.Sublist.countP_le (List.eraseIdx_sublist l j)

theorem countP_set {α : Type} {p : α → Bool} : ∀ {l : List α} {j : Nat} {a b : α}, l[j]? = some a → p a = p b →
    (l.set j b).countP p = l.countP p
  | [], j, a, b, h, _ => by simp at h
  | c :: l, 0, a, b, h, hp => by
    simp only [List.getElem?_cons_zero, Option.some.injEq] at h
    subst h
    simp [List.countP_cons, hp]
  | c :: l, j + 1, a, b, h, hp => by
    simp only [List.getElem?_cons_succ] at h
    simp only [List.set_cons_succ, List.countP_cons, countP_set h hp]

def inPool (σ : State) (b : Nat) : Nat := σ.pool.countP (fun x => x.2 == b)
def inQueue (q : List BItem) (b : Nat) : Nat := q.countP (fun e => e.buf == some b)
def inPend (σ : State) (b : Nat) : Nat := σ.pend.countP (fun p => p.buf == b)
def inOut (σ : State) (b : Nat) : Nat := σ.out.countP (fun x => x.1 == b)

/-- How many owners a buffer has. -/
def owners (σ : State) (b : Nat) : Nat := inPool σ b + inQueue σ.queue b + inPend σ b + inOut σ b

/-- The capacities of the buffers in a pool. -/
structure Fits (p c : Nat) : Prop where
  le : p ≤ 10
  small : p < 10 → c = 2 ^ (10 + p)
  big : p = 10 → 2 ^ 20 ≤ c

structure Sound (σ : State) : Prop where
  one : ∀ b, owners σ b ≤ 1
  fresh : ∀ b, σ.fresh ≤ b → owners σ b = 0
  caps : ∀ b, b < σ.fresh → ∃ p, Fits p (σ.caps b)
  pools : ∀ x ∈ σ.pool, Fits x.1 (σ.caps x.2)
  pend : ∀ p ∈ σ.pend, σ.heap p.buf = p.given
  out : ∀ x ∈ σ.out, σ.heap x.1 = x.2
  ids : σ.queue.Pairwise (fun a b => a.id ≠ b.id)
  next : ∀ e ∈ σ.queue, e.id < σ.next

theorem log2_pow (k : Nat) : ∀ {n : Nat}, 2 ^ k < n → n ≤ 2 ^ (k + 1) → (n - 1).log2 = k := by
  intro n h1 h2
  have hp : 0 < 2 ^ k := Nat.two_pow_pos k
  have hn : n - 1 ≠ 0 := by omega
  exact (Nat.log2_eq_iff hn).2 ⟨by omega, by omega⟩

theorem len32_small {n : Nat} (h0 : n ≠ 0) (h : n < 2 ^ 32) : len32 n = n.log2 + 1 := by
  unfold len32
  rw [Nat.mod_eq_of_lt h, if_neg h0]

/-- Between 2^10 and 2^20. -/
theorem len32_range {n : Nat} (h1 : 2 ^ 10 < n) (h2 : n < 2 ^ 20) :
    ∃ k, 10 ≤ k ∧ k < 20 ∧ 2 ^ k < n ∧ n ≤ 2 ^ (k + 1) ∧ len32 (n - 1) = k + 1 := by
  have h0 : n - 1 ≠ 0 := by omega
  refine ⟨(n - 1).log2, ?_, ?_, ?_, ?_, len32_small h0 (by omega)⟩
  · exact (Nat.le_log2 h0).2 (by omega)
  · exact (Nat.log2_lt h0).2 (by omega)
  · have := Nat.log2_self_le h0
    omega
  · have := Nat.lt_log2_self (n := n - 1)
    omega

theorem poolFor_le (size : Nat) : poolFor size ≤ 10 := by
  unfold poolFor
  split
  · omega
  · split
    · omega
    · obtain ⟨k, -, h2, -, -, h5⟩ := len32_range (n := size) (by omega) (by omega)
      omega

theorem poolOf_le (cap : Nat) : poolOf cap ≤ 10 := by
  unfold poolOf
  split
  · omega
  · split
    · by_cases h : cap = 2 ^ 10
      · subst h; decide
      · obtain ⟨k, -, h2, -, -, h5⟩ := len32_range (n := cap) (by omega) (by omega)
        omega
    · omega

/-- A buffer from the pool is large enough. -/
theorem poolFor_fits {size c : Nat} (h : Fits (poolFor size) c) (hs : size ≤ 2 ^ 20) : size ≤ c := by
  have hle := poolFor_le size
  unfold poolFor at h
  split at h
  · have := h.small (by omega)
    omega
  · split at h
    · have := h.big rfl
      omega
    · obtain ⟨k, h1, h2, h3, h4, h5⟩ := len32_range (n := size) (by omega) (by omega)
      rw [h5] at h
      by_cases hk : k + 1 - 10 < 10
      · have := h.small hk
        rw [this, show 10 + (k + 1 - 10) = k + 1 by omega]
        exact h4
      · have := h.big (by omega)
        omega

theorem poolFor_new (size : Nat) : Fits (poolFor size) (2 ^ (10 + poolFor size)) :=
  ⟨poolFor_le size, fun _ => rfl, fun h => by rw [h]; decide⟩

/-- A buffer is put into the right pool. -/
theorem poolOf_fits {p c : Nat} (h : Fits p c) : Fits (poolOf c) c := by
  by_cases hp : p < 10
  · have hc := h.small hp
    have : poolOf c = p := by
      rw [hc]
      clear hc h
      have : p = 0 ∨ p = 1 ∨ p = 2 ∨ p = 3 ∨ p = 4 ∨ p = 5 ∨ p = 6 ∨ p = 7 ∨ p = 8 ∨ p = 9 := by omega
      rcases this with rfl | rfl | rfl | rfl | rfl | rfl | rfl | rfl | rfl | rfl <;> decide
    rw [this]
    exact h
  · have hc := h.big (by have := h.le; omega)
    have : poolOf c = 10 := if_pos hc
    rw [this]
    exact ⟨Nat.le_refl _, fun h => absurd h (by omega), fun _ => hc⟩

theorem Fits.pos {p c : Nat} (h : Fits p c) : c ≠ 0 := by
  by_cases hp : p < 10
  · rw [h.small hp]; exact Nat.ne_of_gt (Nat.two_pow_pos _)
  · have := h.big (by have := h.le; omega)
    have : 0 < 2 ^ 20 := by decide
    omega

/-! ### Taking a buffer -/

/-- A buffer that has no owner. -/
structure Taken (σ σ1 : State) (b : Nat) : Prop where
  sound : Sound σ1
  free : owners σ1 b = 0
  lt : b < σ1.fresh
  queue : σ1.queue = σ.queue
  idx : σ1.idx = σ.idx
  store : σ1.store = σ.store
  next : σ1.next = σ.next
  pend : σ1.pend = σ.pend
  out : σ1.out = σ.out

theorem owners_pos_queue {σ : State} {e : BItem} {b : Nat} (he : e ∈ σ.queue) (hb : e.buf = some b) : 0 < owners σ b := by
  have : 0 < inQueue σ.queue b := List.countP_pos_iff.2 ⟨e, he, by simp [hb]⟩
  unfold owners
  omega

theorem owners_pos_pend {σ : State} {p : Pend} (hp : p ∈ σ.pend) : 0 < owners σ p.buf := by
  have : 0 < inPend σ p.buf := List.countP_pos_iff.2 ⟨p, hp, by simp⟩
  unfold owners
  omega

theorem owners_pos_out {σ : State} {x : Nat × Bytes} (hx : x ∈ σ.out) : 0 < owners σ x.1 := by
  have : 0 < inOut σ x.1 := List.countP_pos_iff.2 ⟨x, hx, by simp⟩
  unfold owners
  omega

theorem owners_pos_pool {σ : State} {x : Nat × Nat} (hx : x ∈ σ.pool) : 0 < owners σ x.2 := by
  have : 0 < inPool σ x.2 := List.countP_pos_iff.2 ⟨x, hx, by simp⟩
  unfold owners
  omega

theorem owned_lt {σ : State} (h : Sound σ) {b : Nat} (hb : 0 < owners σ b) : b < σ.fresh := by
  apply Classical.byContradiction
  intro hn
  rw [h.fresh b (by omega)] at hb
  exact absurd hb (by omega)

/-- A new buffer. -/
theorem make_sound {σ : State} (h : Sound σ) {c : Nat} (hc : ∃ p, Fits p c) :
    Taken σ { σ with caps := fun b => if b = σ.fresh then c else σ.caps b, fresh := σ.fresh + 1 } σ.fresh := by
  refine ⟨⟨h.one, fun b hb => h.fresh b (Nat.le_of_succ_le hb), ?_, ?_, h.pend, h.out, h.ids, h.next⟩, h.fresh _ (Nat.le_refl _),
    Nat.lt_succ_self _, rfl, rfl, rfl, rfl, rfl, rfl⟩
  · intro b hb
    dsimp only at hb ⊢
    split
    · exact hc
    · exact h.caps b (by omega)
  · intro x hx
    have hlt := owned_lt h (owners_pos_pool hx)
    dsimp only
    rw [if_neg (by omega)]
    exact h.pools x hx

theorem take_sound {σ : State} (h : Sound σ) (size : Nat) (pick : Option Nat) :
    Taken σ (take σ size pick).2 (take σ size pick).1 ∧ (take σ size pick).2.heap = σ.heap ∧
      Fits (poolFor size) ((take σ size pick).2.caps (take σ size pick).1) := by
  have hmake := make_sound h ⟨_, poolFor_new size⟩
  have hfit : Fits (poolFor size) (if σ.fresh = σ.fresh then 2 ^ (10 + poolFor size) else σ.caps σ.fresh) := by
    rw [if_pos rfl]; exact poolFor_new size
  unfold take
  split
  · exact ⟨hmake, rfl, hfit⟩
  · rename_i j
    split
    · exact ⟨hmake, rfl, hfit⟩
    · rename_i p b hj
      split
      · rename_i hp
        have hm := List.mem_of_getElem? hj
        have hcount : ∀ c, inPool { σ with pool := σ.pool.eraseIdx j } c + (if b = c then 1 else 0) = inPool σ c := by
          intro c
          have := countP_eraseIdx (p := fun x : Nat × Nat => x.2 == c) hj
          simpa [inPool] using this
        have hown : ∀ c, owners { σ with pool := σ.pool.eraseIdx j } c + (if b = c then 1 else 0) = owners σ c := by
          intro c
          have := hcount c
          unfold owners
          show inPool { σ with pool := σ.pool.eraseIdx j } c + inQueue σ.queue c + inPend σ c + inOut σ c + _ = _
          omega
        show Taken σ { σ with pool := σ.pool.eraseIdx j } b ∧ σ.heap = σ.heap ∧ Fits (poolFor size) (σ.caps b)
        refine ⟨⟨⟨?_, ?_, h.caps, ?_, h.pend, h.out, h.ids, h.next⟩, ?_, ?_, rfl, rfl, rfl, rfl, rfl, rfl⟩, rfl, ?_⟩
        · intro c
          have := hown c
          have := h.one c
          omega
        · intro c hc
          have := hown c
          have := h.fresh c hc
          omega
        · exact fun x hx => h.pools x (List.mem_of_mem_eraseIdx hx)
        · have := hown b
          rw [if_pos rfl] at this
          have := h.one b
          omega
        · exact owned_lt h (owners_pos_pool hm)
        · have := h.pools _ hm
          rw [hp] at this
          exact this
      · exact ⟨hmake, rfl, hfit⟩

/-- Writing into a buffer without an owner. -/
theorem fill_sound {σ : State} (h : Sound σ) {b : Nat} (hb : owners σ b = 0) (x : Bytes) :
    Sound { σ with heap := fun c => if c = b then x else σ.heap c } := by
  refine ⟨h.one, h.fresh, h.caps, h.pools, ?_, ?_, h.ids, h.next⟩
  · intro p hp
    have : p.buf ≠ b := by
      intro he
      have : 0 < owners σ p.buf := owners_pos_pend (σ := σ) hp
      rw [he] at this
      omega
    dsimp only
    rw [if_neg this]
    exact h.pend p hp
  · intro y hy
    have : y.1 ≠ b := by
      intro he
      have : 0 < owners σ y.1 := owners_pos_out (σ := σ) hy
      rw [he] at this
      omega
    dsimp only
    rw [if_neg this]
    exact h.out y hy

theorem copyIn_sound {σ : State} (h : Sound σ) (x : Bytes) (pick : Option Nat) (extra : Nat) :
    Taken σ (copyIn σ x pick extra).2 (copyIn σ x pick extra).1 ∧ (copyIn σ x pick extra).2.heap (copyIn σ x pick extra).1 = x ∧
      ∀ c, 0 < owners (copyIn σ x pick extra).2 c → (copyIn σ x pick extra).2.heap c = σ.heap c := by
  obtain ⟨t, t2, t3⟩ := take_sound h x.length pick
  unfold copyIn
  generalize take σ x.length pick = r at t t2 t3
  obtain ⟨b, σ1⟩ := r
  dsimp only at t t2 t3 ⊢
  split
  · refine ⟨⟨fill_sound t.sound t.free x, t.free, t.lt, t.queue, t.idx, t.store, t.next, t.pend, t.out⟩, if_pos rfl, ?_⟩
    intro c hc
    have : c ≠ b := by
      intro he
      subst he
      have := t.free
      exact absurd hc (by show ¬ 0 < owners σ1 c; omega)
    show (if c = b then x else σ1.heap c) = _
    rw [if_neg this, t2]
  · rename_i hlt
    have hbig : 2 ^ 20 ≤ x.length + extra := by
      apply Classical.byContradiction
      intro hn
      have := poolFor_fits t3 (by omega)
      omega
    have hm := make_sound t.sound (c := x.length + extra) ⟨10, Nat.le_refl _, fun h => absurd h (by omega), fun _ => hbig⟩
    have hf := fill_sound hm.sound hm.free x
    refine ⟨⟨hf, hm.free, hm.lt, t.queue, t.idx, t.store, t.next, t.pend, t.out⟩, if_pos rfl, ?_⟩
    intro c hc
    have : c ≠ σ1.fresh := by
      intro he
      subst he
      have := t.sound.fresh σ1.fresh (Nat.le_refl _)
      exact absurd hc (by show ¬ 0 < owners σ1 σ1.fresh; omega)
    show (if c = σ1.fresh then x else σ1.heap c) = _
    rw [if_neg this, t2]

theorem values_copy {σ σ1 : State} {b : Nat} (t : Taken σ σ1 b) (hh : ∀ c, 0 < owners σ1 c → σ1.heap c = σ.heap c) :
    σ1.values = σ.values := by
  unfold State.values
  rw [t.idx, t.store, t.next]
  congr 1
  rw [← t.queue]
  apply List.map_congr_left
  intro e he
  cases hb : e.buf with
  | none => rfl
  | some c => simp [hh c (owners_pos_queue he hb)]

/-! ### The queue -/

theorem item_mem {σ : State} {id : Nat} {e : BItem} (h : σ.item id = some e) : e ∈ σ.queue ∧ e.id = id := by
  have := List.find?_some h
  exact ⟨List.mem_of_find?_eq_some h, by simpa using this⟩

theorem lookup_mem {σ : State} {s k : Str} {e : BItem} (h : σ.lookup s k = some e) : e ∈ σ.queue := by
  unfold State.lookup at h
  obtain ⟨id, -, h⟩ := Option.bind_eq_some_iff.1 h
  exact (item_mem h).1

/-- The item with its bytes. -/
def val (σ : State) (e : BItem) : LazySaver.Item := ⟨e.id, e.set, e.key, e.buf.map σ.heap, e.status⟩

theorem values_lookup (σ : State) (s k : Str) : σ.values.lookup s k = (σ.lookup s k).map (val σ) := by
  unfold LazySaver.State.lookup State.lookup
  show (σ.idx (lazyKey s k)).bind σ.values.item = _
  cases σ.idx (lazyKey s k) with
  | none => rfl
  | some id =>
    show (σ.queue.map (val σ)).find? _ = (σ.queue.find? _).map _
    rw [List.find?_map]
    rfl

theorem inQueue_update {q : List BItem} (hd : q.Pairwise (fun a b => a.id ≠ b.id)) {e : BItem} (he : e ∈ q) (buf : Option Nat) (b : Nat) :
    inQueue (q.map (fun x => if x.id = e.id then { x with buf := buf } else x)) b + (if e.buf = some b then 1 else 0) =
      inQueue q b + (if buf = some b then 1 else 0) := by
  induction q with
  | nil => cases he
  | cons a q ih =>
    rw [List.pairwise_cons] at hd
    unfold inQueue at ih ⊢
    simp only [List.map_cons, List.countP_cons]
    rcases List.mem_cons.1 he with rfl | he'
    · have : q.map (fun x => if x.id = e.id then { x with buf := buf } else x) = q := by
        conv => rhs; rw [← List.map_id q]
        apply List.map_congr_left
        intro x hx
        rw [if_neg fun h => hd.1 x hx h.symm]
        rfl
      rw [this]
      simp only [if_true, beq_iff_eq]
      omega
    · have hne : ¬ a.id = e.id := hd.1 e he'
      have := ih hd.2 he'
      simp only [if_neg hne]
      omega

theorem release_fields (σ : State) (buf : Option Nat) : (release σ buf).heap = σ.heap ∧ (release σ buf).caps = σ.caps ∧
    (release σ buf).fresh = σ.fresh ∧ (release σ buf).queue = σ.queue ∧ (release σ buf).idx = σ.idx ∧ (release σ buf).store = σ.store ∧
    (release σ buf).next = σ.next ∧ (release σ buf).pend = σ.pend ∧ (release σ buf).out = σ.out := by
  unfold release
  split
  · exact ⟨rfl, rfl, rfl, rfl, rfl, rfl, rfl, rfl, rfl⟩
  · split <;> exact ⟨rfl, rfl, rfl, rfl, rfl, rfl, rfl, rfl, rfl⟩

theorem release_pool (σ : State) (buf : Option Nat) (c : Nat) : inPool (release σ buf) c ≤ inPool σ c + (if buf = some c then 1 else 0) := by
  unfold release
  split
  · exact Nat.le_add_right _ _
  · rename_i b
    split
    · exact Nat.le_add_right _ _
    · unfold inPool
      simp only [List.countP_cons, beq_iff_eq, Option.some.injEq]
      omega

theorem release_pools {σ : State} (h : ∀ x ∈ σ.pool, Fits x.1 (σ.caps x.2)) {buf : Option Nat} (hb : ∀ b, buf = some b → ∃ p, Fits p (σ.caps b)) :
    ∀ x ∈ (release σ buf).pool, Fits x.1 (σ.caps x.2) := by
  unfold release
  split
  · exact h
  · rename_i b
    split
    · exact h
    · intro x hx
      rcases List.mem_cons.1 hx with rfl | hx
      · obtain ⟨p, hp⟩ := hb b rfl
        exact poolOf_fits hp
      · exact h x hx

/-- Putting an item with a buffer that has no other owner. -/
theorem put_sound {σ : State} (h : Sound σ) (s k : Str) {buf : Option Nat}
    (hb : ∀ b, buf = some b → owners σ b = 0 ∧ b < σ.fresh) :
    Sound (put σ s k buf) ∧ (put σ s k buf).heap = σ.heap ∧
      (put σ s k buf).values = LazySaver.put σ.values s k (buf.map σ.heap) := by
  have hadd : Sound { σ with
      queue := σ.queue ++ [{ id := σ.next, set := s, key := k, buf := buf, status := .queued }]
      idx := fun l => if l = lazyKey s k then some σ.next else σ.idx l
      next := σ.next + 1 } := by
    have hq : ∀ c, inQueue (σ.queue ++ [{ id := σ.next, set := s, key := k, buf := buf, status := .queued }]) c =
        inQueue σ.queue c + (if buf = some c then 1 else 0) := by
      intro c
      unfold inQueue
      rw [List.countP_append, List.countP_singleton]
      simp
    have hown : ∀ c, owners { σ with
        queue := σ.queue ++ [{ id := σ.next, set := s, key := k, buf := buf, status := .queued }]
        idx := fun l => if l = lazyKey s k then some σ.next else σ.idx l
        next := σ.next + 1 } c = owners σ c + (if buf = some c then 1 else 0) := by
      intro c
      unfold owners
      show inPool σ c + inQueue (σ.queue ++ _) c + inPend σ c + inOut σ c = _
      rw [hq]
      omega
    refine ⟨?_, ?_, h.caps, h.pools, h.pend, h.out, ?_, ?_⟩
    · intro c
      rw [hown]
      by_cases hc : buf = some c
      · rw [(hb c hc).1, if_pos hc]; omega
      · rw [if_neg hc]; exact h.one c
    · intro c hc
      rw [hown, h.fresh c hc]
      by_cases he : buf = some c
      · have := (hb c he).2
        have hc : σ.fresh ≤ c := hc
        omega
      · rw [if_neg he]
    · rw [List.pairwise_append]
      refine ⟨h.ids, List.pairwise_singleton _ _, ?_⟩
      intro a ha b hb2
      rw [List.mem_singleton.1 hb2]
      have := h.next a ha
      dsimp only
      omega
    · intro e he
      rcases List.mem_append.1 he with he | he
      · exact Nat.lt_succ_of_lt (h.next e he)
      · rw [List.mem_singleton.1 he]; exact Nat.lt_succ_self _
  have hvadd : ({ σ with
      queue := σ.queue ++ [{ id := σ.next, set := s, key := k, buf := buf, status := .queued }]
      idx := fun l => if l = lazyKey s k then some σ.next else σ.idx l
      next := σ.next + 1 } : State).values = { σ.values with
        queue := σ.values.queue ++ [{ id := σ.values.next, set := s, key := k, val := buf.map σ.heap, status := .queued }]
        idx := fun l => if l = lazyKey s k then some σ.values.next else σ.values.idx l
        next := σ.values.next + 1 } := by
    simp [State.values]
  unfold put LazySaver.put
  rw [values_lookup]
  cases hl : σ.lookup s k with
  | none => exact ⟨hadd, rfl, hvadd⟩
  | some e =>
    have he := lookup_mem hl
    dsimp only [Option.map_some]
    by_cases hst : e.status = .queued
    · have hs2 : (val σ e).saving = false := by simp [val, LazySaver.Item.saving, hst]
      rw [if_neg (by simpa using hst), hs2]
      obtain ⟨f1, f2, f3, f4, f5, f6, f7, f8, f9⟩ := release_fields σ e.buf
      have hown : ∀ c, owners { release σ e.buf with queue := σ.queue.map (fun x => if x.id = e.id then { x with buf := buf } else x) } c ≤
          owners σ c + (if buf = some c then 1 else 0) := by
        intro c
        have h1 := release_pool σ e.buf c
        have h2 := inQueue_update h.ids he buf c
        unfold owners inPend inOut
        dsimp only
        rw [f8, f9]
        show inPool (release σ e.buf) c + _ + _ + _ ≤ _
        omega
      refine ⟨⟨?_, ?_, ?_, ?_, ?_, ?_, ?_, ?_⟩, f1, ?_⟩
      · intro c
        have := hown c
        by_cases hc : buf = some c
        · rw [(hb c hc).1, if_pos hc] at this; exact this
        · rw [if_neg hc] at this; exact Nat.le_trans this (h.one c)
      · intro c hc
        dsimp only at hc
        rw [f3] at hc
        have := hown c
        rw [h.fresh c hc] at this
        by_cases he : buf = some c
        · have := (hb c he).2
          omega
        · rw [if_neg he] at this
          exact Nat.le_zero.1 this
      · dsimp only; rw [f2, f3]; exact h.caps
      · dsimp only
        rw [f2]
        exact release_pools h.pools fun b hb2 => h.caps b (owned_lt h (owners_pos_queue he hb2))
      · dsimp only; rw [f1, f8]; exact h.pend
      · dsimp only; rw [f1, f9]; exact h.out
      · dsimp only
        rw [List.pairwise_map]
        refine h.ids.imp fun {a b} hab => ?_
        split <;> split <;> exact hab
      · dsimp only
        rw [f7]
        intro x hx
        obtain ⟨y, hy, rfl⟩ := List.mem_map.1 hx
        split <;> exact h.next y hy
      · unfold State.values
        dsimp only
        rw [f1, f5, f6, f7]
        simp only [Bool.false_eq_true, if_false, List.map_map]
        congr 1
        apply List.map_congr_left
        intro x _
        simp only [Function.comp_apply, val]
        by_cases hx : x.id = e.id
        · rw [if_pos hx]
          exact (if_pos hx).symm
        · rw [if_neg hx]
          exact (if_neg hx).symm
    · have hs2 : (val σ e).saving = true := by simp [val, LazySaver.Item.saving, hst]
      rw [if_pos hst, hs2]
      exact ⟨hadd, rfl, hvadd⟩

theorem chooseFirst_map (σ : State) : ∀ q : List BItem, (chooseFirst q).map (val σ) = LazySaver.chooseFirst (q.map (val σ))
  | [] => rfl
  | e :: q => by
    unfold chooseFirst
    simp only [List.map_cons, LazySaver.chooseFirst]
    by_cases h : e.status = .queued
    · rw [if_pos h, if_pos (show (val σ e).status = .queued from h)]
      rfl
    · rw [if_neg h, if_neg (show ¬ (val σ e).status = .queued from h), List.map_cons, chooseFirst_map σ q]

/-- Changes of the status only. -/
structure SameItems (q q' : List BItem) : Prop where
  ids : q'.map (·.id) = q.map (·.id)
  bufs : q'.map (·.buf) = q.map (·.buf)

theorem chooseFirst_same : ∀ q : List BItem, SameItems q (chooseFirst q)
  | [] => ⟨rfl, rfl⟩
  | e :: q => by
    have := chooseFirst_same q
    unfold chooseFirst
    split
    · exact ⟨rfl, rfl⟩
    · exact ⟨by rw [List.map_cons, List.map_cons, this.ids], by rw [List.map_cons, List.map_cons, this.bufs]⟩

theorem setStatus_same (a b : Status) (q : List BItem) : SameItems q (q.map (setStatus a b)) := by
  constructor
  · rw [List.map_map]
    apply List.map_congr_left
    intro e _
    simp only [Function.comp_apply, setStatus]
    split <;> rfl
  · rw [List.map_map]
    apply List.map_congr_left
    intro e _
    simp only [Function.comp_apply, setStatus]
    split <;> rfl

theorem sound_same {σ : State} (h : Sound σ) {q : List BItem} (hq : SameItems σ.queue q) (st : MaxSize.Store) :
    Sound { σ with queue := q, store := st } := by
  have hc : ∀ b, inQueue q b = inQueue σ.queue b := by
    intro b
    have : ∀ l : List BItem, inQueue l b = (l.map (·.buf)).countP (· == some b) := by
      intro l
      rw [List.countP_map]
      rfl
    rw [this, this, hq.bufs]
  have hown : ∀ b, owners { σ with queue := q, store := st } b = owners σ b := by
    intro b
    unfold owners
    show inPool σ b + inQueue q b + inPend σ b + inOut σ b = _
    rw [hc]
  refine ⟨fun b => by rw [hown]; exact h.one b, fun b hb => by rw [hown]; exact h.fresh b hb, h.caps, h.pools, h.pend, h.out, ?_, ?_⟩
  · have h1 : (q.map (·.id)).Pairwise (fun a b => a ≠ b) := by
      rw [hq.ids, List.pairwise_map]; exact h.ids
    rw [List.pairwise_map] at h1
    exact h1
  · intro e he
    have : e.id ∈ σ.queue.map (·.id) := by rw [← hq.ids]; exact List.mem_map.2 ⟨e, he, rfl⟩
    obtain ⟨y, hy, hye⟩ := List.mem_map.1 this
    rw [← hye]
    exact h.next y hy

theorem setStatus_val (σ : State) (a b : Status) (q : List BItem) :
    (q.map (setStatus a b)).map (val σ) = (q.map (val σ)).map (LazySaver.setStatus a b) := by
  rw [List.map_map, List.map_map]
  apply List.map_congr_left
  intro e _
  simp only [Function.comp_apply, setStatus, LazySaver.setStatus]
  by_cases h : e.status = a
  · rw [if_pos h, if_pos (show (val σ e).status = a from h)]; rfl
  · rw [if_neg h, if_neg (show ¬ (val σ e).status = a from h)]

theorem values_queue (σ : State) : σ.values.queue = σ.queue.map (val σ) := rfl

theorem find_val (σ : State) (st : Status) : (σ.queue.map (val σ)).find? (fun e => e.status = st) =
    (σ.queue.find? (fun e => e.status = st)).map (val σ) := by
  rw [List.find?_map]
  rfl

theorem inQueue_filter {q : List BItem} {f : BItem → Bool} {e : BItem} (he : e ∈ q) (hf : f e = false) (b : Nat) :
    inQueue (q.filter f) b + (if e.buf = some b then 1 else 0) ≤ inQueue q b := by
  induction q with
  | nil => cases he
  | cons a q ih =>
    have hle : inQueue (q.filter f) b ≤ inQueue q b := List.Sublist.countP_le List.filter_sublist
    unfold inQueue at ih hle ⊢
    rcases List.mem_cons.1 he with rfl | he'
    · rw [List.filter_cons, hf]
      simp only [Bool.false_eq_true, if_false, List.countP_cons, beq_iff_eq]
      omega
    · have := ih he'
      rw [List.filter_cons]
      split
      · simp only [List.countP_cons]; omega
      · simp only [List.countP_cons]; omega

/-- Steps of the store with values. -/
inductive Follows (n : Nat) : LazySaver.State → List Label → LazySaver.State → Prop
  | none (τ : LazySaver.State) : Follows n τ [] τ
  | one {τ : LazySaver.State} {l : Label} (he : LazySaver.enabled n τ l) : Follows n τ [l] (LazySaver.step τ l)

theorem exec_sound {n : Nat} {σ σ' : State} {c : Call} {ls : List Label} (h : Sound σ) (he : exec n σ c = some (σ', ls)) :
    Sound σ' ∧ Follows n σ.values ls σ'.values := by
  cases c with
  | copy s k x pick extra =>
    obtain ⟨t, t2, t3⟩ := copyIn_sound h x pick extra
    have hv := values_copy t t3
    simp only [exec] at he
    generalize copyIn σ x pick extra = r at he t t2 t3 hv
    obtain ⟨b, σ1⟩ := r
    dsimp only at he t t2 t3 hv
    cases he
    refine ⟨⟨?_, ?_, t.sound.caps, t.sound.pools, ?_, t.sound.out, t.sound.ids, t.sound.next⟩, ?_⟩
    · intro c
      have h1 := t.sound.one c
      have h2 := t.free
      have : owners { σ1 with pend := σ1.pend ++ [⟨s, k, b, x⟩] } c = owners σ1 c + (if b = c then 1 else 0) := by
        unfold owners inPend
        simp only [List.countP_append, List.countP_singleton, beq_iff_eq]
        show inPool σ1 c + _ + _ + inOut σ1 c = _
        omega
      rw [this]
      by_cases hbc : b = c
      · subst hbc; rw [if_pos rfl]; omega
      · rw [if_neg hbc]; exact h1
    · intro c hc
      have h1 := t.sound.fresh c hc
      have h2 := t.lt
      have hc : σ1.fresh ≤ c := hc
      have : owners { σ1 with pend := σ1.pend ++ [⟨s, k, b, x⟩] } c = owners σ1 c + (if b = c then 1 else 0) := by
        unfold owners inPend
        simp only [List.countP_append, List.countP_singleton, beq_iff_eq]
        show inPool σ1 c + _ + _ + inOut σ1 c = _
        omega
      rw [this, h1, if_neg (by omega)]
    · intro p hp
      rcases List.mem_append.1 hp with hp | hp
      · exact t.sound.pend p hp
      · rw [List.mem_singleton.1 hp]; exact t2
    · have : ({ σ1 with pend := σ1.pend ++ [⟨s, k, b, x⟩] } : State).values = σ.values := hv
      rw [this]
      exact .none _
  | enter j =>
    simp only [exec] at he
    split at he
    · cases he
    · rename_i p hp
      cases he
      have hm := List.mem_of_getElem? hp
      have hown : ∀ c, owners { σ with pend := σ.pend.eraseIdx j } c + (if p.buf = c then 1 else 0) = owners σ c := by
        intro c
        have := countP_eraseIdx (p := fun x : Pend => x.buf == c) hp
        simp only [beq_iff_eq] at this
        unfold owners inPend
        show inPool σ c + inQueue σ.queue c + (σ.pend.eraseIdx j).countP _ + inOut σ c + _ = _
        omega
      have h1 : Sound { σ with pend := σ.pend.eraseIdx j } := by
        refine ⟨?_, ?_, h.caps, h.pools, fun q hq => h.pend q (List.mem_of_mem_eraseIdx hq), h.out, h.ids, h.next⟩
        · intro c
          have := hown c
          have := h.one c
          omega
        · intro c hc
          have := hown c
          have := h.fresh c hc
          omega
      have hb : ∀ b, some p.buf = some b → owners { σ with pend := σ.pend.eraseIdx j } b = 0 ∧ b < σ.fresh := by
        intro b hb
        cases hb
        have := hown p.buf
        have := h.one p.buf
        rw [if_pos rfl] at *
        exact ⟨by omega, owned_lt h (owners_pos_pend hm)⟩
      obtain ⟨p1, p2, p3⟩ := put_sound h1 p.set p.key hb
      refine ⟨p1, ?_⟩
      rw [p3, Option.map_some, show ({ σ with pend := σ.pend.eraseIdx j } : State).heap p.buf = p.given from h.pend p hm]
      exact .one trivial
  | delete s k =>
    simp only [exec] at he
    cases he
    obtain ⟨p1, p2, p3⟩ := put_sound h s k (buf := none) nofun
    refine ⟨p1, ?_⟩
    rw [p3]
    exact .one trivial
  | get s k pick extra =>
    simp only [exec] at he
    split at he
    · cases he; exact ⟨h, .none _⟩
    · rename_i e hl
      split at he
      · split at he
        · cases he; exact ⟨h, .none _⟩
        · rename_i b hb
          obtain ⟨t, t2, t3⟩ := copyIn_sound h (σ.heap b) pick extra
          have hv := values_copy t t3
          generalize copyIn σ (σ.heap b) pick extra = r at he t t2 t3 hv
          obtain ⟨d, σ1⟩ := r
          dsimp only at he t t2 t3 hv
          cases he
          have hown : ∀ c, owners { σ1 with out := σ1.out ++ [(d, σ.heap b)] } c = owners σ1 c + (if d = c then 1 else 0) := by
            intro c
            unfold owners inOut
            simp only [List.countP_append, List.countP_singleton, beq_iff_eq]
            show inPool σ1 c + _ + inPend σ1 c + _ = _
            omega
          refine ⟨⟨?_, ?_, t.sound.caps, t.sound.pools, t.sound.pend, ?_, t.sound.ids, t.sound.next⟩, ?_⟩
          · intro c
            have h1 := t.sound.one c
            have h2 := t.free
            rw [hown]
            by_cases hbc : d = c
            · subst hbc; rw [if_pos rfl]; omega
            · rw [if_neg hbc]; exact h1
          · intro c hc
            have h1 := t.sound.fresh c hc
            have h2 := t.lt
            have hc : σ1.fresh ≤ c := hc
            rw [hown, h1, if_neg (by omega)]
          · intro y hy
            rcases List.mem_append.1 hy with hy | hy
            · exact t.sound.out y hy
            · rw [List.mem_singleton.1 hy]; exact t2
          · have : ({ σ1 with out := σ1.out ++ [(d, σ.heap b)] } : State).values = σ.values := hv
            rw [this]
            exact .none _
      · cases he; exact ⟨h, .none _⟩
  | change j x =>
    simp only [exec] at he
    split at he
    · cases he
    · rename_i b y hj
      cases he
      have hm := List.mem_of_getElem? hj
      have h1 : inOut σ b = 1 ∧ inPool σ b = 0 ∧ inQueue σ.queue b = 0 ∧ inPend σ b = 0 := by
        have h2 : 0 < inOut σ b := List.countP_pos_iff.2 ⟨_, hm, by simp⟩
        have h3 := h.one b
        unfold owners at h3
        omega
      have hout : ∀ c, (σ.out.set j (b, x)).countP (fun x => x.1 == c) = inOut σ c := fun c => countP_set hj rfl
      have hown : ∀ c, owners { σ with heap := fun c => if c = b then x else σ.heap c, out := σ.out.set j (b, x) } c = owners σ c := by
        intro c
        unfold owners
        show inPool σ c + inQueue σ.queue c + inPend σ c + (σ.out.set j (b, x)).countP _ = _
        rw [hout]
      refine ⟨⟨fun c => by rw [hown]; exact h.one c, fun c hc => by rw [hown]; exact h.fresh c hc, h.caps, h.pools, ?_, ?_, h.ids, h.next⟩, ?_⟩
      · intro p hp
        have : p.buf ≠ b := by
          intro heq
          have : 0 < inPend σ p.buf := List.countP_pos_iff.2 ⟨p, hp, by simp⟩
          rw [heq] at this
          omega
        dsimp only
        rw [if_neg this]
        exact h.pend p hp
      · intro z hz
        dsimp only at hz ⊢
        obtain ⟨i, hi⟩ := List.mem_iff_getElem?.1 hz
        by_cases hij : j = i
        · subst hij
          rw [List.getElem?_set_self (List.getElem?_eq_some_iff.1 hj).1] at hi
          cases hi
          exact if_pos rfl
        · rw [List.getElem?_set_ne hij] at hi
          have : z.1 ≠ b := by
            intro heq
            have h2 : (σ.out.eraseIdx j).countP (fun x => x.1 == b) + 1 = inOut σ b := by
              have := countP_eraseIdx (p := fun x : Nat × Bytes => x.1 == b) hj
              simpa [inOut] using this
            have : z ∈ σ.out.eraseIdx j := by
              rw [List.mem_eraseIdx_iff_getElem?]
              exact ⟨i, fun h => hij h.symm, hi⟩
            have h3 : 0 < (σ.out.eraseIdx j).countP (fun x => x.1 == b) := List.countP_pos_iff.2 ⟨z, this, by simp [heq]⟩
            omega
          rw [if_neg this]
          exact h.out z (List.mem_of_getElem? hi)
      · have : ({ σ with heap := fun c => if c = b then x else σ.heap c, out := σ.out.set j (b, x) } : State).values = σ.values := by
          unfold State.values
          dsimp only
          congr 1
          apply List.map_congr_left
          intro e he
          cases hb : e.buf with
          | none => rfl
          | some c =>
            have : c ≠ b := by
              intro heq
              have : 0 < inQueue σ.queue c := List.countP_pos_iff.2 ⟨e, he, by simp [hb]⟩
              rw [heq] at this
              omega
            simp [this]
        rw [this]
        exact .none _
  | drop j =>
    simp only [exec] at he
    cases he
    have hown : ∀ c, owners { σ with pool := σ.pool.eraseIdx j } c ≤ owners σ c := by
      intro c
      have : (σ.pool.eraseIdx j).countP (fun x => x.2 == c) ≤ inPool σ c := countP_eraseIdx_le _ _
      unfold owners inPool
      unfold inPool at this
      show (σ.pool.eraseIdx j).countP (fun x => x.2 == c) + inQueue σ.queue c + inPend σ c + inOut σ c ≤ _
      omega
    refine ⟨⟨fun c => Nat.le_trans (hown c) (h.one c), fun c hc => ?_, h.caps, fun x hx => h.pools x (List.mem_of_mem_eraseIdx hx), h.pend, h.out, h.ids, h.next⟩, .none _⟩
    have := hown c
    have := h.fresh c hc
    omega
  | choose =>
    simp only [exec] at he
    split at he
    · rename_i hg
      cases he
      refine ⟨sound_same h (chooseFirst_same _) σ.store, ?_⟩
      have : ({ σ with queue := chooseFirst σ.queue } : State).values = LazySaver.step σ.values .choose := by
        unfold State.values LazySaver.step
        dsimp only
        congr 1
        exact chooseFirst_map σ σ.queue
      rw [this]
      refine .one ⟨?_, ?_⟩
      · intro e he
        obtain ⟨x, hx, rfl⟩ := List.mem_map.1 he
        exact hg.1 x hx
      · obtain ⟨x, hx, hs⟩ := hg.2
        exact ⟨val σ x, List.mem_map.2 ⟨x, hx, rfl⟩, hs⟩
    · cases he
  | take i =>
    simp only [exec] at he
    split at he
    · rename_i hg
      cases he
      refine ⟨sound_same h (setStatus_same _ _ _) σ.store, ?_⟩
      have : ({ σ with queue := σ.queue.map (setStatus .chosen (.taken i)) } : State).values = LazySaver.step σ.values (.take i) := by
        unfold State.values LazySaver.step
        dsimp only
        congr 1
        exact setStatus_val σ _ _ σ.queue
      rw [this]
      refine .one ⟨hg.1, ?_, ?_⟩
      · intro e he
        obtain ⟨x, hx, rfl⟩ := List.mem_map.1 he
        exact hg.2.1 x hx
      · obtain ⟨x, hx, hs⟩ := hg.2.2
        exact ⟨val σ x, List.mem_map.2 ⟨x, hx, rfl⟩, hs⟩
    · cases he
  | write i ok =>
    simp only [exec] at he
    split at he
    · cases he
    · rename_i e hf
      cases he
      refine ⟨sound_same h (setStatus_same _ _ _) _, ?_⟩
      have hv : σ.values.takenBy i = some (val σ e) := by
        show (σ.queue.map (val σ)).find? _ = _
        rw [find_val, hf]
        rfl
      have : ({ σ with
          queue := σ.queue.map (setStatus (.taken i) (.written i))
          store := if ok = true then σ.store.put e.set e.key (e.buf.map σ.heap) else σ.store } : State).values =
          LazySaver.step σ.values (.write i ok) := by
        simp only [LazySaver.step, hv]
        unfold State.values
        dsimp only
        congr 1
        exact setStatus_val σ _ _ σ.queue
      rw [this]
      refine .one ⟨val σ e, List.mem_map.2 ⟨e, List.mem_of_find?_eq_some hf, rfl⟩, ?_⟩
      have : e.status = .taken i := by
        have := List.find?_some hf
        simpa using this
      exact this
  | remove i =>
    simp only [exec] at he
    split at he
    · cases he
    · rename_i e hf
      cases he
      have hm := List.mem_of_find?_eq_some hf
      have hst : e.status = .written i := by
        have := List.find?_some hf
        simpa using this
      obtain ⟨f1, f2, f3, f4, f5, f6, f7, f8, f9⟩ := release_fields σ e.buf
      have hown : ∀ c, owners { release σ e.buf with
          queue := σ.queue.filter (fun x => x.status ≠ .written i)
          idx := fun k => if k = lazyKey e.set e.key ∧ σ.idx k = some e.id then none else σ.idx k } c ≤ owners σ c := by
        intro c
        have h1 := release_pool σ e.buf c
        have h2 := inQueue_filter (f := fun x => decide (x.status ≠ .written i)) hm (by simp [hst]) c
        unfold owners inPend inOut
        dsimp only
        rw [f8, f9]
        show inPool (release σ e.buf) c + _ + _ + _ ≤ _
        omega
      refine ⟨⟨fun c => Nat.le_trans (hown c) (h.one c), ?_, ?_, ?_, ?_, ?_, ?_, ?_⟩, ?_⟩
      · intro c hc
        dsimp only at hc
        rw [f3] at hc
        have := hown c
        rw [h.fresh c hc] at this
        exact Nat.le_zero.1 this
      · dsimp only; rw [f2, f3]; exact h.caps
      · dsimp only
        rw [f2]
        exact release_pools h.pools fun b hb2 => h.caps b (owned_lt h (owners_pos_queue hm hb2))
      · dsimp only; rw [f1, f8]; exact h.pend
      · dsimp only; rw [f1, f9]; exact h.out
      · exact h.ids.sublist List.filter_sublist
      · dsimp only
        rw [f7]
        exact fun x hx => h.next x (List.mem_filter.1 hx).1
      · have hv : σ.values.writtenBy i = some (val σ e) := by
          show (σ.queue.map (val σ)).find? _ = _
          rw [find_val, hf]
          rfl
        have : ({ release σ e.buf with
            queue := σ.queue.filter (fun x => x.status ≠ .written i)
            idx := fun k => if k = lazyKey e.set e.key ∧ σ.idx k = some e.id then none else σ.idx k } : State).values =
            LazySaver.step σ.values (.remove i) := by
          simp only [LazySaver.step, hv]
          unfold State.values
          dsimp only
          rw [f1, f6, f7]
          congr 1
          rw [List.filter_map]
          rfl
        rw [this]
        exact .one ⟨val σ e, List.mem_map.2 ⟨e, hm, rfl⟩, hst⟩

theorem start_sound (store : MaxSize.Store) : Sound (start store) :=
  ⟨fun _ => Nat.zero_le _, fun _ _ => rfl, nofun, nofun, nofun, nofun, .nil, nofun⟩

theorem execs_sound {n : Nat} {τ0 : LazySaver.State} : ∀ {cs : List Call} {σ σ' : State} {ls ls0 : List Label}, Sound σ →
    LazySaver.Run n τ0 ls0 σ.values → execs n σ cs = some (σ', ls) → Sound σ' ∧ LazySaver.Run n τ0 (ls0 ++ ls) σ'.values
  | [], σ, σ', ls, ls0, h, hr, he => by
    cases he
    rw [List.append_nil]
    exact ⟨h, hr⟩
  | c :: cs, σ, σ', ls, ls0, h, hr, he => by
    simp only [execs] at he
    split at he
    · cases he
    · rename_i σ1 l hc
      obtain ⟨⟨σ2, ls2⟩, hx, hy⟩ := Option.map_eq_some_iff.1 he
      cases hy
      obtain ⟨h1, h2⟩ := exec_sound h hc
      have hr1 : LazySaver.Run n τ0 (ls0 ++ l) σ1.values := by
        generalize σ.values = τ at h2 hr
        generalize σ1.values = τ1 at h2
        cases h2 with
        | none => rw [List.append_nil]; exact hr
        | one hen => exact .snoc hr hen
      have := execs_sound h1 hr1 hx
      rw [List.append_assoc] at this
      exact this

end RankDB.LazyBuf

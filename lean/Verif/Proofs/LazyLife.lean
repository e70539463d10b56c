import Verif.Spec.LazyLife
import Verif.Props.LazySaver
/-
Invariants of the goroutines of the write-behind store, for C94.
-/
namespace RankDB.LazyLife
open LazySaver (Status Item Str0)
open Spec.LazyLife

/-- The statuses of the items in the queue. -/
def sts (σ : LazySaver.State) : List Status := σ.queue.map (·.status)

theorem sts_length (σ : LazySaver.State) : (sts σ).length = σ.queue.length := List.length_map _

theorem mem_sts {σ : LazySaver.State} {x : Status} : x ∈ sts σ ↔ ∃ e ∈ σ.queue, e.status = x := List.mem_map

theorem waitingItem_iff {w : Life} : w.waitingItem = true ↔ Status.queued ∈ sts w.base := by
  unfold Life.waitingItem
  rw [List.any_eq_true, mem_sts]
  simp

theorem put_over {σ : LazySaver.State} {s k : Str} (b : Option Wire.Bytes) (h : overwrites σ s k = true) :
    sts (LazySaver.step σ (.put s k b)) = sts σ := by
  show sts (LazySaver.put σ s k b) = _
  unfold overwrites at h
  unfold LazySaver.put
  split at h
  · rename_i e he
    rw [he]
    dsimp only
    rw [if_neg (by simpa using h)]
    unfold sts
    dsimp only
    rw [List.map_map]
    apply List.map_congr_left
    intro x _
    show (if x.id = e.id then _ else _ : Item).status = _
    split <;> rfl
  · cases h

theorem put_add {σ : LazySaver.State} {s k : Str} (b : Option Wire.Bytes) (h : overwrites σ s k = false) :
    sts (LazySaver.step σ (.put s k b)) = sts σ ++ [.queued] := by
  show sts (LazySaver.put σ s k b) = _
  unfold overwrites at h
  unfold LazySaver.put
  dsimp only
  split at h
  · rename_i e he
    rw [he]
    dsimp only
    rw [if_pos (by simpa using h)]
    simp [sts]
  · rename_i he
    rw [he]
    simp [sts]

theorem choose_sts {σ : LazySaver.State} (h : Status.queued ∈ sts σ) : ∃ l1 l2, sts σ = l1 ++ .queued :: l2 ∧ .queued ∉ l1 ∧
    sts (LazySaver.step σ .choose) = l1 ++ .chosen :: l2 := by
  obtain ⟨l1, e, l2, h1, h2, h3, h4⟩ := LazySaver.chooseFirst_split σ.queue (mem_sts.1 h)
  refine ⟨l1.map (·.status), l2.map (·.status), ?_, ?_, ?_⟩
  · unfold sts; rw [h1]; simp [h2]
  · intro hm
    obtain ⟨x, hx, hxs⟩ := List.mem_map.1 hm
    exact h3 x hx hxs
  · show (LazySaver.chooseFirst σ.queue).map _ = _
    rw [h4]
    simp

theorem setStatus_sts (q : List Item) (a b : Status) :
    (q.map (LazySaver.setStatus a b)).map (·.status) = (q.map (·.status)).map fun s => if s = a then b else s := by
  rw [List.map_map, List.map_map]
  apply List.map_congr_left
  intro e _
  exact LazySaver.setStatus_status a b e

theorem take_sts (σ : LazySaver.State) (i : Nat) :
    sts (LazySaver.step σ (.take i)) = (sts σ).map fun s => if s = .chosen then .taken i else s := setStatus_sts _ _ _

theorem write_sts (σ : LazySaver.State) (i : Nat) (ok : Bool) :
    sts (LazySaver.step σ (.write i ok)) = (sts σ).map fun s => if s = .taken i then .written i else s := by
  unfold LazySaver.step
  dsimp only
  split
  · rename_i hn
    have h : ∀ s ∈ sts σ, s ≠ .taken i := by
      intro s hs he
      obtain ⟨e, he1, he2⟩ := mem_sts.1 hs
      have := List.find?_eq_none.1 hn e he1
      simp [he2, he] at this
    conv => lhs; rw [← List.map_id (sts σ)]
    apply List.map_congr_left
    intro s hs
    rw [if_neg (h s hs)]
    rfl
  · exact setStatus_sts _ _ _

theorem remove_sts (σ : LazySaver.State) (i : Nat) :
    sts (LazySaver.step σ (.remove i)) = (sts σ).filter fun s => decide (s ≠ .written i) := by
  unfold LazySaver.step
  dsimp only
  split
  · rename_i hn
    symm
    rw [List.filter_eq_self]
    intro s hs
    obtain ⟨e, he1, he2⟩ := mem_sts.1 hs
    have := List.find?_eq_none.1 hn e he1
    rw [he2] at this
    simpa using this
  · unfold sts
    dsimp only
    rw [List.filter_map]
    rfl

/-- A saver has one item at most. -/
theorem one_written {n : Nat} {σ : LazySaver.State} (h : Str0 n σ) {i : Nat} (hm : Status.written i ∈ sts σ) :
    ((sts σ).filter fun s => decide (s ≠ .written i)).length + 1 = (sts σ).length := by
  have hp : (sts σ).Pairwise fun a b => ¬ (a = .written i ∧ b = .written i) := by
    unfold sts
    rw [List.pairwise_map]
    refine h.held.imp ?_
    intro a b hab ⟨h1, h2⟩
    exact hab i ⟨.inr h1, .inr h2⟩
  generalize sts σ = l at hm hp
  clear h
  induction l with
  | nil => cases hm
  | cons x l ih =>
    rw [List.pairwise_cons] at hp
    by_cases hx : x = .written i
    · rw [List.filter_cons_of_neg (by simpa using hx), List.filter_eq_self.2]
      · rfl
      · intro a ha
        have := hp.1 a ha
        simp only [hx, true_and] at this
        simpa using this
    · rw [List.filter_cons_of_pos (by simpa using hx)]
      have := ih (by
        rcases List.mem_cons.1 hm with h | h
        · exact absurd h.symm hx
        · exact h) hp.2
      simp only [List.length_cons]
      omega

/-! ### Invariant -/

/-- A call that has added an item and not yet taken its token. -/
def pending : Caller → Bool
  | .added | .waiting => true
  | _ => false

/-- Tokens taken by `Shutdown`. -/
def drained (o : Opts) : Stop → Nat
  | .before | .flagged => 0
  | .draining k => o.maxItems - k
  | .joined | .finished => o.maxItems

structure LInv (o : Opts) (w : Life) : Prop where
  str : Str0 o.savers w.base
  paidNodup : w.paid.Nodup
  paidOf : ∀ i ∈ w.paid, Status.written i ∈ sts w.base
  count : w.tokens + (sts w.base).length + drained o w.stop = o.maxItems + w.callers.countP pending + w.paid.length
  drain : ∀ k, w.stop = .draining k → k ≤ o.maxItems
  send : (∃ f n, w.handler = .send f n) ↔ Status.chosen ∈ sts w.base
  wait : w.handler = .wait → Status.queued ∈ sts w.base → w.timer = true ∨ w.signal = true ∨ Caller.added ∈ w.callers
  exited : w.handler = .exited → w.stop ≠ .before
  joined : w.stop = .joined ∨ w.stop = .finished → w.handler = .exited

/-- What is true without late calls. -/
structure Quiet (w : Life) : Prop where
  calls : w.stop ≠ .before → ∀ s k b, Caller.checked s k b ∉ w.callers
  exited : w.handler = .exited → Status.queued ∉ sts w.base
  finished : w.stop = .finished → w.base.queue = []

theorem linv_start {o : Opts} {store : MaxSize.Store} {calls : List (Str × Str × Option Wire.Bytes)} :
    LInv o (start o store calls) where
  str := LazySaver.str_start _ _
  paidNodup := .nil
  paidOf := by intro i hi; cases hi
  count := by
    have : ((calls.map fun c => Caller.idle c.1 c.2.1 c.2.2)).countP pending = 0 := by
      rw [List.countP_eq_zero]
      intro c hc
      obtain ⟨x, -, rfl⟩ := List.mem_map.1 hc
      simp [pending]
    show o.maxItems + 0 + 0 = o.maxItems + ((calls.map fun c => Caller.idle c.1 c.2.1 c.2.2)).countP pending + 0
    omega
  drain := by intro k h; cases h
  send := by
    constructor
    · rintro ⟨f, n, h⟩; cases h
    · intro h; cases h
  wait := by intro h; cases h
  exited := by intro h; cases h
  joined := by rintro (h | h) <;> cases h

theorem quiet_start {o : Opts} {store : MaxSize.Store} {calls : List (Str × Str × Option Wire.Bytes)} :
    Quiet (start o store calls) where
  calls := by intro h; exact absurd rfl h
  exited := by intro h; cases h
  finished := by intro h; cases h

theorem countP_set {l : List Caller} {i : Nat} {a b : Caller} (h : l[i]? = some a) :
    (l.set i b).countP pending + (if pending a then 1 else 0) = l.countP pending + (if pending b then 1 else 0) := by
  induction l generalizing i with
  | nil => simp at h
  | cons x l ih =>
    cases i with
    | zero =>
      simp only [List.getElem?_cons_zero, Option.some.injEq] at h
      subst h
      simp only [List.set_cons_zero, List.countP_cons]
      omega
    | succ i =>
      simp only [List.getElem?_cons_succ] at h
      have := ih h
      simp only [List.set_cons_succ, List.countP_cons]
      omega

theorem mem_set_of {l : List Caller} {i : Nat} {a b c : Caller} (h : l[i]? = some a) (hc : c ∈ l) (hne : c ≠ a) : c ∈ l.set i b := by
  obtain ⟨j, hj⟩ := List.mem_iff_getElem?.1 hc
  have hij : i ≠ j := by rintro rfl; rw [h] at hj; cases hj; exact hne rfl
  exact List.mem_of_getElem? (by rw [List.getElem?_set_ne hij]; exact hj : (l.set i b)[j]? = some c)

theorem self_mem_set {l : List Caller} {i : Nat} {a b : Caller} (h : l[i]? = some a) : b ∈ l.set i b := by
  have hi := (List.getElem?_eq_some_iff.1 h).1
  exact List.mem_of_getElem? (List.getElem?_set_self hi)

theorem not_pending_mem {P : Prop} {l : List Caller} {i : Nat} {a : Caller} {s k : Str} {b : Option Wire.Bytes}
    (h : ∀ s k b, Caller.checked s k b ∉ l) (ha : ∀ s k b, a ≠ .checked s k b) : Caller.checked s k b ∈ l.set i a → P := by
  intro hm
  rcases List.mem_or_eq_of_mem_set hm with h' | h'
  · exact absurd h' (h s k b)
  · exact absurd h'.symm (ha s k b)

theorem mem_map_if {l : List Status} {a b c : Status} (hcb : c ≠ b) : c ∈ (l.map fun s => if s = a then b else s) ↔ c ∈ l ∧ c ≠ a := by
  rw [List.mem_map]
  constructor
  · rintro ⟨x, hx, h⟩
    split at h
    · exact absurd h.symm hcb
    · rename_i hne; subst h; exact ⟨hx, hne⟩
  · rintro ⟨h, hne⟩
    exact ⟨c, h, if_neg hne⟩

theorem enabled_put {n : Nat} {σ : LazySaver.State} {s k : Str} {b : Option Wire.Bytes} : LazySaver.enabled n σ (.put s k b) := trivial

theorem enabled_choose {n : Nat} {σ : LazySaver.State} (h1 : Status.chosen ∉ sts σ) (h2 : Status.queued ∈ sts σ) :
    LazySaver.enabled n σ .choose :=
  ⟨fun e he hs => h1 (mem_sts.2 ⟨e, he, hs⟩), mem_sts.1 h2⟩

theorem idleSaver_iff {w : Life} {i : Nat} : w.idleSaver i = true ↔ Status.taken i ∉ sts w.base ∧ Status.written i ∉ sts w.base := by
  unfold Life.idleSaver
  simp only [List.all_eq_true, decide_eq_true_eq, mem_sts]
  constructor
  · intro h
    exact ⟨fun ⟨e, he, hs⟩ => (h e he).1 hs, fun ⟨e, he, hs⟩ => (h e he).2 hs⟩
  · rintro ⟨h1, h2⟩ e he
    exact ⟨fun hs => h1 ⟨e, he, hs⟩, fun hs => h2 ⟨e, he, hs⟩⟩

theorem any_sts {σ : LazySaver.State} {x : Status} : (σ.queue.any fun e => decide (e.status = x)) = true ↔ x ∈ sts σ := by
  rw [List.any_eq_true, mem_sts]
  simp

theorem enabled_take {o : Opts} {w : Life} {i : Nat} (h1 : i < o.savers) (h2 : w.idleSaver i = true) (h3 : Status.chosen ∈ sts w.base) :
    LazySaver.enabled o.savers w.base (.take i) := by
  refine ⟨h1, ?_, mem_sts.1 h3⟩
  rw [idleSaver_iff] at h2
  exact fun e he => ⟨fun hs => h2.1 (mem_sts.2 ⟨e, he, hs⟩), fun hs => h2.2 (mem_sts.2 ⟨e, he, hs⟩)⟩

/-- A step that leaves the queue, the tokens and the shutdown alone and changes one call. -/
theorem linv_call {o : Opts} {w : Life} (h : LInv o w) {i : Nat} {a b : Caller} (ha : w.callers[i]? = some a) (hp : pending a = pending b)
    {sg : Bool} (hsg : w.signal = true → sg = true) (hadd : a = .added → sg = true) :
    LInv o { w with signal := sg, callers := w.callers.set i b } where
  str := h.str
  paidNodup := h.paidNodup
  paidOf := h.paidOf
  count := by
    have := h.count
    have h2 := countP_set (b := b) ha
    rw [hp] at h2
    dsimp only
    omega
  drain := h.drain
  send := h.send
  wait := by
    intro h1 h2
    rcases h.wait h1 h2 with h | h | h
    · exact .inl h
    · exact .inr (.inl (hsg h))
    · by_cases hs : sg = true
      · exact .inr (.inl hs)
      · refine .inr (.inr (mem_set_of ha h ?_))
        intro hc
        exact hs (hadd hc.symm)
  exited := h.exited
  joined := h.joined

theorem linv_put {o : Opts} {w : Life} (h : LInv o w) {i : Nat} {s k : Str} {b : Option Wire.Bytes}
    (ha : w.callers[i]? = some (.checked s k b)) :
    LInv o { w with base := LazySaver.step w.base (.put s k b)
                    callers := w.callers.set i (if overwrites w.base s k then .done else .added) } := by
  have hc := countP_set (b := if overwrites w.base s k then .done else .added) ha
  cases ho : overwrites w.base s k
  · have hs := put_add b ho
    simp only [ho, Bool.false_eq_true, if_false] at hc ⊢
    simp only [pending, if_true, Bool.false_eq_true, if_false] at hc
    refine ⟨LazySaver.str_step h.str enabled_put, h.paidNodup, ?_, ?_, h.drain, ?_, ?_, h.exited, h.joined⟩
    · intro i hi; rw [hs]; exact List.mem_append_left _ (h.paidOf i hi)
    · have := h.count
      dsimp only
      rw [hs, List.length_append, List.length_singleton]
      omega
    · dsimp only
      rw [hs, h.send]
      simp
    · intro _ _
      exact .inr (.inr (self_mem_set ha))
  · have hs := put_over b ho
    simp only [ho, if_true] at hc ⊢
    simp only [pending, Bool.false_eq_true, if_false] at hc
    refine ⟨LazySaver.str_step h.str enabled_put, h.paidNodup, ?_, ?_, h.drain, ?_, ?_, h.exited, h.joined⟩
    · intro i hi; rw [hs]; exact h.paidOf i hi
    · have := h.count
      dsimp only
      rw [hs]
      omega
    · dsimp only
      rw [hs]; exact h.send
    · dsimp only
      rw [hs]
      intro h1 h2
      rcases h.wait h1 h2 with h' | h' | h'
      · exact .inl h'
      · exact .inr (.inl h')
      · exact .inr (.inr (mem_set_of ha h' (by intro hc; cases hc)))

theorem linv_token {o : Opts} {w : Life} (h : LInv o w) {i : Nat} (ha : w.callers[i]? = some .waiting) (ht : 0 < w.tokens) :
    LInv o { w with tokens := w.tokens - 1, callers := w.callers.set i .done } where
  str := h.str
  paidNodup := h.paidNodup
  paidOf := h.paidOf
  count := by
    have := h.count
    have h2 := countP_set (b := .done) ha
    simp only [pending, if_true, Bool.false_eq_true, if_false] at h2
    dsimp only
    omega
  drain := h.drain
  send := h.send
  wait := by
    intro h1 h2
    rcases h.wait h1 h2 with h | h | h
    · exact .inl h
    · exact .inr (.inl h)
    · exact .inr (.inr (mem_set_of ha h (by intro hc; cases hc)))
  exited := h.exited
  joined := h.joined

/-- The handler moves without touching anything but its timer and its signal. -/
theorem linv_handler {o : Opts} {w : Life} (h : LInv o w) {hd : Handler} {t sg : Bool} (h0 : ∀ f n, w.handler ≠ .send f n)
    (h1 : ∀ f n, hd ≠ .send f n) (h2 : hd = .wait → (Status.queued ∈ sts w.base → t = true)) (h3 : w.handler ≠ .exited)
    (h4 : hd = .exited → w.stop ≠ .before) : LInv o { w with handler := hd, timer := t, signal := sg } where
  str := h.str
  paidNodup := h.paidNodup
  paidOf := h.paidOf
  count := h.count
  drain := h.drain
  send := by
    constructor
    · rintro ⟨f, n, hh⟩; exact absurd hh (h1 f n)
    · intro hh
      obtain ⟨f, n, hh⟩ := h.send.2 hh
      exact absurd hh (h0 f n)
  wait := fun hh hq => .inl (h2 hh hq)
  exited := h4
  joined := fun hh => absurd (h.joined hh) h3

theorem linv_choose {o : Opts} {w : Life} (h : LInv o w) {f : Bool} {n : Nat} (h0 : w.handler = .choose f) (hq : Status.queued ∈ sts w.base) :
    LInv o { w with base := LazySaver.step w.base .choose, handler := .send f n } := by
  have hnc : Status.chosen ∉ sts w.base := by
    rw [← h.send]
    rintro ⟨f', n', h'⟩
    rw [h0] at h'; cases h'
  obtain ⟨l1, l2, e1, -, e2⟩ := choose_sts hq
  refine ⟨LazySaver.str_step h.str (enabled_choose hnc hq), h.paidNodup, ?_, ?_, h.drain, ?_, ?_, ?_, ?_⟩
  · intro i hi
    have := h.paidOf i hi
    rw [e1] at this
    dsimp only
    rw [e2]
    simp only [List.mem_append, List.mem_cons, reduceCtorEq, false_or] at this ⊢
    exact this
  · have := h.count
    rw [e1] at this
    dsimp only
    rw [e2]
    simp only [List.length_append, List.length_cons] at this ⊢
    omega
  · dsimp only
    rw [e2]
    exact ⟨fun _ => by simp, fun _ => ⟨f, n, rfl⟩⟩
  · intro hh; cases hh
  · intro hh; cases hh
  · intro hh
    have := h.joined hh
    rw [h0] at this; cases this

theorem after_ne (f : Bool) (n : Nat) : (∀ g m, after f n ≠ .send g m) ∧ after f n ≠ .wait ∧ after f n ≠ .exited := by
  unfold after
  split <;> exact ⟨nofun, nofun, nofun⟩

theorem linv_take {o : Opts} {w : Life} (h : LInv o w) {f : Bool} {n i : Nat} (h0 : w.handler = .send f n) (hi : i < o.savers)
    (hid : w.idleSaver i = true) :
    LInv o { w with base := LazySaver.step w.base (.take i), handler := after f n } := by
  have hch := h.send.1 ⟨f, n, h0⟩
  obtain ⟨a1, a2, a3⟩ := after_ne f n
  refine ⟨LazySaver.str_step h.str (enabled_take hi hid hch), h.paidNodup, ?_, ?_, h.drain, ?_, ?_, ?_, ?_⟩
  · intro j hj
    dsimp only
    rw [take_sts, mem_map_if (b := .taken i) (c := .written j) nofun]
    exact ⟨h.paidOf j hj, nofun⟩
  · have := h.count
    dsimp only
    rw [take_sts, List.length_map]
    exact this
  · dsimp only
    rw [take_sts, mem_map_if (b := .taken i) (c := .chosen) nofun]
    constructor
    · rintro ⟨g, m, hh⟩; exact absurd hh (a1 g m)
    · intro hh; exact absurd rfl hh.2
  · intro hh; exact absurd hh a2
  · intro hh; exact absurd hh a3
  · intro hh
    have := h.joined hh
    rw [h0] at this; cases this

theorem linv_write {o : Opts} {w : Life} (h : LInv o w) {i : Nat} {ok : Bool} (hi : Status.taken i ∈ sts w.base) :
    LInv o { w with base := LazySaver.step w.base (.write i ok) } := by
  refine ⟨LazySaver.str_step (l := .write i ok) h.str (mem_sts.1 hi), h.paidNodup, ?_, ?_, h.drain, ?_, ?_, h.exited, h.joined⟩
  · intro j hj
    have := h.paidOf j hj
    dsimp only
    rw [write_sts, List.mem_map]
    exact ⟨_, this, if_neg nofun⟩
  · have := h.count
    dsimp only
    rw [write_sts, List.length_map]
    exact this
  · dsimp only
    rw [write_sts, mem_map_if (b := .written i) (c := .chosen) nofun, h.send]
    simp
  · dsimp only
    rw [write_sts, mem_map_if (b := .written i) (c := .queued) nofun]
    intro h1 h2
    exact h.wait h1 h2.1

theorem linv_pay {o : Opts} {w : Life} (h : LInv o w) {i : Nat} (hi : Status.written i ∈ sts w.base) (hp : i ∉ w.paid) :
    LInv o { w with tokens := w.tokens + 1, paid := i :: w.paid } := by
  refine ⟨h.str, List.nodup_cons.2 ⟨hp, h.paidNodup⟩, ?_, ?_, h.drain, h.send, h.wait, h.exited, h.joined⟩
  · intro j hj
    rcases List.mem_cons.1 hj with rfl | hj
    · exact hi
    · exact h.paidOf j hj
  · have := h.count
    dsimp only
    rw [List.length_cons]
    omega

theorem linv_remove {o : Opts} {w : Life} (h : LInv o w) {i : Nat} (hp : i ∈ w.paid) :
    LInv o { w with base := LazySaver.step w.base (.remove i), paid := w.paid.erase i } := by
  have hi := h.paidOf i hp
  refine ⟨LazySaver.str_step (l := .remove i) h.str (mem_sts.1 hi), h.paidNodup.erase i, ?_, ?_, h.drain, ?_, ?_, h.exited, h.joined⟩
  · intro j hj
    rw [h.paidNodup.mem_erase_iff] at hj
    dsimp only
    rw [remove_sts, List.mem_filter]
    exact ⟨h.paidOf j hj.2, by simpa using hj.1⟩
  · have h1 := h.count
    have h2 := one_written h.str hi
    have h3 := List.length_erase_of_mem hp
    have h4 := List.length_pos_of_mem hp
    dsimp only
    rw [remove_sts]
    omega
  · dsimp only
    rw [remove_sts, List.mem_filter, h.send]
    simp
  · dsimp only
    rw [remove_sts]
    intro h1 h2
    exact h.wait h1 (List.mem_filter.1 h2).1

theorem linv_stopStep {o : Opts} {w w' : Life} (h : LInv o w) (he : stopStep o w = some w') : LInv o w' := by
  have hc := h.count
  have hd := h.drain
  have hj := h.joined
  unfold stopStep at he
  split at he
  · rename_i hs
    rw [hs] at hc
    cases he
    exact ⟨h.str, h.paidNodup, h.paidOf, hc, nofun, h.send, h.wait, nofun, nofun⟩
  · rename_i hs
    rw [hs] at hc
    cases he
    refine ⟨h.str, h.paidNodup, h.paidOf, ?_, ?_, h.send, h.wait, nofun, nofun⟩
    · simp only [drained] at hc ⊢; omega
    · intro k hk; cases hk; exact Nat.le_refl _
  · rename_i k hs
    have hk := hd _ hs
    rw [hs] at hc
    split at he
    · cases he
      refine ⟨h.str, h.paidNodup, h.paidOf, ?_, ?_, h.send, h.wait, nofun, nofun⟩
      · simp only [drained] at hc ⊢; omega
      · intro k hk; cases hk; omega
    · cases he
  · rename_i hs
    rw [hs] at hc
    split at he
    · rename_i hx
      cases he
      refine ⟨h.str, h.paidNodup, h.paidOf, ?_, nofun, h.send, h.wait, nofun, fun _ => hx⟩
      simp only [drained] at hc ⊢; omega
    · cases he
  · rename_i hs
    rw [hs] at hc
    split at he
    · cases he
      refine ⟨h.str, h.paidNodup, h.paidOf, hc, nofun, h.send, h.wait, nofun, fun _ => hj (.inl hs)⟩
    · cases he
  · cases he

theorem linv_handlerStep {o : Opts} {w w' : Life} (h : LInv o w) (he : handlerStep o w = some w') : LInv o w' := by
  unfold handlerStep at he
  split at he
  · rename_i hs
    have h0 : ∀ f n, w.handler ≠ .send f n := by rw [hs]; nofun
    have h3 : w.handler ≠ .exited := by rw [hs]; nofun
    split at he
    · rename_i hcl
      split at he
      · cases he; exact linv_handler h h0 nofun nofun h3 nofun
      · cases he
        refine linv_handler h h0 nofun nofun h3 fun _ => ?_
        unfold Life.closing at hcl
        simpa using hcl
    · split at he
      · cases he; exact linv_handler h h0 nofun nofun h3 nofun
      · cases he
        refine linv_handler h h0 nofun (fun _ hq => ?_) h3 nofun
        rw [waitingItem_iff.2 hq, Bool.or_true]
  · rename_i f hs
    have h0 : ∀ f n, w.handler ≠ .send f n := by rw [hs]; nofun
    have h3 : w.handler ≠ .exited := by rw [hs]; nofun
    split at he
    · rename_i hq
      cases he
      exact linv_choose h hs (waitingItem_iff.1 hq)
    · cases he
      obtain ⟨a1, a2, a3⟩ := after_ne f 0
      exact linv_handler h h0 a1 (fun hh => absurd hh a2) h3 (fun hh => absurd hh a3)
  · rename_i hs
    cases he
    exact linv_handler h (by rw [hs]; nofun) nofun nofun (by rw [hs]; nofun) nofun
  · rename_i n hs
    have h0 : ∀ f n, w.handler ≠ .send f n := by rw [hs]; nofun
    have h3 : w.handler ≠ .exited := by rw [hs]; nofun
    split at he
    · cases he; exact linv_handler h h0 nofun nofun h3 nofun
    · cases he; exact linv_handler h h0 nofun nofun h3 nofun
  all_goals cases he

theorem linv_exec {o : Opts} {w w' : Life} {a : Act} (h : LInv o w) (he : exec o w a = some w') : LInv o w' := by
  cases a with
  | check i =>
    simp only [exec] at he
    split at he
    · rename_i s k b hc
      cases he
      exact linv_call h hc (by split <;> rfl) id nofun
    · cases he
  | put i =>
    simp only [exec] at he
    split at he
    · rename_i s k b hc
      cases he
      exact linv_put h hc
    · cases he
  | notify i =>
    simp only [exec] at he
    split at he
    · rename_i hc
      cases he
      exact linv_call h hc (b := .waiting) rfl (fun _ => rfl) (fun _ => rfl)
    · cases he
  | token i =>
    simp only [exec] at he
    split at he
    · rename_i hc
      split at he
      · cases he; exact linv_token h hc (by assumption)
      · cases he
    · cases he
  | handler => exact linv_handlerStep h he
  | fire =>
    simp only [exec] at he
    split at he
    · rename_i hc
      cases he
      exact linv_handler h (by rw [hc.1]; nofun) nofun nofun (by rw [hc.1]; nofun) nofun
    · cases he
  | wake =>
    simp only [exec] at he
    split at he
    · rename_i hc
      cases he
      exact linv_handler h (by rw [hc.1]; nofun) nofun nofun (by rw [hc.1]; nofun) nofun
    · cases he
  | hear =>
    simp only [exec] at he
    split at he
    · rename_i hc
      cases he
      exact linv_handler h (by rw [hc.1]; nofun) nofun nofun (by rw [hc.1]; nofun) nofun
    · cases he
  | take i =>
    simp only [exec] at he
    split at he
    · rename_i f n hc
      split at he
      · rename_i hi
        cases he; exact linv_take h hc hi.1 hi.2
      · cases he
    · cases he
  | write i ok =>
    simp only [exec] at he
    split at he
    · rename_i hi
      cases he; exact linv_write h (any_sts.1 hi)
    · cases he
  | pay i =>
    simp only [exec] at he
    split at he
    · rename_i hi
      cases he; exact linv_pay h (any_sts.1 hi.1) hi.2.1
    · cases he
  | remove i =>
    simp only [exec] at he
    split at he
    · rename_i hi
      cases he; exact linv_remove h hi
    · cases he
  | stop => exact linv_stopStep h he

/-! ### Without late calls -/

theorem sts_nil {σ : LazySaver.State} : sts σ = [] ↔ σ.queue = [] := List.map_eq_nil_iff

theorem quiet_call {w : Life} (h : Quiet w) {i : Nat} {a : Caller} {t : Nat} {sg : Bool}
    (ha : w.stop ≠ .before → ∀ s k b, a ≠ .checked s k b) :
    Quiet { w with callers := w.callers.set i a, tokens := t, signal := sg } :=
  ⟨fun hs _ _ _ hm => not_pending_mem (h.calls hs) (ha hs) hm, h.exited, h.finished⟩

theorem quiet_handler {w : Life} (h : Quiet w) {hd : Handler} {t sg : Bool} (he : hd = .exited → Status.queued ∉ sts w.base) :
    Quiet { w with handler := hd, timer := t, signal := sg } :=
  ⟨h.calls, he, h.finished⟩

theorem quiet_exec {o : Opts} {w w' : Life} {a : Act} (hl : LInv o w) (h : Quiet w)
    (hst : a = .stop → w.stop = .before → ∀ s k b, Caller.checked s k b ∉ w.callers) (he : exec o w a = some w') : Quiet w' := by
  have nofin : w.handler ≠ .exited → w.stop ≠ .finished := fun hx hf => hx (hl.joined (.inr hf))
  cases a with
  | check i =>
    simp only [exec] at he
    split at he
    · cases he
      refine quiet_call h fun hs s k b => ?_
      have : w.closing = true := by simp [Life.closing, hs]
      rw [if_pos this]
      nofun
    · cases he
  | put i =>
    simp only [exec] at he
    split at he
    · rename_i s k b hc
      cases he
      have hb : w.stop = .before := Classical.byContradiction fun hs => h.calls hs s k b (List.mem_of_getElem? hc)
      refine ⟨fun hs => absurd hb hs, fun hx => absurd hb (hl.exited hx), fun hf => ?_⟩
      have : w.stop = .finished := hf
      rw [hb] at this; cases this
    · cases he
  | notify i =>
    simp only [exec] at he
    split at he
    · cases he; exact quiet_call h fun _ _ _ _ => nofun
    · cases he
  | token i =>
    simp only [exec] at he
    split at he
    · split at he
      · cases he; exact quiet_call h fun _ _ _ _ => nofun
      · cases he
    · cases he
  | handler =>
    simp only [exec, handlerStep] at he
    split at he
    · split at he
      · split at he
        · cases he; exact quiet_handler h nofun
        · rename_i hq
          cases he
          exact quiet_handler h fun _ => by rw [← waitingItem_iff]; exact hq
      · split at he <;> cases he <;> exact quiet_handler h nofun
    · rename_i f hs
      split at he
      · cases he
        exact ⟨h.calls, nofun, fun hf => absurd hf (nofin (by rw [hs]; nofun))⟩
      · cases he
        exact quiet_handler h fun hh => absurd hh (after_ne f 0).2.2
    · cases he; exact quiet_handler h nofun
    · split at he <;> cases he <;> exact quiet_handler h nofun
    all_goals cases he
  | fire =>
    simp only [exec] at he
    split at he
    · cases he; exact quiet_handler h nofun
    · cases he
  | wake =>
    simp only [exec] at he
    split at he
    · cases he; exact quiet_handler h nofun
    · cases he
  | hear =>
    simp only [exec] at he
    split at he
    · cases he; exact quiet_handler h nofun
    · cases he
  | take i =>
    simp only [exec] at he
    split at he
    · rename_i f n hc
      split at he
      · cases he
        exact ⟨h.calls, fun hh => absurd hh (after_ne f n).2.2, fun hf => absurd hf (nofin (by rw [hc]; nofun))⟩
      · cases he
    · cases he
  | write i ok =>
    simp only [exec] at he
    split at he
    · rename_i hi
      cases he
      refine ⟨h.calls, fun hx => ?_, fun hf => ?_⟩
      · dsimp only
        rw [write_sts, mem_map_if (b := .written i) (c := .queued) nofun]
        exact fun hm => h.exited hx hm.1
      · rw [h.finished hf] at hi; cases hi
    · cases he
  | pay i =>
    simp only [exec] at he
    split at he
    · cases he; exact ⟨h.calls, h.exited, h.finished⟩
    · cases he
  | remove i =>
    simp only [exec] at he
    split at he
    · rename_i hi
      cases he
      refine ⟨h.calls, fun hx => ?_, fun hf => ?_⟩
      · dsimp only
        rw [remove_sts]
        exact fun hm => h.exited hx (List.mem_filter.1 hm).1
      · have := hl.paidOf i hi
        rw [sts_nil.2 (h.finished hf)] at this; cases this
    · cases he
  | stop =>
    have hcalls : ∀ s k b, Caller.checked s k b ∉ w.callers := by
      by_cases hb : w.stop = .before
      · exact hst rfl hb
      · exact h.calls hb
    simp only [exec, stopStep] at he
    split at he
    · cases he; exact ⟨fun _ => hcalls, h.exited, nofun⟩
    · cases he; exact ⟨fun _ => hcalls, h.exited, nofun⟩
    · split at he
      · cases he; exact ⟨fun _ => hcalls, h.exited, nofun⟩
      · cases he
    · split at he
      · cases he; exact ⟨fun _ => hcalls, h.exited, nofun⟩
      · cases he
    · rename_i hs
      split at he
      · rename_i hq
        cases he
        refine ⟨fun _ => hcalls, h.exited, fun _ => ?_⟩
        have hx := hl.joined (.inl hs)
        have hnc : Status.chosen ∉ sts w.base := by
          rw [← hl.send]
          rintro ⟨f, n, hh⟩
          rw [hx] at hh; cases hh
        have hnq := h.exited hx
        rw [List.all_eq_true] at hq
        apply List.eq_nil_iff_forall_not_mem.2
        intro e hm
        rcases of_decide_eq_true (hq e hm) with hh | hh
        · exact hnq (mem_sts.2 ⟨e, hm, hh⟩)
        · exact hnc (mem_sts.2 ⟨e, hm, hh⟩)
      · cases he
    · cases he

/-! ### Steps one after the other -/

theorem execAll_append {o : Opts} {w w1 w2 : Life} {as bs : List Act} (h1 : execAll o w as = some w1) (h2 : execAll o w1 bs = some w2) :
    execAll o w (as ++ bs) = some w2 := by
  induction as generalizing w with
  | nil => cases h1; exact h2
  | cons a as ih =>
    simp only [execAll, List.cons_append] at h1 ⊢
    cases he : exec o w a with
    | none => rw [he] at h1; cases h1
    | some w' =>
      rw [he] at h1
      exact ih h1

theorem execAll_split {o : Opts} {w w2 : Life} {as bs : List Act} (h : execAll o w (as ++ bs) = some w2) :
    ∃ w1, execAll o w as = some w1 ∧ execAll o w1 bs = some w2 := by
  induction as generalizing w with
  | nil => exact ⟨w, rfl, h⟩
  | cons a as ih =>
    simp only [execAll, List.cons_append] at h ⊢
    cases he : exec o w a with
    | none => rw [he] at h; cases h
    | some w' =>
      rw [he] at h
      exact ih h

theorem execAll_one {o : Opts} {w w' : Life} {a : Act} (h : exec o w a = some w') : execAll o w [a] = some w' := by
  simp [execAll, h]

theorem linv_execAll {o : Opts} {w w' : Life} {as : List Act} (h : LInv o w) (he : execAll o w as = some w') : LInv o w' := by
  induction as generalizing w with
  | nil => cases he; exact h
  | cons a as ih =>
    simp only [execAll] at he
    cases h1 : exec o w a with
    | none => rw [h1] at he; cases he
    | some w1 =>
      rw [h1] at he
      exact ih (linv_exec h h1) he

theorem quiet_reached {o : Opts} {store : MaxSize.Store} {calls : List (Str × Str × Option Wire.Bytes)} {as : List Act} {w : Life}
    (h : Reached o store calls as w) (hn : NoLateCall o store calls as) : Quiet w := by
  suffices hs : ∀ (bs pre : List Act) (w0 : Life), pre ++ bs = as → Reached o store calls pre w0 → Quiet w0 → execAll o w0 bs = some w → Quiet w from
    hs as [] _ rfl rfl quiet_start h
  intro bs
  induction bs with
  | nil => intro pre w0 _ _ hq he; cases he; exact hq
  | cons a bs ih =>
    intro pre w0 hp hr hq he
    simp only [execAll] at he
    cases h1 : exec o w0 a with
    | none => rw [h1] at he; cases he
    | some w1 =>
      rw [h1] at he
      refine ih (pre ++ [a]) w1 (by simpa using hp) (execAll_append hr (execAll_one h1)) ?_ he
      refine quiet_exec (linv_execAll linv_start hr) hq ?_ h1
      rintro rfl hb
      exact hn pre bs w0 hp.symm hr hb

end RankDB.LazyLife

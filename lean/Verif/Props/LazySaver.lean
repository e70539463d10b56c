import Verif.Proofs.LazySaver
/-
Properties C39 and C40: the write-behind store.
-/
namespace RankDB
namespace LazySaver
open Wire Spec.LazySaver

/-- Runs in which each saver writes an item only after all older items of the same key were written, and no write
fails. -/
inductive OrderedRun (n : Nat) (σ0 : State) : List Label → State → Prop
  | nil : OrderedRun n σ0 [] σ0
  | snoc {ls σ l} : OrderedRun n σ0 ls σ → enabled n σ l → InOrder σ l → OrderedRun n σ0 (ls ++ [l]) (step σ l)

theorem OrderedRun.run {n : Nat} {σ0 σ : State} {ls : List Label} (h : OrderedRun n σ0 ls σ) : Run n σ0 ls σ := by
  induction h with
  | nil => exact .nil
  | snoc _ he _ ih => exact .snoc ih he

theorem last_snoc (store : MaxSize.Store) (ls : List Label) (l : Label) :
    last store (ls ++ [l]) = match l with
      | .put s k b => fun s' k' => if s' = s ∧ k' = k then b else last store ls s' k'
      | _ => last store ls := by
  unfold last
  rw [List.foldl_append, List.foldl_cons, List.foldl_nil]
  cases l <;> rfl

theorem inv_run {n : Nat} {store : MaxSize.Store} {P : Str → Str → Prop} (hP : Distinct P) {ls : List Label} {σ : State}
    (h : OrderedRun n (start store) ls σ) (hu : Uses P ls) : Inv P (last store ls) σ := by
  induction h with
  | nil => exact inv_start P store
  | @snoc ls σ l hrun he ho ih =>
    have hs := str_run hrun.run
    have ih := ih (fun s k b hm => hu s k b (by simp [hm]))
    rw [last_snoc]
    cases l with
    | put s k b => exact inv_put hP hs ih (hu s k b (by simp)) b
    | choose => exact inv_choose hs ih he
    | take i => exact inv_take ih i
    | write i ok => exact inv_write hs ih i ok ho
    | remove i => exact inv_remove hP hs ih i

theorem lookup_of_idx {n : Nat} {σ : State} (hs : Str0 n σ) {P : Str → Str → Prop} {m : Str → Str → Option Bytes}
    (h : Inv P m σ) {s k : Str} {id : Nat} (hi : σ.idx (lazyKey s k) = some id) :
    ∃ e ∈ σ.queue, σ.lookup s k = some e ∧ e.id = id ∧ e.lk = lazyKey s k := by
  obtain ⟨e, he, h1, h2⟩ := h.idx_item _ _ hi
  refine ⟨e, he, ?_, h1, h2⟩
  unfold State.lookup
  rw [hi, ← h1]
  exact item_some hs he

theorem get_last {n : Nat} {σ : State} (hs : Str0 n σ) {P : Str → Str → Prop} (hP : Distinct P)
    {m : Str → Str → Option Bytes} (h : Inv P m σ) {s k : Str} (hk : P s k) : get σ s k = m s k := by
  unfold get getQueue
  cases hi : σ.idx (lazyKey s k) with
  | none =>
    have : σ.lookup s k = none := by unfold State.lookup; rw [hi]; rfl
    rw [this]
    exact h.stored s k hk hi
  | some id =>
    obtain ⟨e, he, h1, h2, h3⟩ := lookup_of_idx hs h hi
    obtain ⟨rfl, rfl⟩ := lk_inj hP (h.keys e he) hk h3
    rw [h1]
    simp only [and_self, if_true, Option.getD_some]
    apply h.value e he
    rw [h3, hi, h2]

/-- With one saver the writes are in order. -/
theorem single_inOrder {σ : State} (hs : Str0 1 σ) {l : Label} (hf : ∀ i, l ≠ .write i false) : InOrder σ l := by
  cases l with
  | write i ok =>
    refine ⟨by cases ok <;> simp_all, ?_⟩
    intro e he hst e' he' _ hlt
    exfalso
    have hboth := List.Pairwise.and hs.ids hs.order
    have hr : 2 ≤ rank e'.status := by
      rcases pairwise_cases hboth he he' with h | h | h
      · subst h; omega
      · omega
      · have := h.2; rw [hst] at this; exact this
    have hi : i = 0 := by
      have := hs.savers e he i (Or.inl hst)
      omega
    have : e'.heldBy 0 := by
      cases hs' : e'.status with
      | queued => rw [hs'] at hr; simp [rank] at hr
      | chosen => rw [hs'] at hr; simp [rank] at hr
      | taken j =>
        have := hs.savers e' he' j (Or.inl hs')
        have hj : j = 0 := by omega
        subst hj; exact Or.inl hs'
      | written j =>
        have := hs.savers e' he' j (Or.inr hs')
        have hj : j = 0 := by omega
        subst hj; exact Or.inr hs'
    have := hs.eq_of_held he he' (i := 0) (Or.inl (by rw [hst, hi])) this
    subst this
    omega
  | _ => trivial

theorem single_run {store : MaxSize.Store} {ls : List Label} {σ : State} (h : Run 1 (start store) ls σ)
    (hf : NoFailure ls) : OrderedRun 1 (start store) ls σ := by
  induction h with
  | nil => exact .nil
  | @snoc ls σ l hrun he ih =>
    refine .snoc (ih (fun i hm => hf i (by simp [hm]))) he ?_
    apply single_inOrder (str_run hrun)
    rintro i rfl
    exact hf i (by simp)

/-! ### Flushing -/

def weight : Status → Nat
  | .queued => 4
  | .chosen => 3
  | .taken _ => 2
  | .written _ => 1

def work (q : List Item) : Nat := (q.map (fun e => weight e.status)).sum

theorem work_append (a b : List Item) : work (a ++ b) = work a + work b := by
  unfold work; rw [List.map_append, List.sum_append]

theorem work_map (f : Item → Item) (q : List Item) (hle : ∀ e ∈ q, weight (f e).status ≤ weight e.status)
    (hlt : ∃ e ∈ q, weight (f e).status < weight e.status) : work (q.map f) < work q := by
  have hle' : ∀ q : List Item, (∀ e ∈ q, weight (f e).status ≤ weight e.status) → work (q.map f) ≤ work q := by
    intro q
    induction q with
    | nil => intro _; exact Nat.le_refl _
    | cons x q ih =>
      intro h
      have h1 := ih (fun e he => h e (List.mem_cons_of_mem _ he))
      have h2 := h x (List.mem_cons_self ..)
      simp only [work, List.map_cons, List.sum_cons] at h1 ⊢
      omega
  induction q with
  | nil => simp at hlt
  | cons x q ih =>
    have hx := hle x (List.mem_cons_self ..)
    obtain ⟨e, he, hl⟩ := hlt
    rcases List.mem_cons.1 he with rfl | he
    · have := hle' q (fun e he => hle e (List.mem_cons_of_mem _ he))
      simp only [work, List.map_cons, List.sum_cons] at this ⊢
      omega
    · have := ih (fun e he => hle e (List.mem_cons_of_mem _ he)) ⟨e, he, hl⟩
      simp only [work, List.map_cons, List.sum_cons] at this ⊢
      omega

theorem work_filter (p : Item → Bool) (q : List Item) (h : ∃ e ∈ q, p e = false) : work (q.filter p) < work q := by
  have hpos : ∀ s, 1 ≤ weight s := by intro s; cases s <;> simp [weight]
  have hle : ∀ q : List Item, work (q.filter p) ≤ work q := by
    intro q
    induction q with
    | nil => exact Nat.le_refl _
    | cons x q ih =>
      rw [List.filter_cons]
      split
      · simp only [work, List.map_cons, List.sum_cons] at ih ⊢; omega
      · simp only [work, List.map_cons, List.sum_cons] at ih ⊢; omega
  induction q with
  | nil => simp at h
  | cons x q ih =>
    rw [List.filter_cons]
    have hx := hpos x.status
    split
    · rename_i hp
      have : ∃ e ∈ q, p e = false := by
        obtain ⟨e, he, hf⟩ := h
        rcases List.mem_cons.1 he with rfl | he
        · rw [hp] at hf; simp at hf
        · exact ⟨e, he, hf⟩
      have := ih this
      simp only [work, List.map_cons, List.sum_cons] at this ⊢
      omega
    · have := hle q
      simp only [work, List.map_cons, List.sum_cons] at this ⊢
      omega

/-- A step of the request handler or of a saver. -/
def Internal : Label → Prop
  | .put _ _ _ => False
  | _ => True

theorem work_step {n : Nat} {σ : State} {l : Label} (he : enabled n σ l) (hl : Internal l) :
    work (step σ l).queue < work σ.queue := by
  cases l with
  | put s k b => exact absurd hl (by simp [Internal])
  | choose =>
    obtain ⟨_, hex⟩ := he
    obtain ⟨l1, e, l2, h1, h2, h3, h4⟩ := chooseFirst_split σ.queue hex
    show work (chooseFirst σ.queue) < _
    rw [h4, h1, work_append, work_append]
    simp only [work, List.map_cons, List.sum_cons, h2, weight]
    omega
  | take i =>
    obtain ⟨_, _, e, hm, hs⟩ := he
    apply work_map
    · intro x _
      rw [setStatus_status]
      split
      · rename_i hx; rw [hx]; simp [weight]
      · exact Nat.le_refl _
    · exact ⟨e, hm, by rw [setStatus_status, if_pos hs, hs]; simp [weight]⟩
  | write i ok =>
    obtain ⟨e, hm, hs⟩ := he
    unfold step
    dsimp only
    split
    · rename_i hn
      have := List.find?_eq_none.1 hn e hm
      simp [hs] at this
    · apply work_map
      · intro x _
        rw [setStatus_status]
        split
        · rename_i hx; rw [hx]; simp [weight]
        · exact Nat.le_refl _
      · exact ⟨e, hm, by rw [setStatus_status, if_pos hs, hs]; simp [weight]⟩
  | remove i =>
    obtain ⟨e, hm, hs⟩ := he
    unfold step
    dsimp only
    split
    · rename_i hn
      have := List.find?_eq_none.1 hn e hm
      simp [hs] at this
    · apply work_filter
      exact ⟨e, hm, by simp [hs]⟩

theorem internal_enabled {n : Nat} (hn : 0 < n) {σ : State} (h : σ.queue ≠ []) : ∃ l, Internal l ∧ enabled n σ l := by
  by_cases h1 : ∃ e ∈ σ.queue, ∃ i, e.status = .written i
  · obtain ⟨e, he, i, hi⟩ := h1
    exact ⟨.remove i, trivial, e, he, hi⟩
  · by_cases h2 : ∃ e ∈ σ.queue, ∃ i, e.status = .taken i
    · obtain ⟨e, he, i, hi⟩ := h2
      exact ⟨.write i true, trivial, e, he, hi⟩
    · by_cases h3 : ∃ e ∈ σ.queue, e.status = .chosen
      · refine ⟨.take 0, trivial, hn, ?_, h3⟩
        intro e he
        exact ⟨fun hh => h2 ⟨e, he, 0, hh⟩, fun hh => h1 ⟨e, he, 0, hh⟩⟩
      · refine ⟨.choose, trivial, fun e he hh => h3 ⟨e, he, hh⟩, ?_⟩
        obtain ⟨e, he⟩ := List.exists_mem_of_ne_nil _ h
        refine ⟨e, he, ?_⟩
        cases hs : e.status with
        | queued => rfl
        | chosen => exact absurd ⟨e, he, hs⟩ h3
        | taken i => exact absurd ⟨e, he, i, hs⟩ h2
        | written i => exact absurd ⟨e, he, i, hs⟩ h1

/-! ### Reading the store after having looked into the queue -/

/-- The values a key had, from some call on. -/
def Had (store : MaxSize.Store) (ls1 ls2 : List Label) (s k : Str) (v : Option Bytes) : Prop :=
  ∃ p, p <+: ls2 ∧ v = last store (ls1 ++ p) s k

theorem Had.mono {store : MaxSize.Store} {ls1 ls2 : List Label} {s k : Str} {v : Option Bytes} (l : Label)
    (h : Had store ls1 ls2 s k v) : Had store ls1 (ls2 ++ [l]) s k v := by
  obtain ⟨p, hp, hv⟩ := h
  exact ⟨p, hp.trans (List.prefix_append _ _), hv⟩

theorem OrderedRun.trans {n : Nat} {σ0 σ1 σ2 : State} {ls1 ls2 : List Label} (h1 : OrderedRun n σ0 ls1 σ1)
    (h2 : OrderedRun n σ1 ls2 σ2) : OrderedRun n σ0 (ls1 ++ ls2) σ2 := by
  induction h2 with
  | nil => rw [List.append_nil]; exact h1
  | snoc _ he ho ih => rw [← List.append_assoc]; exact .snoc ih he ho

theorem had_run {n : Nat} {store : MaxSize.Store} {P : Str → Str → Prop} (hP : Distinct P) {ls1 ls2 : List Label}
    {σ1 σ2 : State} {s k : Str} (hrun1 : OrderedRun n (start store) ls1 σ1) (h2 : OrderedRun n σ1 ls2 σ2)
    (hu : Uses P (ls1 ++ ls2)) (hq : ∀ e ∈ σ1.queue, e.set = s → e.key = k → e.isWritten)
    (hst : σ1.store s k = last store ls1 s k) :
    Had store ls1 ls2 s k (σ2.store s k) ∧
      ∀ e ∈ σ2.queue, e.set = s → e.key = k → ¬e.isWritten → Had store ls1 ls2 s k e.val := by
  induction h2 with
  | nil =>
    refine ⟨⟨[], List.nil_prefix, by simpa using hst⟩, ?_⟩
    intro e he h1 h2 hn
    exact absurd (hq e he h1 h2) hn
  | @snoc ls σ l hrun he ho ih =>
    have hu' : Uses P (ls1 ++ ls) := fun s k b hm => hu s k b (by
      rw [List.mem_append] at hm ⊢
      rcases hm with hm | hm
      · exact Or.inl hm
      · exact Or.inr (by simp [hm]))
    obtain ⟨ih1, ih2⟩ := ih hu'
    have hinv := inv_run hP (hrun1.trans hrun) hu'
    have hs := str_run (hrun1.trans hrun).run
    cases l with
    | put s' k' b =>
      have hstore : (step σ (.put s' k' b)).store = σ.store := by
        unfold step put
        dsimp only
        split
        · split <;> rfl
        · rfl
      have hval : s' = s → k' = k → Had store ls1 (ls ++ [.put s' k' b]) s k b := by
        rintro rfl rfl
        refine ⟨ls ++ [.put s' k' b], List.prefix_rfl, ?_⟩
        rw [← List.append_assoc, last_snoc]
        simp
      refine ⟨by rw [hstore]; exact ih1.mono _, ?_⟩
      intro e hm h1 h2 hn
      have hadd : e ∈ σ.queue ++ [{ id := σ.next, set := s', key := k', val := b, status := .queued }] →
          Had store ls1 (ls ++ [.put s' k' b]) s k e.val := by
        intro hm
        simp only [List.mem_append, List.mem_cons, List.not_mem_nil, or_false] at hm
        rcases hm with hm | rfl
        · exact (ih2 e hm h1 h2 hn).mono _
        · exact hval h1 h2
      revert hm
      unfold step put
      dsimp only
      split
      · rename_i e0 hlook
        split
        · exact hadd
        · intro hm
          obtain ⟨y, hy, rfl⟩ := List.mem_map.1 hm
          by_cases hyid : y.id = e0.id
          · rw [if_pos hyid] at h1 h2 hn ⊢
            have hkey : s' = s ∧ k' = k := by
              cases hi : σ.idx (lazyKey s' k') with
              | none => unfold State.lookup at hlook; rw [hi] at hlook; simp at hlook
              | some id =>
                obtain ⟨e1, he1, hl1, _, hlk1⟩ := lookup_of_idx hs hinv hi
                rw [hlook] at hl1
                simp only [Option.some.injEq] at hl1
                subst hl1
                have := hs.eq_of_id hy he1 hyid
                subst this
                have := lk_inj hP (hu s' k' b (by simp)) (hinv.keys y he1) hlk1.symm
                exact ⟨this.1.trans h1, this.2.trans h2⟩
            exact hval hkey.1 hkey.2
          · rw [if_neg hyid] at h1 h2 hn ⊢
            exact (ih2 y hy h1 h2 hn).mono _
      · exact hadd
    | choose =>
      refine ⟨ih1.mono _, ?_⟩
      intro e hm h1 h2 hn
      obtain ⟨l1, x, l2, a1, a2, a3, a4⟩ := chooseFirst_split σ.queue he.2
      change e ∈ chooseFirst σ.queue at hm
      rw [a4] at hm
      simp only [List.mem_append, List.mem_cons] at hm
      rcases hm with hm | rfl | hm
      · exact (ih2 e (by rw [a1]; simp [hm]) h1 h2 hn).mono _
      · exact (ih2 x (by rw [a1]; simp) h1 h2 (by rintro ⟨i, hi⟩; rw [a2] at hi; simp at hi)).mono _
      · exact (ih2 e (by rw [a1]; simp [hm]) h1 h2 hn).mono _
    | take i =>
      refine ⟨ih1.mono _, ?_⟩
      intro e hm h1 h2 hn
      obtain ⟨y, hy, rfl⟩ := List.mem_map.1 hm
      rw [setStatus_set] at h1
      rw [setStatus_key] at h2
      rw [setStatus_val]
      refine (ih2 y hy h1 h2 ?_).mono _
      rintro ⟨j, hj⟩
      exact hn ⟨j, by rw [setStatus_status, if_neg (by rw [hj]; simp)]; exact hj⟩
    | write i ok =>
      unfold step
      dsimp only
      split
      · exact ⟨ih1.mono _, fun e hm h1 h2 hn => (ih2 e hm h1 h2 hn).mono _⟩
      · rename_i e0 ht
        have hem : e0 ∈ σ.queue := List.mem_of_find?_eq_some ht
        have hest : e0.status = .taken i := by simpa using List.find?_some ht
        constructor
        · dsimp only
          split
          · unfold MaxSize.Store.put
            split
            · rename_i hk
              exact (ih2 e0 hem hk.1.symm hk.2.symm (by rintro ⟨j, hj⟩; rw [hest] at hj; simp at hj)).mono _
            · exact ih1.mono _
          · exact ih1.mono _
        · intro e hm h1 h2 hn
          obtain ⟨y, hy, rfl⟩ := List.mem_map.1 hm
          rw [setStatus_set] at h1
          rw [setStatus_key] at h2
          rw [setStatus_val]
          refine (ih2 y hy h1 h2 ?_).mono _
          rintro ⟨j, hj⟩
          exact hn ⟨j, by rw [setStatus_status, if_neg (by rw [hj]; simp)]; exact hj⟩
    | remove i =>
      unfold step
      dsimp only
      split
      · exact ⟨ih1.mono _, fun e hm h1 h2 hn => (ih2 e hm h1 h2 hn).mono _⟩
      · exact ⟨ih1.mono _, fun e hm h1 h2 hn => (ih2 e (List.mem_filter.1 hm).1 h1 h2 hn).mono _⟩

end LazySaver

namespace Props
open LazySaver Wire Spec.LazySaver

/-- With one saver and a store that does not fail: at every moment of every interleaving of calls and background
saving, a read returns the last value set. -/
theorem C39_single_saver_partial (store : MaxSize.Store) (P : Str → Str → Prop) (hP : Distinct P) (ls : List Label)
    (σ : State) (h : Run 1 (start store) ls σ) (hf : NoFailure ls) (hu : Uses P ls) (s k : Str) (hk : P s k) :
    get σ s k = last store ls s k :=
  get_last (str_run h) hP (inv_run hP (single_run h hf) hu) hk

/-- With any number of savers it holds as long as no saver overtakes another one with the same key. -/
theorem C39_ordered_partial (n : Nat) (store : MaxSize.Store) (P : Str → Str → Prop) (hP : Distinct P)
    (ls : List Label) (σ : State) (h : OrderedRun n (start store) ls σ) (hu : Uses P ls) (s k : Str) (hk : P s k) :
    get σ s k = last store ls s k :=
  get_last (str_run h.run) hP (inv_run hP h hu) hk

/-- A read that has looked into the queue in vain and reads the store at a later moment returns a value the key had
at some moment in between. -/
theorem C39_slow_read_partial (n : Nat) (store : MaxSize.Store) (P : Str → Str → Prop) (hP : Distinct P)
    (ls1 ls2 : List Label) (σ1 σ2 : State) (h1 : OrderedRun n (start store) ls1 σ1) (h2 : OrderedRun n σ1 ls2 σ2)
    (hu : Uses P (ls1 ++ ls2)) (s k : Str) (hk : P s k) (hnone : getQueue σ1 s k = none) :
    ∃ p, p <+: ls2 ∧ σ2.store s k = last store (ls1 ++ p) s k := by
  have hu1 : Uses P ls1 := fun s k b hm => hu s k b (by simp [hm])
  have hinv := inv_run hP h1 hu1
  have hs := str_run h1.run
  have hidx : σ1.idx (lazyKey s k) = none := by
    cases hi : σ1.idx (lazyKey s k) with
    | none => rfl
    | some id =>
      obtain ⟨e, he, hl, hid, hlk⟩ := lookup_of_idx hs hinv hi
      obtain ⟨rfl, rfl⟩ := lk_inj hP (hinv.keys e he) hk hlk
      unfold getQueue at hnone
      rw [hl] at hnone
      simp at hnone
  refine (had_run hP h1 h2 hu ?_ (hinv.stored s k hk hidx)).1
  rintro e he rfl rfl
  exact hinv.idx_none e he hidx

/-- With one saver and a store that does not fail: when nothing is queued any more, the store below holds the last
value of each key. -/
theorem C40_single_saver_partial (store : MaxSize.Store) (P : Str → Str → Prop) (hP : Distinct P) (ls : List Label)
    (σ : State) (h : Run 1 (start store) ls σ) (hf : NoFailure ls) (hu : Uses P ls) (hq : σ.queue = [])
    (s k : Str) (hk : P s k) : σ.store s k = last store ls s k := by
  have hinv := inv_run hP (single_run h hf) hu
  apply hinv.stored s k hk
  cases hi : σ.idx (lazyKey s k) with
  | none => rfl
  | some id =>
    obtain ⟨e, he, _⟩ := hinv.idx_item _ _ hi
    rw [hq] at he
    simp at he

/-- The same for any number of savers that do not overtake each other with the same key. -/
theorem C40_ordered_partial (n : Nat) (store : MaxSize.Store) (P : Str → Str → Prop) (hP : Distinct P)
    (ls : List Label) (σ : State) (h : OrderedRun n (start store) ls σ) (hu : Uses P ls) (hq : σ.queue = [])
    (s k : Str) (hk : P s k) : σ.store s k = last store ls s k := by
  have hinv := inv_run hP h hu
  apply hinv.stored s k hk
  cases hi : σ.idx (lazyKey s k) with
  | none => rfl
  | some id =>
    obtain ⟨e, he, _⟩ := hinv.idx_item _ _ hi
    rw [hq] at he
    simp at he

/-- Flushing ends: without further calls there are at most four steps for each queued item, whatever the order of
steps, the number of savers and the failures, and when no step is possible any more nothing is queued. -/
theorem C40_flush_ends (n : Nat) (hn : 0 < n) (σ σ' : State) (ls : List Label) (h : Run n σ ls σ')
    (hi : ∀ s k b, Label.put s k b ∉ ls) :
    ls.length ≤ 4 * σ.queue.length ∧
      ((∀ l, (∀ s k b, l ≠ .put s k b) → ¬enabled n σ' l) → σ'.queue = []) := by
  constructor
  · have hw : ls.length + work σ'.queue ≤ work σ.queue := by
      induction h with
      | nil => simp
      | @snoc ls σ' l hrun he ih =>
        have := ih (fun s k b hm => hi s k b (by simp [hm]))
        have hl : Internal l := by
          cases l with
          | put s k b => exact absurd (by simp) (hi s k b)
          | _ => trivial
        have h2 := work_step he hl
        simp only [List.length_append, List.length_cons, List.length_nil]
        omega
    have hb : ∀ q : List Item, work q ≤ 4 * q.length := by
      intro q
      induction q with
      | nil => simp [work]
      | cons x q ih =>
        have : weight x.status ≤ 4 := by cases x.status <;> simp [weight]
        simp only [work, List.map_cons, List.sum_cons, List.length_cons] at ih ⊢
        omega
    have := hb σ.queue
    omega
  · intro hstuck
    apply Decidable.byContradiction
    intro hne
    obtain ⟨l, hl, he⟩ := internal_enabled hn hne
    refine hstuck l ?_ he
    rintro s k b rfl
    exact hl

/-! ### Where the properties fail -/

instance (n : Nat) (σ : State) (l : Label) : Decidable (enabled n σ l) := by
  cases l <;> unfold enabled <;> infer_instance

/-- Run steps, if each can be taken. -/
def exec (n : Nat) : State → List Label → Option State
  | σ, [] => some σ
  | σ, l :: ls => if enabled n σ l then exec n (step σ l) ls else none

theorem exec_run {n : Nat} {σ0 σ σ' : State} {ls ls' : List Label} (h0 : Run n σ0 ls σ) (h : exec n σ ls' = some σ') :
    Run n σ0 (ls ++ ls') σ' := by
  induction ls' generalizing σ ls with
  | nil =>
    simp only [exec, Option.some.injEq] at h
    subst h
    simpa using h0
  | cons l ls' ih =>
    simp only [exec] at h
    split at h
    · rename_i he
      have := ih (.snoc h0 he) h
      rwa [List.append_assoc] at this
    · simp at h

def nothing : MaxSize.Store := fun _ _ => none

/-- A key is set, saver 0 takes it; it is set again, saver 1 takes it, writes it and is done; then saver 0 writes the
old value. -/
def overtaken : List Label :=
  [.put [] [1] (some [10]), .choose, .take 0, .put [] [1] (some [20]), .choose, .take 1, .write 1 true, .remove 1,
    .write 0 true, .remove 0]

/-- With two savers the full properties fail, although no write fails: everything is flushed, the last value set is
20, a read returns 10 and the store holds 10. -/
theorem C39_stale_read : ∃ σ, Run 2 (start nothing) overtaken σ ∧ NoFailure overtaken ∧
    last nothing overtaken [] [1] = some [20] ∧ get σ [] [1] = some [10] ∧
    σ.queue = [] ∧ σ.store [] [1] = some [10] := by
  have hx : ∃ σ, exec 2 (start nothing) overtaken = some σ ∧ get σ [] [1] = some [10] ∧ σ.queue = [] ∧
      σ.store [] [1] = some [10] := by
    refine ⟨_, rfl, ?_, ?_, ?_⟩ <;> decide
  obtain ⟨σ, h1, h2, h3, h4⟩ := hx
  refine ⟨σ, by simpa using exec_run (.nil (n := 2) (σ0 := start nothing)) h1, ?_, by decide, h2, h3, h4⟩
  intro i
  simp [overtaken]

/-- A write that fails is dropped: the value is lost without the caller noticing. -/
def failed : List Label := [.put [] [1] (some [10]), .choose, .take 0, .write 0 false, .remove 0]

theorem C40_failed_save : ∃ σ, Run 1 (start nothing) failed σ ∧ last nothing failed [] [1] = some [10] ∧
    get σ [] [1] = none ∧ σ.queue = [] ∧ σ.store [] [1] = none := by
  have hx : ∃ σ, exec 1 (start nothing) failed = some σ ∧ get σ [] [1] = none ∧ σ.queue = [] ∧
      σ.store [] [1] = none := by
    refine ⟨_, rfl, ?_, ?_, ?_⟩ <;> decide
  obtain ⟨σ, h1, h2, h3, h4⟩ := hx
  exact ⟨σ, by simpa using exec_run (.nil (n := 1) (σ0 := start nothing)) h1, by decide, h2, h3, h4⟩

/-- Keys that are equal when joined with a slash interfere: setting key `b/c` of set `a` and then key `c` of set
`a/b` overwrites the former and loses the latter. -/
def collision : List Label := [.put [97] [98, 47, 99] (some [10]), .put [97, 47, 98] [99] (some [20])]

theorem C39_key_collision : ∃ σ, Run 1 (start nothing) collision σ ∧
    last nothing collision [97] [98, 47, 99] = some [10] ∧ get σ [97] [98, 47, 99] = some [20] ∧
    last nothing collision [97, 47, 98] [99] = some [20] ∧ get σ [97, 47, 98] [99] = none := by
  have hx : ∃ σ, exec 1 (start nothing) collision = some σ ∧ get σ [97] [98, 47, 99] = some [20] ∧
      get σ [97, 47, 98] [99] = none := by
    refine ⟨_, rfl, ?_, ?_⟩ <;> decide
  obtain ⟨σ, h1, h2, h3⟩ := hx
  exact ⟨σ, by simpa using exec_run (.nil (n := 1) (σ0 := start nothing)) h1, by decide, h2, by decide, h3⟩

/-- Non-vacuity: one saver, a key set again while it is being saved, another one deleted; read in between. -/
def regular : List Label :=
  [.put [] [1] (some [10]), .put [] [2] none, .choose, .take 0, .put [] [1] (some [20]), .choose, .write 0 true,
    .remove 0, .take 0, .write 0 true]

example : ∃ σ, Run 1 (start nothing) regular σ ∧ NoFailure regular ∧ get σ [] [1] = some [20] ∧
    σ.store [] [1] = some [10] ∧ Uses (fun s k => s = [] ∧ (k = [1] ∨ k = [2])) regular := by
  have hx : ∃ σ, exec 1 (start nothing) regular = some σ ∧ get σ [] [1] = some [20] ∧
      σ.store [] [1] = some [10] := by
    refine ⟨_, rfl, ?_, ?_⟩ <;> decide
  obtain ⟨σ, h1, h2, h3⟩ := hx
  refine ⟨σ, by simpa using exec_run (.nil (n := 1) (σ0 := start nothing)) h1, ?_, h2, h3, ?_⟩
  · intro i; simp [regular]
  · intro s k b hm
    simp only [regular, List.mem_cons, Label.put.injEq, List.not_mem_nil, or_false] at hm
    rcases hm with ⟨rfl, rfl, _⟩ | ⟨rfl, rfl, _⟩ | h | h | ⟨rfl, rfl, _⟩ | h | h | h | h | h <;> simp_all

/-- Keys without a slash in sets without a slash are distinct. -/
theorem C39_distinct : Distinct (fun s _ => (47 : UInt8) ∉ s) := by
  intro s k s' k' h h' e
  rcases List.append_eq_append_iff.1 e with ⟨t, h1, h2⟩ | ⟨t, h1, h2⟩
  · cases t with
    | nil => simp at h1 h2; exact ⟨h1.symm, h2⟩
    | cons d t =>
      simp only [List.cons_append, List.cons.injEq] at h2
      exact absurd (by rw [h1, ← h2.1]; simp) h'
  · cases t with
    | nil => simp at h1 h2; exact ⟨h1, h2.symm⟩
    | cons d t =>
      simp only [List.cons_append, List.cons.injEq] at h2
      exact absurd (by rw [h1, ← h2.1]; simp) h

end Props
end RankDB

import Verif.Spec.LazyBuf
import Verif.Proofs.LazyBuf
import Verif.Props.LazySaver
/-
C96: buffers that the write-behind store uses again never change queued, stored or returned data.
-/
namespace RankDB.Props
open Wire
open LazyBuf (Call BItem)
open LazySaver (Label)
open Spec.LazySaver (last Uses Distinct NoFailure)

theorem start_values (store : MaxSize.Store) : (LazyBuf.start store).values = LazySaver.start store := rfl

theorem reach_sound {n : Nat} {store : MaxSize.Store} {cs : List Call} {σ : LazyBuf.State} {ls : List Label}
    (h : LazyBuf.execs n (LazyBuf.start store) cs = some (σ, ls)) : LazyBuf.Sound σ ∧ LazySaver.Run n (LazySaver.start store) ls σ.values := by
  have := LazyBuf.execs_sound (LazyBuf.start_sound store) (.nil (n := n) (σ0 := LazySaver.start store)) h
  rw [List.nil_append] at this
  exact this

def waiting (σ : LazyBuf.State) : List (Str × Str × Bytes) := σ.pend.map fun p => (p.set, p.key, p.given)

theorem put_pend (σ : LazyBuf.State) (s k : Str) (b : Option Nat) : (LazyBuf.put σ s k b).pend = σ.pend ∧ (LazyBuf.put σ s k b).out = σ.out := by
  unfold LazyBuf.put
  dsimp only
  split
  · split
    · exact ⟨rfl, rfl⟩
    · obtain ⟨-, -, -, -, -, -, -, f8, f9⟩ := LazyBuf.release_fields σ (by assumption : BItem).buf
      exact ⟨f8, f9⟩
  · exact ⟨rfl, rfl⟩

theorem map_eraseIdx' {α β : Type} (f : α → β) : ∀ (l : List α) (j : Nat), (l.eraseIdx j).map f = (l.map f).eraseIdx j
  | [], _ => rfl
  | _ :: _, 0 => rfl
  | a :: l, j + 1 => by
    simp only [List.eraseIdx_cons_succ, List.map_cons, map_eraseIdx' f l j]

theorem exec_history {n : Nat} {σ σ' : LazyBuf.State} {c : Call} {l : List Label} (h : LazyBuf.Sound σ)
    (he : LazyBuf.exec n σ c = some (σ', l)) (cs : List Call) :
    Spec.LazyBuf.history (waiting σ) (c :: cs) = l ++ Spec.LazyBuf.history (waiting σ') cs := by
  cases c with
  | copy s k x pick extra =>
    have t := (LazyBuf.copyIn_sound h x pick extra).1
    simp only [LazyBuf.exec] at he
    cases he
    simp only [Spec.LazyBuf.history, List.nil_append]
    unfold waiting
    dsimp only
    rw [t.pend, List.map_append]
    rfl
  | enter j =>
    simp only [LazyBuf.exec] at he
    split at he
    · cases he
    · rename_i p hp
      cases he
      have hw : (waiting σ)[j]? = some (p.set, p.key, p.given) := by simp [waiting, hp]
      simp only [Spec.LazyBuf.history, hw]
      unfold waiting
      rw [(put_pend _ _ _ _).1]
      dsimp only
      rw [map_eraseIdx']
      rfl
  | delete s k =>
    simp only [LazyBuf.exec] at he
    cases he
    simp only [Spec.LazyBuf.history]
    unfold waiting
    rw [(put_pend _ _ _ _).1]
    rfl
  | get s k pick extra =>
    simp only [LazyBuf.exec] at he
    split at he
    · cases he; rfl
    · split at he
      · split at he
        · cases he; rfl
        · rename_i b _
          have t := (LazyBuf.copyIn_sound h (σ.heap b) pick extra).1
          cases he
          simp only [Spec.LazyBuf.history, List.nil_append]
          unfold waiting
          dsimp only
          rw [t.pend]
      · cases he; rfl
  | change j x =>
    simp only [LazyBuf.exec] at he
    split at he
    · cases he
    · cases he; rfl
  | drop j =>
    simp only [LazyBuf.exec] at he
    cases he
    rfl
  | choose =>
    simp only [LazyBuf.exec] at he
    split at he
    · cases he; rfl
    · cases he
  | take i =>
    simp only [LazyBuf.exec] at he
    split at he
    · cases he; rfl
    · cases he
  | write i ok =>
    simp only [LazyBuf.exec] at he
    split at he
    · cases he
    · cases he; rfl
  | remove i =>
    simp only [LazyBuf.exec] at he
    split at he
    · cases he
    · rename_i e hf
      cases he
      obtain ⟨-, -, -, -, -, -, -, f8, -⟩ := LazyBuf.release_fields σ e.buf
      simp only [Spec.LazyBuf.history]
      unfold waiting
      dsimp only
      rw [f8]
      rfl

theorem execs_history {n : Nat} : ∀ {cs : List Call} {σ σ' : LazyBuf.State} {ls : List Label}, LazyBuf.Sound σ →
    LazyBuf.execs n σ cs = some (σ', ls) → ls = Spec.LazyBuf.history (waiting σ) cs
  | [], σ, σ', ls, _, he => by
    cases he
    rfl
  | c :: cs, σ, σ', ls, h, he => by
    simp only [LazyBuf.execs] at he
    split at he
    · cases he
    · rename_i σ1 l hc
      obtain ⟨⟨σ2, ls2⟩, hx, hy⟩ := Option.map_eq_some_iff.1 he
      cases hy
      rw [exec_history h hc, execs_history (LazyBuf.exec_sound h hc).1 hx]

/-- C96. The store with its buffers behaves like a store that has a copy of its own of every value: whatever the order
of the calls and of the savers' steps, and whichever buffers are used again, the queue and the store below have the
bytes that the callers passed. -/
theorem C96_as_values (n : Nat) (store : MaxSize.Store) (cs : List Call) (σ : LazyBuf.State) (ls : List Label)
    (h : LazyBuf.execs n (LazyBuf.start store) cs = some (σ, ls)) :
    ls = Spec.LazyBuf.history [] cs ∧ LazySaver.Run n (LazySaver.start store) (Spec.LazyBuf.history [] cs) σ.values := by
  have h1 := execs_history (LazyBuf.start_sound store) h
  have h2 := (reach_sound h).2
  have h1 : ls = Spec.LazyBuf.history [] cs := h1
  rw [h1] at h2
  exact ⟨h1, h2⟩

/-- A read returns a copy of the queued bytes in a buffer that no one else holds. -/
theorem C96_get (n : Nat) (store : MaxSize.Store) (cs : List Call) (σ σ' : LazyBuf.State) (ls ls' : List Label)
    (h : LazyBuf.execs n (LazyBuf.start store) cs = some (σ, ls)) (s k : Str) (pick : Option Nat) (extra : Nat)
    (he : LazyBuf.exec n σ (.get s k pick extra) = some (σ', ls')) :
    (∀ x : Bytes, LazySaver.getQueue σ.values s k = some (some x) →
      ∃ b, σ'.out = σ.out ++ [(b, x)] ∧ σ'.heap b = x ∧ b ∉ σ.out.map (·.1)) ∧
      ((LazySaver.getQueue σ.values s k = none ∨ LazySaver.getQueue σ.values s k = some none) → σ' = σ) := by
  have hs := (reach_sound h).1
  simp only [LazyBuf.exec] at he
  unfold LazySaver.getQueue
  rw [LazyBuf.values_lookup]
  cases hl : σ.lookup s k with
  | none =>
    rw [hl] at he
    cases he
    exact ⟨nofun, fun _ => rfl⟩
  | some e =>
    rw [hl] at he
    dsimp only [Option.map_some] at he ⊢
    by_cases hk : e.set = s ∧ e.key = k
    · rw [if_pos hk] at he
      rw [if_pos (show (LazyBuf.val σ e).set = s ∧ (LazyBuf.val σ e).key = k from hk)]
      cases hb : e.buf with
      | none =>
        rw [hb] at he
        cases he
        exact ⟨fun x hx => by simp [LazyBuf.val, hb] at hx, fun _ => rfl⟩
      | some b =>
        rw [hb] at he
        obtain ⟨t, t2, t3⟩ := LazyBuf.copyIn_sound hs (σ.heap b) pick extra
        dsimp only at he
        cases he
        refine ⟨?_, fun hx => by simp [LazyBuf.val, hb] at hx⟩
        intro x hx
        have : x = σ.heap b := by simpa [LazyBuf.val, hb] using hx.symm
        subst this
        refine ⟨_, by rw [t.out], t2, ?_⟩
        intro hm
        obtain ⟨y, hy, hye⟩ := List.mem_map.1 hm
        rw [← t.out] at hy
        have := LazyBuf.owners_pos_out hy
        rw [hye] at this
        have := t.free
        omega
    · rw [if_neg hk] at he
      cases he
      rw [if_neg (show ¬ ((LazyBuf.val σ e).set = s ∧ (LazyBuf.val σ e).key = k) from hk)]
      exact ⟨nofun, fun _ => rfl⟩

theorem exec_out {n : Nat} {σ σ' : LazyBuf.State} {c : Call} {l : List Label} (h : LazyBuf.Sound σ)
    (he : LazyBuf.exec n σ c = some (σ', l)) {j : Nat} {z : Nat × Bytes} (hz : σ.out[j]? = some z)
    (hc : ∀ x, c ≠ .change j x) : σ'.out[j]? = some z := by
  cases c with
  | copy s k x pick extra =>
    have t := (LazyBuf.copyIn_sound h x pick extra).1
    simp only [LazyBuf.exec] at he
    cases he
    dsimp only
    rw [t.out]
    exact hz
  | enter j' =>
    simp only [LazyBuf.exec] at he
    split at he
    · cases he
    · cases he
      rw [(put_pend _ _ _ _).2]
      exact hz
  | delete s k =>
    simp only [LazyBuf.exec] at he
    cases he
    rw [(put_pend _ _ _ _).2]
    exact hz
  | get s k pick extra =>
    simp only [LazyBuf.exec] at he
    split at he
    · cases he; exact hz
    · split at he
      · split at he
        · cases he; exact hz
        · rename_i b _
          have t := (LazyBuf.copyIn_sound h (σ.heap b) pick extra).1
          cases he
          dsimp only
          rw [t.out, List.getElem?_append_left (List.getElem?_eq_some_iff.1 hz).1]
          exact hz
      · cases he; exact hz
  | change j' x =>
    simp only [LazyBuf.exec] at he
    split at he
    · cases he
    · cases he
      have : j' ≠ j := fun hj => hc x (by rw [hj])
      dsimp only
      rw [List.getElem?_set_ne this]
      exact hz
  | drop j' =>
    simp only [LazyBuf.exec] at he
    cases he
    exact hz
  | choose =>
    simp only [LazyBuf.exec] at he
    split at he
    · cases he; exact hz
    · cases he
  | take i =>
    simp only [LazyBuf.exec] at he
    split at he
    · cases he; exact hz
    · cases he
  | write i ok =>
    simp only [LazyBuf.exec] at he
    split at he
    · cases he
    · cases he; exact hz
  | remove i =>
    simp only [LazyBuf.exec] at he
    split at he
    · cases he
    · rename_i e hf
      cases he
      obtain ⟨-, -, -, -, -, -, -, -, f9⟩ := LazyBuf.release_fields σ e.buf
      dsimp only
      rw [f9]
      exact hz

theorem execs_out {n : Nat} {j : Nat} {z : Nat × Bytes} : ∀ {cs : List Call} {σ σ' : LazyBuf.State} {ls : List Label}, LazyBuf.Sound σ →
    LazyBuf.execs n σ cs = some (σ', ls) → σ.out[j]? = some z → (∀ x, Call.change j x ∉ cs) → LazyBuf.Sound σ' ∧ σ'.out[j]? = some z
  | [], σ, σ', ls, h, he, hz, _ => by
    cases he
    exact ⟨h, hz⟩
  | c :: cs, σ, σ', ls, h, he, hz, hc => by
    simp only [LazyBuf.execs] at he
    split at he
    · cases he
    · rename_i σ1 l hx
      obtain ⟨⟨σ2, ls2⟩, hy, hw⟩ := Option.map_eq_some_iff.1 he
      cases hw
      refine execs_out (LazyBuf.exec_sound h hx).1 hy (exec_out h hx hz ?_) fun x hm => hc x (List.mem_cons_of_mem _ hm)
      intro x he
      exact hc x (by rw [he]; exact List.mem_cons_self)

/-- The bytes that a read returned stay as they are for as long as the caller does not write into them, whatever
happens later, including writes by other callers into the bytes they were given. -/
theorem C96_returned_kept (n : Nat) (store : MaxSize.Store) (cs cs' : List Call) (σ σ' : LazyBuf.State) (ls ls' : List Label)
    (h : LazyBuf.execs n (LazyBuf.start store) cs = some (σ, ls)) (h' : LazyBuf.execs n σ cs' = some (σ', ls'))
    (j b : Nat) (x : Bytes) (hj : σ.out[j]? = some (b, x)) (hc : ∀ y, Call.change j y ∉ cs') :
    σ.heap b = x ∧ σ'.heap b = x := by
  have hs := (reach_sound h).1
  obtain ⟨hs', hj'⟩ := execs_out hs h' hj hc
  exact ⟨hs.out _ (List.mem_of_getElem? hj), hs'.out _ (List.mem_of_getElem? hj')⟩

/-- What a caller writes into the bytes it was given does not change the queue or the store. -/
theorem C96_caller_writes (n : Nat) (store : MaxSize.Store) (cs : List Call) (σ σ' : LazyBuf.State) (ls ls' : List Label)
    (h : LazyBuf.execs n (LazyBuf.start store) cs = some (σ, ls)) (j : Nat) (x : Bytes)
    (he : LazyBuf.exec n σ (.change j x) = some (σ', ls')) : σ'.values = σ.values := by
  have h1 := LazyBuf.exec_sound (reach_sound h).1 he
  have h2 : ls' = [] := by
    simp only [LazyBuf.exec] at he
    split at he
    · cases he
    · cases he; rfl
  have h3 := h1.2
  subst h2
  generalize σ.values = τ at h3
  generalize σ'.values = τ' at h3
  cases h3
  rfl

/-- No buffer is held twice. -/
theorem C96_one_holder (n : Nat) (store : MaxSize.Store) (cs : List Call) (σ : LazyBuf.State) (ls : List Label)
    (h : LazyBuf.execs n (LazyBuf.start store) cs = some (σ, ls)) : (Spec.LazyBuf.held σ).Nodup := by
  rw [List.nodup_iff_count]
  intro b
  have := (reach_sound h).1.one b
  have hq : ∀ q : List BItem, (q.filterMap (·.buf)).count b = LazyBuf.inQueue q b := by
    intro q
    induction q with
    | nil => rfl
    | cons e q ih =>
      unfold LazyBuf.inQueue at ih ⊢
      rw [List.filterMap_cons, List.countP_cons]
      cases hb : e.buf with
      | none => simp [ih]
      | some c => simp [ih, List.count_cons]
  have hp : (σ.pool.map (·.2)).count b = LazyBuf.inPool σ b := by
    unfold LazyBuf.inPool List.count; rw [List.countP_map]; rfl
  have hw : (σ.pend.map (·.buf)).count b = LazyBuf.inPend σ b := by
    unfold LazyBuf.inPend List.count; rw [List.countP_map]; rfl
  have ho : (σ.out.map (·.1)).count b = LazyBuf.inOut σ b := by
    unfold LazyBuf.inOut List.count; rw [List.countP_map]; rfl
  unfold Spec.LazyBuf.held
  rw [List.count_append, List.count_append, List.count_append, hq, hp, hw, ho]
  exact this

/-- A buffer from the pools holds any value of up to 1 MB, and every buffer in the pools is in one of the eleven pools
that exist. -/
theorem C96_capacity (n : Nat) (store : MaxSize.Store) (cs : List Call) (σ : LazyBuf.State) (ls : List Label)
    (h : LazyBuf.execs n (LazyBuf.start store) cs = some (σ, ls)) (size : Nat) (pick : Option Nat) :
    (size ≤ 2 ^ 20 → size ≤ (LazyBuf.take σ size pick).2.caps (LazyBuf.take σ size pick).1) ∧
      LazyBuf.poolFor size < 11 ∧ ∀ x ∈ σ.pool, x.1 < 11 := by
  have hs := (reach_sound h).1
  refine ⟨fun hz => LazyBuf.poolFor_fits (LazyBuf.take_sound hs size pick).2.2 hz, ?_, ?_⟩
  · have := LazyBuf.poolFor_le size
    omega
  · intro x hx
    have := (hs.pools x hx).le
    omega

/-- With one saver and without failures, a read returns what was passed to the last write of its key, however the
buffers are used again. -/
theorem C96_last_write (store : MaxSize.Store) (P : Str → Str → Prop) (hP : Distinct P) (cs : List Call)
    (σ : LazyBuf.State) (ls : List Label) (h : LazyBuf.execs 1 (LazyBuf.start store) cs = some (σ, ls))
    (hf : NoFailure (Spec.LazyBuf.history [] cs)) (hu : Uses P (Spec.LazyBuf.history [] cs)) (s k : Str) (hk : P s k) :
    LazySaver.get σ.values s k = last store (Spec.LazyBuf.history [] cs) s k ∧
      (σ.queue = [] → σ.store s k = last store (Spec.LazyBuf.history [] cs) s k) := by
  have hr := (C96_as_values 1 store cs σ ls h).2
  refine ⟨C39_single_saver_partial store P hP _ _ hr hf hu s k hk, fun hq => ?_⟩
  exact C40_single_saver_partial store P hP _ _ hr hf hu (by rw [LazyBuf.values_queue, hq]; rfl) s k hk

/-! ### Example: a buffer is used again by a write, a read, and a write again -/

def bufCalls : List Call :=
  [.copy [] [1] [10] none 0, .copy [] [1] [20] none 0, .enter 0, .enter 0,
   .copy [] [2] [30] (some 0) 0, .enter 0, .get [] [1] none 0,
   .choose, .take 0, .get [] [1] none 0, .write 0 true, .remove 0,
   .copy [] [3] [40] (some 0) 0, .change 0 [99], .enter 0, .choose, .take 0, .write 0 true]

/-- The buffer of the first write is used by the third, and the one of the second by the fourth. -/
example : ((LazyBuf.execs 1 (LazyBuf.start nothing) bufCalls).map fun x =>
    (x.1.queue.map fun e => (e.key, e.buf), x.1.fresh)) = some ([([2], some 0), ([3], some 1)], 4) := by decide +kernel

example : ((LazyBuf.execs 1 (LazyBuf.start nothing) bufCalls).map fun x => (x.1.out, x.1.store [] [1], x.1.store [] [2])) =
    some ([(2, [99]), (3, [20])], some [20], some [30]) := by decide +kernel

example : ∃ σ ls, LazyBuf.execs 1 (LazyBuf.start nothing) bufCalls = some (σ, ls) ∧ (Spec.LazyBuf.held σ).Nodup ∧
    σ.out.map (fun x => σ.heap x.1) = [[99], [20]] := by
  have h : (LazyBuf.execs 1 (LazyBuf.start nothing) bufCalls).isSome = true := by decide +kernel
  obtain ⟨⟨σ, ls⟩, hs⟩ := Option.isSome_iff_exists.1 h
  refine ⟨σ, ls, hs, C96_one_holder 1 nothing bufCalls σ ls hs, ?_⟩
  have h2 : (LazyBuf.execs 1 (LazyBuf.start nothing) bufCalls).map (fun x => x.1.out.map fun y => x.1.heap y.1) = some [[99], [20]] := by
    decide +kernel
  rw [hs] at h2
  exact Option.some.inj h2

example : Spec.LazyBuf.history [] bufCalls =
    [.put [] [1] (some [10]), .put [] [1] (some [20]), .put [] [2] (some [30]), .choose, .take 0, .write 0 true, .remove 0,
     .put [] [3] (some [40]), .choose, .take 0, .write 0 true] := by decide +kernel

/-- The comment of lazysaver.go:658 promises room for `size` bytes; above 1 MB a new buffer has less and `append` makes
another one. -/
example : (LazyBuf.take (LazyBuf.start nothing) (2 ^ 20 + 1) none).2.caps (LazyBuf.take (LazyBuf.start nothing) (2 ^ 20 + 1) none).1 = 2 ^ 20 := by
  decide

end RankDB.Props

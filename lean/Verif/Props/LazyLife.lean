import Verif.Proofs.LazyLive
/-
Property C94: the write-behind store is never stuck, is bounded, and is empty after it was shut down.
-/
namespace RankDB.LazyLife
open LazySaver (Status Item Str0 Label Run)
open Spec.LazyLife Spec.LazySaver

/-! ### Every step on the queue is a step of the queue's model -/

def isPut : Label → Bool
  | .put .. => true
  | _ => false

theorem last_puts (store : MaxSize.Store) (ls : List Label) : last store (ls.filter isPut) = last store ls := by
  induction ls generalizing store with
  | nil => rfl
  | cons l ls ih =>
    cases l with
    | put s k b =>
      rw [List.filter_cons_of_pos rfl]
      exact ih _
    | _ =>
      rw [List.filter_cons_of_neg (by simp [isPut])]
      exact ih _

theorem base_step {o : Opts} {w w' : Life} {a : Act} (hl : LInv o w) (he : exec o w a = some w') :
    ∃ ls : List Label, (∀ l0 σ0, Run o.savers σ0 l0 w.base → Run o.savers σ0 (l0 ++ ls) w'.base) ∧
      ls.filter isPut = change w a ∧ ∀ i, Label.write i false ∈ ls → a = .write i false := by
  have skip : ∀ {w' : Life}, w'.base = w.base → ∃ ls : List Label,
      (∀ l0 σ0, Run o.savers σ0 l0 w.base → Run o.savers σ0 (l0 ++ ls) w'.base) ∧ ls.filter isPut = [] ∧
        ∀ i, Label.write i false ∈ ls → a = .write i false := by
    intro w' hb
    exact ⟨[], by intro l0 σ0 h; rw [List.append_nil, hb]; exact h, rfl, nofun⟩
  have one : ∀ {w' : Life} (l : Label), w'.base = LazySaver.step w.base l → LazySaver.enabled o.savers w.base l →
      (∀ i, l = Label.write i false → a = .write i false) → ∃ ls : List Label,
      (∀ l0 σ0, Run o.savers σ0 l0 w.base → Run o.savers σ0 (l0 ++ ls) w'.base) ∧ ls.filter isPut = [l].filter isPut ∧
        ∀ i, Label.write i false ∈ ls → a = .write i false := by
    intro w' l hb hen hw
    refine ⟨[l], ?_, rfl, ?_⟩
    · intro l0 σ0 h
      rw [hb]
      exact .snoc h hen
    · intro i hi
      exact hw i (List.mem_singleton.1 hi).symm
  cases a with
  | check i =>
    simp only [exec] at he
    split at he
    · cases he; exact skip rfl
    · cases he
  | put i =>
    simp only [exec] at he
    split at he
    · rename_i s k b hc
      cases he
      have : change w (.put i) = [.put s k b] := by simp only [change, hc]
      rw [this]
      exact one (.put s k b) rfl enabled_put nofun
    · cases he
  | notify i =>
    simp only [exec] at he
    split at he
    · cases he; exact skip rfl
    · cases he
  | token i =>
    simp only [exec] at he
    split at he
    · split at he
      · cases he; exact skip rfl
      · cases he
    · cases he
  | handler =>
    simp only [exec, handlerStep] at he
    split at he
    · split at he
      · split at he <;> cases he <;> exact skip rfl
      · split at he <;> cases he <;> exact skip rfl
    · rename_i f hs
      split at he
      · rename_i hq
        cases he
        refine one .choose rfl (enabled_choose ?_ (waitingItem_iff.1 hq)) nofun
        rw [← hl.send]
        rintro ⟨f', n', h'⟩
        rw [hs] at h'; cases h'
      · cases he; exact skip rfl
    · cases he; exact skip rfl
    · split at he <;> cases he <;> exact skip rfl
    all_goals cases he
  | fire =>
    simp only [exec] at he
    split at he
    · cases he; exact skip rfl
    · cases he
  | wake =>
    simp only [exec] at he
    split at he
    · cases he; exact skip rfl
    · cases he
  | hear =>
    simp only [exec] at he
    split at he
    · cases he; exact skip rfl
    · cases he
  | take i =>
    simp only [exec] at he
    split at he
    · rename_i f n hc
      split at he
      · rename_i hi
        cases he
        exact one (.take i) rfl (enabled_take hi.1 hi.2 (hl.send.1 ⟨f, n, hc⟩)) nofun
      · cases he
    · cases he
  | write i ok =>
    simp only [exec] at he
    split at he
    · rename_i hi
      cases he
      refine one (.write i ok) rfl (mem_sts.1 (any_sts.1 hi)) ?_
      intro j hj
      cases hj
      rfl
    · cases he
  | pay i =>
    simp only [exec] at he
    split at he
    · cases he; exact skip rfl
    · cases he
  | remove i =>
    simp only [exec] at he
    split at he
    · rename_i hi
      cases he
      exact one (.remove i) rfl (mem_sts.1 (hl.paidOf i hi)) nofun
    · cases he
  | stop =>
    simp only [exec, stopStep] at he
    split at he
    · cases he; exact skip rfl
    · cases he; exact skip rfl
    · split at he <;> cases he
      exact skip rfl
    · split at he <;> cases he
      exact skip rfl
    · split at he <;> cases he
      exact skip rfl
    · cases he

theorem base_run {o : Opts} {σ0 : LazySaver.State} {as : List Act} {w w' : Life} (hl : LInv o w) {l0 : List Label}
    (hr : Run o.savers σ0 l0 w.base) (he : execAll o w as = some w') :
    ∃ ls : List Label, Run o.savers σ0 (l0 ++ ls) w'.base ∧ ls.filter isPut = puts o w as ∧
      ∀ i, Label.write i false ∈ ls → .write i false ∈ as := by
  induction as generalizing w l0 with
  | nil => cases he; exact ⟨[], by rw [List.append_nil]; exact hr, rfl, nofun⟩
  | cons a as ih =>
    simp only [execAll] at he
    cases h1 : exec o w a with
    | none => rw [h1] at he; cases he
    | some w1 =>
      rw [h1] at he
      obtain ⟨l1, b1, b2, b3⟩ := base_step hl h1
      obtain ⟨l2, c1, c2, c3⟩ := ih (linv_exec hl h1) (b1 _ _ hr) he
      refine ⟨l1 ++ l2, by rw [← List.append_assoc]; exact c1, ?_, ?_⟩
      · rw [List.filter_append, b2, c2]
        simp only [puts, h1]
      · intro i hi
        rcases List.mem_append.1 hi with h | h
        · rw [b3 i h]; exact List.mem_cons_self ..
        · exact List.mem_cons_of_mem _ (c3 i h)

theorem nodup_length : ∀ (n : Nat) (l : List Nat), l.Nodup → (∀ i ∈ l, i < n) → l.length ≤ n
  | 0, l, _, h => by
    cases l with
    | nil => exact Nat.le_refl _
    | cons x l => exact absurd (h x (List.mem_cons_self ..)) (Nat.not_lt_zero _)
  | n + 1, l, hd, h => by
    have h1 := nodup_length n (l.erase n) (hd.erase n) (by
      intro i hi
      rw [hd.mem_erase_iff] at hi
      have := h i hi.2
      omega)
    by_cases hm : n ∈ l
    · rw [List.length_erase_of_mem hm] at h1
      omega
    · rw [List.erase_of_not_mem hm] at h1
      omega

theorem paid_bound {o : Opts} {w : Life} (hl : LInv o w) : w.paid.length ≤ o.savers := by
  refine nodup_length _ _ hl.paidNodup ?_
  intro i hi
  obtain ⟨e, he, hs⟩ := mem_sts.1 (hl.paidOf i hi)
  exact hl.str.savers e he i (.inr hs)

theorem waiters_eq (w : Life) : waiters w = w.callers.countP pending := by
  unfold waiters
  rw [List.countP_eq_length_filter]
  congr 1
  apply List.filter_congr
  intro c _
  cases c <;> simp [pending]

theorem no_stop {o : Opts} {store : MaxSize.Store} {calls : List (Str × Str × Option Wire.Bytes)} {as : List Act} (h : Act.stop ∉ as) :
    NoLateCall o store calls as := by
  intro a b w hab
  exact absurd (hab ▸ (by simp) : Act.stop ∈ as) h

end RankDB.LazyLife

namespace RankDB.Props
open RankDB.LazyLife Spec.LazyLife Spec.LazySaver

/-! ### C94 -/

/-- **C94, while the store is in use.** As long as `Shutdown` has not been called, whatever the goroutines did so far,
and whether or not the store below accepts what is written: the goroutines that are already at work can go on until all
calls that have begun have returned and everything has been written. No call waits forever. -/
theorem C94_never_stuck (o : Opts) (ho : o.accepted = true) (store : MaxSize.Store) (calls : List (Str × Str × Option Wire.Bytes))
    (as : List Act) (w : Life) (h : Reached o store calls as w) (hn : Act.stop ∉ as) (ok : Bool) :
    ∃ bs w', execAll o w bs = some w' ∧ (∀ b ∈ bs, Own ok false b) ∧ AtRest w' := by
  have hb : ∀ (as : List Act) (w0 : Life), w0.stop = .before → Act.stop ∉ as → execAll o w0 as = some w → w.stop = .before := by
    intro as
    induction as with
    | nil => intro w0 h0 _ he; cases he; exact h0
    | cons a as ih =>
      intro w0 h0 hm he
      simp only [execAll] at he
      cases h1 : LazyLife.exec o w0 a with
      | none => rw [h1] at he; cases he
      | some w1 =>
        rw [h1] at he
        refine ih w1 ((stop_kept h1 ?_).2 h0) (fun hh => hm (List.mem_cons_of_mem _ hh)) he
        rintro rfl
        exact absurd (List.mem_cons_self ..) hm
  have hstop := hb as _ rfl hn h
  exact rests ho (linv_execAll linv_start h) (quiet_reached h (no_stop hn)) (by simp [hstop])

/-- **C94, with `Shutdown`.** If no call was between its look at the flag and its change of the queue when `Shutdown`
was called, the same holds afterwards, and `Shutdown` returns. Missing: calls that overlap the beginning of
`Shutdown`, for which `C94_late_call_lost` and `C94_late_call_waits` show that it fails. -/
theorem C94_shutdown_ends_partial (o : Opts) (ho : o.accepted = true) (store : MaxSize.Store)
    (calls : List (Str × Str × Option Wire.Bytes)) (as : List Act) (w : Life) (h : Reached o store calls as w)
    (hn : NoLateCall o store calls as) (ok : Bool) :
    ∃ bs w', execAll o w bs = some w' ∧ (∀ b ∈ bs, Own ok w.closing b) ∧ AtRest w' :=
  rests ho (linv_execAll linv_start h) (quiet_reached h hn) (by simp [Life.closing])

/-- **C94, the queue is bounded.** There are never more items in the queue than the limit, one for each call that still
waits, and one for each saver. -/
theorem C94_bounded (o : Opts) (store : MaxSize.Store) (calls : List (Str × Str × Option Wire.Bytes)) (as : List Act) (w : Life)
    (h : Reached o store calls as w) : w.base.queue.length ≤ o.maxItems + waiters w + o.savers := by
  have hl := linv_execAll linv_start h
  have h1 := hl.count
  have h2 := paid_bound hl
  rw [waiters_eq]
  rw [sts_length] at h1
  omega

/-- **C94, after `Shutdown`.** Under the same assumption nothing is left in the queue when `Shutdown` returns. -/
theorem C94_shutdown_empty_partial (o : Opts) (store : MaxSize.Store) (calls : List (Str × Str × Option Wire.Bytes)) (as : List Act)
    (w : Life) (h : Reached o store calls as w) (hn : NoLateCall o store calls as) (hf : w.stop = .finished) : w.base.queue = [] :=
  (quiet_reached h hn).finished hf

/-- **C94, after `Shutdown`, with one saver.** If also no write fails, the store below has the last change of each key. -/
theorem C94_shutdown_stored_partial (o : Opts) (ho : o.savers = 1) (store : MaxSize.Store)
    (calls : List (Str × Str × Option Wire.Bytes)) (as : List Act) (w : Life) (h : Reached o store calls as w)
    (hn : NoLateCall o store calls as) (hf : w.stop = .finished) (hw : ∀ i, Act.write i false ∉ as) (P : Str → Str → Prop)
    (hP : Distinct P) (hu : Uses P (puts o (start o store calls) as)) (s k : Str) (hk : P s k) :
    w.base.store s k = last store (puts o (start o store calls) as) s k := by
  obtain ⟨ls, h1, h2, h3⟩ := base_run linv_start (l0 := []) .nil h
  rw [ho] at h1
  rw [← h2, last_puts]
  refine C40_single_saver_partial store P hP ls _ h1 (fun i hi => hw i (h3 i hi)) ?_ (C94_shutdown_empty_partial o store calls as w h hn hf) s k hk
  intro s k b hm
  refine hu s k b ?_
  rw [← h2]
  exact List.mem_filter.2 ⟨hm, rfl⟩

/-! ### Calls that overlap `Shutdown` -/

def lateOpts : Opts := ⟨1, 1, 1⟩
def lateStore : MaxSize.Store := fun _ _ => none
def lateCalls : List (Str × Str × Option Wire.Bytes) := [([], [1], some [10])]

/-- The call looks at the flag, `Shutdown` sets it, the handler finds nothing to do and exits, the call adds its item. -/
def lateLost : List Act := [.check 0, .stop, .handler, .put 0, .notify 0, .token 0, .stop]

/-- The call adds its item after `Shutdown` has returned. -/
def lateWaits : List Act := [.check 0, .stop, .handler, .stop, .stop, .stop, .stop, .put 0, .notify 0]

theorem stuck_of {o : Opts} {w : Life} (c : Caller) (hc : w.callers = [c]) (h1 : ∀ s k b, c ≠ .idle s k b) (h2 : ∀ s k b, c ≠ .checked s k b)
    (h3 : c ≠ .added) (h4 : c = .waiting → w.tokens = 0) (h5 : w.handler = .exited) (h6 : ∀ e ∈ w.base.queue, e.status = .queued)
    (h7 : w.paid = []) (h8 : stopStep o w = none) : Stuck o w := by
  have hcall : ∀ (i : Nat) (d : Caller), w.callers[i]? = some d → d = c := by
    intro i d hd
    rw [hc] at hd
    cases i with
    | zero => simpa using hd.symm
    | succ i => simp at hd
  intro a
  cases a with
  | check i =>
    simp only [LazyLife.exec]
    split
    · rename_i hh; exact absurd (hcall _ _ hh).symm (h1 _ _ _)
    · rfl
  | put i =>
    simp only [LazyLife.exec]
    split
    · rename_i hh; exact absurd (hcall _ _ hh).symm (h2 _ _ _)
    · rfl
  | notify i =>
    simp only [LazyLife.exec]
    split
    · rename_i hh; exact absurd (hcall _ _ hh).symm h3
    · rfl
  | token i =>
    simp only [LazyLife.exec]
    split
    · rename_i hh
      have := h4 (hcall _ _ hh).symm
      rw [if_neg (by omega)]
    · rfl
  | handler => simp only [LazyLife.exec, handlerStep, h5]
  | fire => simp [LazyLife.exec, h5]
  | wake => simp [LazyLife.exec, h5]
  | hear => simp [LazyLife.exec, h5]
  | take i => simp only [LazyLife.exec, h5]
  | write i ok =>
    simp only [LazyLife.exec]
    rw [if_neg]
    rw [List.any_eq_true]
    rintro ⟨e, he, hs⟩
    rw [h6 e he] at hs
    simp at hs
  | pay i =>
    simp only [LazyLife.exec]
    rw [if_neg]
    rintro ⟨hh, -⟩
    rw [List.any_eq_true] at hh
    obtain ⟨e, he, hs⟩ := hh
    rw [h6 e he] at hs
    simp at hs
  | remove i => simp [LazyLife.exec, h7]
  | stop => exact h8

/-- C94 fails for a call that overlaps `Shutdown`: it returns without an error, its value is never written, and
`Shutdown` never returns, because no goroutine can make a step. -/
theorem C94_late_call_lost : lateOpts.accepted = true ∧ ∃ w, Reached lateOpts lateStore lateCalls lateLost w ∧ w.callers = [.done] ∧
    w.base.store [] [1] = none ∧ w.stop = .draining 1 ∧ Stuck lateOpts w := by
  refine ⟨by decide, _, rfl, rfl, rfl, rfl, ?_⟩
  exact stuck_of .done rfl nofun nofun nofun nofun rfl (by decide) rfl rfl

/-- C94 fails for a call that overlaps `Shutdown` in another way: `Shutdown` returns, and the call waits forever for a
token. -/
theorem C94_late_call_waits : ∃ w, Reached lateOpts lateStore lateCalls lateWaits w ∧ w.callers = [.waiting] ∧
    w.base.store [] [1] = none ∧ w.stop = .finished ∧ w.base.queue ≠ [] ∧ Stuck lateOpts w := by
  refine ⟨_, rfl, rfl, rfl, rfl, by decide, ?_⟩
  exact stuck_of .waiting rfl nofun nofun nofun (fun _ => rfl) rfl (by decide) rfl rfl

/-! ### Examples -/

def lifeOpts : Opts := ⟨2, 1, 1⟩
def lifeCalls : List (Str × Str × Option Wire.Bytes) := [([], [1], some [10]), ([], [2], some [20]), ([], [1], none)]

/-- Three calls, the second of which waits for a token. -/
def lifeActs : List Act :=
  [.check 0, .put 0, .notify 0, .token 0, .handler, .wake, .handler, .handler, .handler, .fire, .handler, .check 1, .put 1, .notify 1,
    .check 2, .put 2, .notify 2, .token 1]

/-- Then everything is written and `Shutdown` returns. -/
def lifeEnd : List Act :=
  [.take 0, .write 0 true, .pay 0, .token 2, .remove 0, .stop, .stop, .handler, .handler, .take 0, .write 0 true, .pay 0, .remove 0, .stop,
    .handler, .handler, .take 0, .write 0 true, .pay 0, .remove 0, .stop, .handler, .stop, .stop]

example : (execAll lifeOpts (start lifeOpts lateStore lifeCalls) lifeActs).map (fun w => (w.callers, w.base.queue.length, w.tokens)) =
    some ([.done, .done, .waiting], 3, 0) := by decide +kernel

/-- The hypotheses of the theorems about `Shutdown` hold of a run with three calls. -/
example : lifeOpts.accepted = true ∧ ∃ w, Reached lifeOpts lateStore lifeCalls (lifeActs ++ lifeEnd) w ∧ w.stop = .finished ∧
    w.callers = [.done, .done, .done] ∧ w.base.store [] [1] = none ∧ w.base.store [] [2] = some [20] ∧
    last lateStore (puts lifeOpts (start lifeOpts lateStore lifeCalls) (lifeActs ++ lifeEnd)) [] [2] = some [20] := by
  refine ⟨by decide, _, rfl, ?_⟩
  decide +kernel

/-- No call is late in it. -/
example : NoLateCall lifeOpts lateStore lifeCalls (lifeActs ++ lifeEnd) := by
  intro a b w hab hr hb s k v hm
  have hsplit : ∀ (n : Nat) (w : Life), execAll lifeOpts (start lifeOpts lateStore lifeCalls) ((lifeActs ++ lifeEnd).take n) = some w →
      (lifeActs ++ lifeEnd)[n]? = some .stop → w.stop = .before → n = 23 := by
    have : ∀ n < 42, (lifeActs ++ lifeEnd)[n]? = some .stop →
        ((execAll lifeOpts (start lifeOpts lateStore lifeCalls) ((lifeActs ++ lifeEnd).take n)).map (·.stop) = some .before) → n = 23 := by
      decide +kernel
    intro n w h1 h2 h3
    by_cases hn : n < 42
    · exact this n hn h2 (by rw [h1]; simp [h3])
    · rw [List.getElem?_eq_none (by have : (lifeActs ++ lifeEnd).length = 42 := rfl; omega)] at h2
      cases h2
  have htake : (lifeActs ++ lifeEnd).take a.length = a := by rw [hab]; simp
  have hget : (lifeActs ++ lifeEnd)[a.length]? = some .stop := by rw [hab]; simp
  have hlen := hsplit a.length w (by rw [htake]; exact hr) hget hb
  have : (execAll lifeOpts (start lifeOpts lateStore lifeCalls) ((lifeActs ++ lifeEnd).take 23)).map (·.callers) = some [.done, .done, .done] := by
    decide +kernel
  rw [← hlen, htake] at this
  unfold Reached at hr
  rw [hr] at this
  simp only [Option.map_some, Option.some.injEq] at this
  rw [this] at hm
  simp at hm

end RankDB.Props

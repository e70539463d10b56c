import Verif.Model.Saver
/-
The interval saver (C60).
-/
namespace RankDB
namespace Saver
open Wire (Bytes)

/-- A list of ticks without shutdown. -/
def Ticks (evs : List Event) : Prop := ∀ e ∈ evs, ∃ f a b, e = .tick f a b

theorem step_tick (c : Config) (s : State) (f : Bytes) (a b : Bool) (hs : s.stopped = false) :
    step c s (.tick f a b) =
      { last := (if due c s then 0 else s.last) + 1
        primary := if b then some f else s.primary
        backup := if due c s && a then some f else s.backup
        stopped := false } := by
  obtain ⟨l, p, q, st⟩ := s
  simp only at hs
  subst hs
  simp only [step, saveLists, Bool.false_eq_true, if_false]
  cases due c ⟨l, p, q, false⟩ <;> cases a <;> cases b <;> rfl

theorem step_shutdown (c : Config) (s : State) (f : Bytes) (b : Bool) (hs : s.stopped = false) :
    step c s (.shutdown f b) = { s with primary := if b then some f else s.primary, stopped := true } := by
  obtain ⟨l, p, q, st⟩ := s
  simp only at hs
  subst hs
  simp only [step, saveLists, Bool.false_eq_true, if_false]
  cases b <;> rfl

theorem step_stopped (c : Config) (s : State) (e : Event) (hs : s.stopped = true) : step c s e = s := by
  cases e <;> simp [step, hs]

/-- The counter after `n` ticks. -/
theorem last_run (c : Config) (hb : c.hasBackup = true) (hk : 0 < c.every) : ∀ (evs : List Event), Ticks evs →
    (run c {} evs).stopped = false ∧
    (run c {} evs).last = if evs.length = 0 then 0 else (evs.length - 1) % c.every + 1 := by
  intro evs
  suffices h : ∀ rev : List Event, Ticks rev.reverse → (run c {} rev.reverse).stopped = false ∧
      (run c {} rev.reverse).last = if rev.length = 0 then 0 else (rev.length - 1) % c.every + 1 by
    intro ht
    have := h evs.reverse (by rw [List.reverse_reverse]; exact ht)
    rw [List.reverse_reverse, List.length_reverse] at this
    exact this
  intro rev
  induction rev with
  | nil => intro _; exact ⟨rfl, rfl⟩
  | cons e rev ih =>
    intro ht
    have ht' : Ticks rev.reverse := fun x hx => ht x (by simp only [List.reverse_cons, List.mem_append]; exact Or.inl hx)
    obtain ⟨h1, h2⟩ := ih ht'
    obtain ⟨f, a, b, rfl⟩ := ht e (by simp)
    have hrun : run c {} (Event.tick f a b :: rev).reverse = step c (run c {} rev.reverse) (.tick f a b) := by
      unfold run; rw [List.reverse_cons, List.foldl_append]; rfl
    rw [hrun]
    rw [step_tick _ _ _ _ _ h1]
    refine ⟨rfl, ?_⟩
    simp only [List.length_cons]
    rw [if_neg (by omega : ¬ rev.length + 1 = 0), Nat.add_sub_cancel]
    congr 1
    unfold due
    rw [hb, h2]
    simp only [Bool.true_and, hk, decide_true, decide_eq_true_eq]
    rcases Nat.eq_zero_or_pos rev.length with h0 | h0
    · rw [h0]; simp
    · have h00 : ¬ rev.length = 0 := by omega
      rw [if_neg h00]
      have hlt := Nat.mod_lt (rev.length - 1) hk
      by_cases hge : (rev.length - 1) % c.every + 1 ≥ c.every
      · rw [if_pos hge]
        have he : (rev.length - 1) % c.every + 1 = c.every := by omega
        have : rev.length = c.every * ((rev.length - 1) / c.every) + c.every := by
          have := Nat.div_add_mod (rev.length - 1) c.every
          omega
        rw [this, Nat.add_mod_right, Nat.mul_mod_right]
      · rw [if_neg hge]
        have h5 := Nat.div_add_mod (rev.length - 1) c.every
        have h6 : rev.length = c.every * ((rev.length - 1) / c.every) + ((rev.length - 1) % c.every + 1) := by omega
        have h8 : rev.length % c.every = (rev.length - 1) % c.every + 1 := by
          conv => lhs; rw [h6]
          rw [Nat.mul_add_mod, Nat.mod_eq_of_lt (by omega)]
        rw [h8]

end Saver

namespace Props
open Saver Wire

/-! ### C60 Interval of backups -/

/-- The tick after `n` ticks writes a backup if and only if `n` is a positive multiple of the interval. So
between two backups there are exactly as many saves as configured, and the first backup comes with save
number `every + 1`. -/
theorem C60_interval (c : Config) (hb : c.hasBackup = true) (hk : 0 < c.every) (evs : List Event) (ht : Ticks evs) :
    due c (run c {} evs) = true ↔ 0 < evs.length ∧ evs.length % c.every = 0 := by
  obtain ⟨-, h2⟩ := last_run c hb hk evs ht
  unfold due
  rw [hb, h2]
  simp only [Bool.true_and, gt_iff_lt, hk, decide_true, decide_eq_true_eq]
  rcases Nat.eq_zero_or_pos evs.length with h0 | h0
  · rw [h0]; simp; omega
  · rw [if_neg (by omega)]
    have hlt := Nat.mod_lt (evs.length - 1) hk
    have h5 := Nat.div_add_mod (evs.length - 1) c.every
    constructor
    · intro hge
      refine ⟨h0, ?_⟩
      have : evs.length = c.every * ((evs.length - 1) / c.every) + c.every := by omega
      rw [this, Nat.add_mod_right, Nat.mul_mod_right]
    · rintro ⟨-, hm⟩
      have h6 := Nat.div_add_mod evs.length c.every
      rw [hm] at h6
      rcases Nat.lt_or_ge ((evs.length - 1) % c.every + 1) c.every with hlt' | hge
      · exfalso
        have h7 : evs.length = c.every * ((evs.length - 1) / c.every) + ((evs.length - 1) % c.every + 1) := by omega
        have h8 : evs.length % c.every = (evs.length - 1) % c.every + 1 := by
          conv => lhs; rw [h7]
          rw [Nat.mul_add_mod, Nat.mod_eq_of_lt (by omega)]
        omega
      · exact hge

/-- Without a backup store, or with interval 0, there are no backups. -/
theorem C60_disabled (c : Config) (h : c.hasBackup = false ∨ c.every = 0) (evs : List Event) (s : State) :
    (run c s evs).backup = s.backup := by
  have hd : ∀ s, due c s = false := by
    intro s; unfold due
    rcases h with h | h <;> simp [h]
  induction evs generalizing s with
  | nil => rfl
  | cons e evs ih =>
    unfold run at *
    rw [List.foldl_cons, ih]
    cases hs : s.stopped with
    | true => rw [step_stopped c s e hs]
    | false =>
      cases e with
      | tick f a b => rw [step_tick c s f a b hs, hd]; rfl
      | shutdown f b => rw [step_shutdown c s f b hs]

/-- What a due tick stores: the same file in both places if both accept the write; a failure of one does not
affect the other. -/
theorem C60_written (c : Config) (s : State) (f : Bytes) (a b : Bool) (hs : s.stopped = false) :
    (step c s (.tick f a b)).backup = (if due c s && a then some f else s.backup) ∧
    (step c s (.tick f a b)).primary = (if b then some f else s.primary) := by
  rw [step_tick c s f a b hs]; exact ⟨rfl, rfl⟩

/-- The file is saved at every tick and at shutdown: if the store accepts the last write, it has the last file. -/
theorem C60_shutdown (c : Config) (s : State) (f : Bytes) (hs : s.stopped = false) :
    (step c s (.shutdown f true)).primary = some f ∧ (step c s (.shutdown f true)).backup = s.backup ∧
    ∀ evs, run c (step c s (.shutdown f true)) evs = step c s (.shutdown f true) := by
  rw [step_shutdown c s f true hs]
  refine ⟨rfl, rfl, ?_⟩
  intro evs
  induction evs with
  | nil => rfl
  | cons e evs ih =>
    unfold run at *
    rw [List.foldl_cons, step_stopped c _ e rfl, ih]

/-- Interval 2: backups at the third, fifth and seventh save. -/
example : Ticks (List.replicate 6 (.tick [1] true true)) ∧
    (List.range 8).map (fun n => due ⟨true, 2⟩ (run ⟨true, 2⟩ {} (List.replicate n (.tick [1] true true)))) =
      [false, false, true, false, true, false, true, false] :=
  ⟨fun e he => ⟨_, _, _, List.eq_of_mem_replicate he⟩, by decide⟩

end Props
end RankDB

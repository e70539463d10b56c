import Verif.Model.Retry
/-
Property C41: the retrying store.
-/
namespace RankDB
namespace Spec.Retry
open RankDB.Retry

/-- The errors that are never retried by default. -/
def defaults : List Err := [.canceled, .notFound, .tooBig]

/-- The errors configured by options. -/
def configured (opts : List Opt) : List Err :=
  opts.flatMap (fun o => match o with
    | .permanentErr errs => errs.filterMap id
    | .other => [])

/-- An attempt ends an operation: it succeeded, failed permanently, or no further attempt is allowed. -/
def Ends {V : Type} (perm : Err → Bool) (a : Attempt V) : Prop :=
  match a.outcome with
  | .ok _ => True
  | .error e => perm e = true ∨ a.ctxDone = true ∨ a.stop = true

end Spec.Retry

namespace Props
open RankDB.Retry Spec.Retry

/-- The result is the outcome of the first attempt that ends the operation, and no attempt is made after it. -/
theorem C41_first_ending {V : Type} (perm : Err → Bool) (as : List (Attempt V)) (r : Except Err V) (n : Nat) :
    retry perm as = some (r, n) ↔
      ∃ before a behind, as = before ++ a :: behind ∧ n = before.length + 1 ∧ a.outcome = r ∧ Ends perm a ∧
        ∀ b ∈ before, ¬Ends perm b := by
  induction as generalizing n with
  | nil => simp [retry]
  | cons a as ih =>
    have hstep : Ends perm a ∧ retry perm (a :: as) = some (a.outcome, 1) ∨
        ¬Ends perm a ∧ retry perm (a :: as) = (retry perm as).map (fun (r, n) => (r, n + 1)) := by
      cases ho : a.outcome with
      | ok v => left; simp [Ends, retry, ho]
      | error e =>
        by_cases h1 : perm e = true
        · left; simp [Ends, retry, ho, h1]
        · by_cases h2 : a.ctxDone = true
          · left; simp [Ends, retry, ho, h1, h2]
          · by_cases h3 : a.stop = true
            · left; simp [Ends, retry, ho, h1, h2, h3]
            · right
              constructor
              · simp [Ends, ho, h1, h2, h3]
              · rw [retry, ho]
                simp [h1, h2, h3]
    rcases hstep with ⟨he, h⟩ | ⟨he, h⟩
    · rw [h]
      constructor
      · intro hr
        simp only [Option.some.injEq, Prod.mk.injEq] at hr
        exact ⟨[], a, as, rfl, by simp [hr.2.symm], hr.1, he, by simp⟩
      · rintro ⟨before, b, behind, hsplit, hn, ho, hend, hb⟩
        cases before with
        | nil =>
          simp only [List.nil_append, List.cons.injEq] at hsplit
          rw [hsplit.1, ho, hn]
          rfl
        | cons c before =>
          simp only [List.cons_append, List.cons.injEq] at hsplit
          exact absurd he (hsplit.1 ▸ hb c (List.mem_cons_self ..))
    · rw [h]
      constructor
      · intro hr
        cases hm : retry perm as with
        | none => rw [hm] at hr; simp at hr
        | some q =>
          obtain ⟨r', n'⟩ := q
          rw [hm] at hr
          simp only [Option.map_some, Option.some.injEq, Prod.mk.injEq] at hr
          obtain ⟨rfl, rfl⟩ := hr
          obtain ⟨before, b, behind, hsplit, hn, ho, hend, hb⟩ := (ih n').1 hm
          refine ⟨a :: before, b, behind, by rw [hsplit]; rfl, by simp [hn], ho, hend, ?_⟩
          intro c hc
          rcases List.mem_cons.1 hc with rfl | hc
          · exact he
          · exact hb c hc
      · rintro ⟨before, b, behind, hsplit, hn, ho, hend, hb⟩
        cases before with
        | nil =>
          simp only [List.nil_append, List.cons.injEq] at hsplit
          exact absurd hend (hsplit.1 ▸ he)
        | cons c before =>
          simp only [List.cons_append, List.cons.injEq] at hsplit
          have := (ih (before.length + 1)).2 ⟨before, b, behind, hsplit.2, rfl, ho, hend,
            fun d hd => hb d (List.mem_cons_of_mem _ hd)⟩
          rw [this]
          simp [hn]

/-- It goes on retrying exactly as long as no attempt ends it. -/
theorem C41_goes_on {V : Type} (perm : Err → Bool) (as : List (Attempt V)) :
    retry perm as = none ↔ ∀ a ∈ as, ¬Ends perm a := by
  constructor
  · intro h a ha he
    have : ∀ l : List (Attempt V), (∃ a ∈ l, Ends perm a) →
        ∃ before a behind, l = before ++ a :: behind ∧ Ends perm a ∧ ∀ b ∈ before, ¬Ends perm b := by
      intro l
      induction l with
      | nil => simp
      | cons x l ih =>
        intro hex
        by_cases hx : Ends perm x
        · exact ⟨[], x, l, rfl, hx, by simp⟩
        · have : ∃ a ∈ l, Ends perm a := by
            obtain ⟨a, ha, he⟩ := hex
            rcases List.mem_cons.1 ha with rfl | ha
            · exact absurd he hx
            · exact ⟨a, ha, he⟩
          obtain ⟨before, b, behind, h1, h2, h3⟩ := ih this
          refine ⟨x :: before, b, behind, by rw [h1]; rfl, h2, ?_⟩
          intro c hc
          rcases List.mem_cons.1 hc with rfl | hc
          · exact hx
          · exact h3 c hc
    obtain ⟨before, b, behind, h1, h2, h3⟩ := this as ⟨a, ha, he⟩
    have := (C41_first_ending perm as b.outcome (before.length + 1)).2 ⟨before, b, behind, h1, rfl, rfl, h2, h3⟩
    rw [h] at this
    simp at this
  · intro h
    cases hr : retry perm as with
    | none => rfl
    | some q =>
      obtain ⟨before, b, behind, h1, _, _, h2, _⟩ := (C41_first_ending perm as q.1 q.2).1 hr
      exact absurd h2 (h b (by rw [h1]; simp))

/-! ### Which errors are permanent -/

/-- Stores created one after the other in a process, each with its options: the maps and the map of each store. -/
def createAll (w : World) : List (List Opt) → World × List Nat
  | [] => (w, [])
  | o :: os =>
    let (w1, p) := newStore w o
    let (w2, ps) := createAll w1 os
    (w2, p :: ps)

/-- Options that configure no permanent error. -/
def Plain (opts : List Opt) : Prop := ∀ o ∈ opts, match o with
  | .permanentErr errs => errs = []
  | .other => True

theorem newStore_plain (w : World) (opts : List Opt) (h : Plain opts) : newStore w opts = (w, 0) := by
  unfold newStore
  have : ∀ p, opts.foldl (fun (w, p) o => applyOpt w p o) (w, p) = (w, p) := by
    intro p
    induction opts with
    | nil => rfl
    | cons o opts ih =>
      rw [List.foldl_cons]
      have ho := h o (List.mem_cons_self ..)
      have : applyOpt w p o = (w, p) := by
        cases o with
        | other => rfl
        | permanentErr errs =>
          dsimp only at ho
          subst ho
          rfl
      dsimp only
      rw [this]
      exact ih (fun o' h' => h o' (List.mem_cons_of_mem _ h'))
  exact this 0

/-- As long as no store of the process is configured with permanent errors, the permanent errors of every store are
exactly the default ones. -/
theorem C41_defaults_partial (all : List (List Opt)) (h : ∀ o ∈ all, Plain o) (p : Nat)
    (hp : p ∈ (createAll initial all).2) (e : Err) :
    isPermanent (createAll initial all).1 p e = true ↔ e ∈ defaults := by
  have : createAll initial all = (initial, all.map (fun _ => 0)) := by
    clear hp
    induction all with
    | nil => rfl
    | cons o os ih =>
      simp only [createAll, newStore_plain initial o (h o (List.mem_cons_self ..)),
        ih (fun o' h' => h o' (List.mem_cons_of_mem _ h')), List.map_cons]
  rw [this] at hp ⊢
  simp only [List.mem_map] at hp
  obtain ⟨_, _, rfl⟩ := hp
  unfold isPermanent
  rw [List.contains_iff_mem]
  exact Iff.rfl

/-- What the options do instead of what they are documented to do: for every state of the process and all options,
the errors permanent for the new store when it is created and configures errors are those in the default table
before, whatever is configured. -/
theorem C41_configured_ignored (w : World) (hw : w.maps ≠ []) (opts : List Opt) (e : Err) :
    isPermanent (newStore w opts).1 (newStore w opts).2 e = isPermanent w 0 e := by
  have hlen : 0 < w.maps.length := List.length_pos_iff.2 hw
  -- once the map is a private copy, it stays a copy of the default before
  have later : ∀ (opts : List Opt) (w1 : World) (p : Nat), p < w1.maps.length → w1.get p = w.get 0 →
      (opts.foldl (fun (w, p) o => applyOpt w p o) (w1, p)).1.get
        (opts.foldl (fun (w, p) o => applyOpt w p o) (w1, p)).2 = w.get 0 := by
    intro opts
    induction opts with
    | nil => intro w1 p _ h; exact h
    | cons o opts ih =>
      intro w1 p hp h
      rw [List.foldl_cons]
      cases o with
      | other => exact ih w1 p hp h
      | permanentErr errs =>
        cases errs with
        | nil => exact ih w1 p hp h
        | cons x xs =>
          dsimp only [applyOpt]
          apply ih
          · simp
          · simp only [World.get]
            rw [List.getElem?_append_right (by simp)]
            simp only [List.length_set, Nat.sub_self, List.getElem?_cons_zero, Option.getD_some]
            exact h
  unfold isPermanent newStore
  rw [later opts w 0 hlen rfl]

/-- The errors configured by the first such option become permanent for all stores that use the defaults. -/
theorem C41_configured_leak (w : World) (hw : w.maps ≠ []) (errs : List (Option Err)) (opts : List Opt) (e : Err)
    (he : some e ∈ errs) : isPermanent (newStore w (.permanentErr errs :: opts)).1 0 e = true := by
  have hlen : 0 < w.maps.length := List.length_pos_iff.2 hw
  have keep : ∀ (opts : List Opt) (w1 : World) (p : Nat), 0 < p → p < w1.maps.length → e ∈ w1.get 0 →
      e ∈ (opts.foldl (fun (w, p) o => applyOpt w p o) (w1, p)).1.get 0 := by
    intro opts
    induction opts with
    | nil => intro w1 p _ _ h; exact h
    | cons o opts ih =>
      intro w1 p hp hl h
      rw [List.foldl_cons]
      cases o with
      | other => exact ih w1 p hp hl h
      | permanentErr errs =>
        cases errs with
        | nil => exact ih w1 p hp hl h
        | cons x xs =>
          dsimp only [applyOpt]
          apply ih
          · omega
          · simp
          · simp only [World.get] at h ⊢
            rw [List.getElem?_append_left (by simp; omega), List.getElem?_set_ne (by omega)]
            exact h
  unfold isPermanent newStore
  rw [List.contains_iff_mem, List.foldl_cons]
  cases errs with
  | nil => simp at he
  | cons x xs =>
    dsimp only [applyOpt]
    apply keep
    · exact hlen
    · simp
    · simp only [World.get]
      rw [List.getElem?_append_left (by simpa using hlen), List.getElem?_set_self hlen]
      simp only [Option.getD_some, List.mem_append]
      right
      exact List.mem_filterMap.2 ⟨some e, he, rfl⟩

/-- The documented behaviour fails: an error configured as permanent is retried by the store it is configured for,
and is permanent for another store it is not configured for. -/
theorem C41_configured_wrong : ∃ e : Err,
    let (w, p) := newStore initial [.permanentErr [some e]]
    let (w', p') := newStore w []
    e ∈ configured [.permanentErr [some e]] ∧ isPermanent w' p e = false ∧
      e ∉ defaults ∧ isPermanent w' p' e = true :=
  ⟨.other 1, by decide⟩

/-- Non-vacuity: two failures, then a success, then an attempt that is not made. -/
example : retry (V := Nat) (fun e => e == .notFound)
    [⟨.error (.other 1), false, false⟩, ⟨.error (.other 2), false, false⟩, ⟨.ok 7, false, false⟩,
      ⟨.ok 8, false, false⟩] = some (.ok 7, 3) := rfl

/-- A permanent error ends it. -/
example : retry (V := Nat) (fun e => e == .notFound)
    [⟨.error (.other 1), false, false⟩, ⟨.error .notFound, false, false⟩, ⟨.ok 7, false, false⟩] =
      some (.error .notFound, 2) := rfl

example : Plain [.other, .permanentErr []] ∧ (createAll initial [[], [.other]]).2 = [0, 0] := by
  constructor
  · intro o ho
    simp only [List.mem_cons, List.not_mem_nil, or_false] at ho
    rcases ho with rfl | rfl
    · trivial
    · rfl
  · decide

end Props
end RankDB

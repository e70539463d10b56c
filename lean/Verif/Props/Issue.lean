import Verif.Props.Access
import Verif.Props.ClientJobs
import Verif.Spec.Issue
/-
C117: A token that is asked for is good for what was asked.
-/
namespace RankDB.Props
open Spec Routes Validate ClientArgs Access Issue

theorem chars_utf8 (other : Str → Text) (t : Text) : chars other (utf8 t) = t := by
  unfold chars utf8
  rw [show (t.flatMap String.utf8EncodeChar).toByteArray = t.utf8Encode from rfl, List.utf8Decode?_utf8Encode]

theorem claim_utf8 (other : Str → Text) (t : Option Text) : claim other (t.map utf8) =
    (match t with | none => .absent | some t => .str t) := by
  cases t with
  | none => rfl
  | some t => exact congrArg Claim.str (chars_utf8 other t)

theorem unix_of (s ns : Int) (h1 : 0 ≤ ns) (h2 : ns < 1000000000) : unix (1000000000 * s + ns) = s := by
  unfold unix
  omega

/-- The answer to a call with a number of minutes. -/
theorem ask_minutes (other : Str → Text) (t t' : Int) (scope : Text) (minutes : Nat) (onlyElements onlyLists : Option Text)
    (h1 : 1 ≤ minutes) (h2 : minutes < 2 ^ 63) :
    ask other true t t' scope (some minutes) onlyElements onlyLists =
      some { exp := unix (t + duration minutes), iat := unix t', nbf := 2, scopes := scope,
             onlyLists := claim other (onlyLists.map utf8), onlyElements := claim other (onlyElements.map utf8) } := by
  have hs := (C115_jobs_understood (.jwt (utf8 scope) (some minutes) (onlyElements.map utf8) (onlyLists.map utf8))
    (by intro x hx; simp [UseJob.call, meant] at hx) (by rintro i ⟨⟩; omega) _).2 (Wants.jwt h1)
  unfold ask
  rw [hs]
  simp only [Option.bind_some, issue, chars_utf8, if_true]

theorem opens (other : Str → Text) (c : Claims) (onlyElements onlyLists : Option Text)
    (h1 : c.onlyLists = claim other (onlyLists.map utf8)) (h2 : c.onlyElements = claim other (onlyElements.map utf8)) :
    Opens c onlyElements onlyLists := by
  rw [claim_utf8] at h1 h2
  unfold Opens Claims.token
  rw [h1, h2]
  constructor <;> intro ids
  · cases onlyLists with
    | none => exact ⟨nofun, fun _ => rfl⟩
    | some names =>
      refine (C47_restricted_lists names _ ids).trans ⟨?_, fun h => h _ rfl⟩
      rintro h _ ⟨⟩
      exact h
  · cases onlyElements with
    | none => exact ⟨nofun, fun _ => (C47_unrestricted _ .absent [] ids).2.2.2.1⟩
    | some names =>
      refine (C47_restricted_elements names _ ids).trans ⟨?_, fun h => h _ rfl⟩
      rintro h _ ⟨⟩
      exact h

theorem duration_small (minutes : Nat) (h : minutes ≤ 153722867) : duration minutes = 60000000000 * minutes := by
  unfold duration wrap
  omega

theorem validFrom (c : Claims) (h : c.nbf = 2) : ValidFrom c c.iat c.exp := by
  intro s ns h1 h2
  unfold Claims.valid
  rw [unix_of s ns h1 h2, h]
  simp only [Bool.and_eq_true, decide_eq_true_eq]
  omega

/-- C117. A token asked for with the client, for any texts and for up to 153722867 minutes (292 years), has the scope that was
asked for, opens exactly what was named, and is accepted from the second it was made until the minutes have passed. Missing:
longer times, see `C117_never_valid` and `C117_cut_short`. -/
theorem C117_token_partial (other : Str → Text) (t t' : Int) (scope : Text) (minutes : Nat) (onlyElements onlyLists : Option Text)
    (h1 : 1 ≤ minutes) (h2 : minutes ≤ 153722867) :
    ∃ c, ask other true t t' scope (some minutes) onlyElements onlyLists = some c ∧ c.scopes = scope ∧
      Opens c onlyElements onlyLists ∧ ValidFrom c (unix t') (unix t + 60 * minutes) := by
  refine ⟨_, ask_minutes other t t' scope minutes onlyElements onlyLists h1 (by omega), rfl, opens other _ _ _ rfl rfl, ?_⟩
  have e : unix (t + duration minutes) = unix t + 60 * minutes := by
    rw [duration_small minutes h2]
    unfold unix
    omega
  rw [← e]
  exact validFrom _ rfl

/-- Without a number of minutes the token is good for a day. -/
theorem C117_default (other : Str → Text) (t t' : Int) (scope : Text) (onlyElements onlyLists : Option Text) :
    ask other true t t' scope none onlyElements onlyLists = ask other true t t' scope (some 1440) onlyElements onlyLists := by
  have hs := (C115_jobs_understood (.jwt (utf8 scope) none (onlyElements.map utf8) (onlyLists.map utf8))
    (by intro x hx; simp [UseJob.call, meant] at hx) nofun _).2 Wants.jwtDefault
  have hm := ask_minutes other t t' scope 1440 onlyElements onlyLists (by omega) (by omega)
  unfold ask at hm ⊢
  rw [hs]
  refine Eq.trans ?_ hm.symm
  simp only [Option.bind_some, issue, chars_utf8, if_true]

/-- There are no tokens for less than a minute, and none at all if creating them is not enabled. -/
theorem C117_refused (other : Str → Text) (enabled : Bool) (t t' : Int) (scope : Text) (expire : Option Int)
    (onlyElements onlyLists : Option Text) (hi : IsInt expire) (h : enabled = false ∨ ∃ i, expire = some i ∧ i < 1) :
    ask other enabled t t' scope expire onlyElements onlyLists = none := by
  unfold ask
  cases hs : sendJob (.jwt (utf8 scope) expire (onlyElements.map utf8) (onlyLists.map utf8)) with
  | none => rfl
  | some j =>
    have hw := (C115_jobs_understood (.jwt (utf8 scope) expire (onlyElements.map utf8) (onlyLists.map utf8))
      (by intro x hx; simp [UseJob.call, meant] at hx) hi j).1 hs
    rcases h with rfl | ⟨i, rfl, hlt⟩
    · cases hw <;> rfl
    · cases hw with
      | jwt hm => omega

/-- The full statement is false: a token for more than 292 years, up to 584, is never accepted, because it has expired before
it was made. -/
theorem C117_never_valid (other : Str → Text) (t t' : Int) (scope : Text) (minutes : Nat) (onlyElements onlyLists : Option Text)
    (h1 : 153722868 ≤ minutes) (h2 : minutes ≤ 307445734) (ht : t ≤ t') :
    ∃ c, ask other true t t' scope (some minutes) onlyElements onlyLists = some c ∧ ∀ now, c.valid now = false := by
  refine ⟨_, ask_minutes other t t' scope minutes onlyElements onlyLists (by omega) (by omega), fun now => ?_⟩
  have e : duration minutes = 60000000000 * minutes - 2 ^ 64 := by
    unfold duration wrap
    omega
  cases hv : Claims.valid _ now with
  | false => rfl
  | true =>
    unfold Claims.valid at hv
    simp only [Bool.and_eq_true, decide_eq_true_eq, e] at hv
    unfold unix at hv
    omega

/-- A token for a minute more than that is accepted for less than half a minute. -/
theorem C117_cut_short (other : Str → Text) (t t' : Int) (scope : Text) (onlyElements onlyLists : Option Text) :
    ∃ c, ask other true t t' scope (some 307445735) onlyElements onlyLists = some c ∧
      ∀ now, c.valid now = true → unix now ≤ unix t + 27 := by
  refine ⟨_, ask_minutes other t t' scope 307445735 onlyElements onlyLists (by omega) (by omega), fun now hv => ?_⟩
  have e : duration 307445735 = 26290448384 := by decide +kernel
  unfold Claims.valid at hv
  simp only [Bool.and_eq_true, decide_eq_true_eq, e] at hv
  unfold unix at hv ⊢
  omega

/-- A token for ten minutes and two lists, with a name that is not ASCII, asked for at a time in 2019. -/
example : ∃ c, ask (fun _ => []) true 1560000000500000000 1560000000500000001 "api:read api:update".toList (some 10) none
      (some "höst, b-list".toList) = some c ∧ c.scopes = "api:read api:update".toList ∧
    hasAccessToList c.token ["b-list".toList] = .ok ∧ hasAccessToList c.token ["c-list".toList] = .denied "c-list".toList ∧
    c.valid 1560000600900000000 = true ∧ c.valid 1560000601000000000 = false := by
  refine ⟨_, ask_minutes _ _ _ _ 10 _ _ (by omega) (by omega), rfl, ?_, ?_, by decide +kernel, by decide +kernel⟩ <;>
  · simp only [Claims.token, claim_utf8]
    decide +kernel

end RankDB.Props

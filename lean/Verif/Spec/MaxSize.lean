import Verif.Model.MaxSize
/-
What a store of blobs promises, in terms of calls and results only.
-/
namespace RankDB.Spec.MaxSize
open RankDB.MaxSize Wire

/-- What the calls so far determine about a key: nothing, or the blob it has (`none`: no blob). -/
inductive Known
  | unknown
  | is (b : Option Bytes)

/-- After one call. A call that failed in the store below leaves its own key undetermined. -/
def after (v : Known) (s k : Str) : Op × Res → Known
  | (.set _ _ _ s' k' b, .unit r) =>
    if s' = s ∧ k' = k then
      match r with
      | .ok _ => .is (some b)
      | .error .tooBig => v
      | .error _ => .unknown
    else v
  | (.delete f _ s' k', .unit r) =>
    if s' = s ∧ k' = k then
      match r with
      | .ok _ => if f 0 then .is none else .unknown
      | .error _ => .unknown
    else v
  | _ => v

/-- What a history starting with an empty store determines about a key. -/
def last (h : List (Op × Res)) (s k : Str) : Known := h.foldl (fun v e => after v s k e) (.is none)

/-- A call to `get` answers as determined, unless it reports a failure of the store below. -/
def Answers (v : Known) (r : Except Err Bytes) : Prop :=
  match v with
  | .unknown => True
  | .is none => r = .error .notFound ∨ r = .error .store
  | .is (some b) => r = .ok b ∨ r = .error .store

/-- The keys a call is about. -/
def opKey : Op → Option Str
  | .get _ _ k => some k
  | .set _ _ _ _ k _ => some k
  | .delete _ _ _ k => some k
  | .restart => none

/-- No key is the key of a further part of another one. -/
def Separate (K : Str → Prop) : Prop := ∀ k k' n, K k → K k' → k ≠ k' ++ 43 :: Keys.itoa n

end RankDB.Spec.MaxSize

/-
Model of the retrying store: blobstore/retry.go.

The loop of `backoff.Retry` (github.com/cenkalti/backoff) is modelled from its documentation: call the operation
until it succeeds, returns a permanent error, the backoff says stop or the context is done. Times are not modelled;
whether the backoff says stop after an attempt is part of the attempt.
-/
namespace RankDB.Retry

/-- Errors of the wrapped store. -/
inductive Err
  /-- `context.Canceled` -/
  | canceled
  /-- `ErrBlobNotFound` -/
  | notFound
  /-- `ErrBlobTooBig` -/
  | tooBig
  /-- any other -/
  | other (n : Nat)
deriving DecidableEq, Repr

/-! ### Options -/

/-- Go maps are references: the `permanent` maps of the process, by number. Map 0 is the one in
`defaultRetryStoreOptions` (retry.go:39-49). -/
structure World where
  maps : List (List Err)
deriving Repr

/-- retry.go:44-48. -/
def initial : World := { maps := [[.canceled, .notFound, .tooBig]] }

def World.get (w : World) (i : Nat) : List Err := (w.maps[i]?).getD []

/-- An option: `PermanentErr` with its errors (`none` is nil), or one that does not concern the errors. -/
inductive Opt
  | permanentErr (errs : List (Option Err))
  | other
deriving Repr

/-- retry.go:75-93: applied to options whose map is `p`; gives the new map number. The errors are added to the map
of the options as they were, and the copy made before replaces it. -/
def applyOpt (w : World) (p : Nat) : Opt → World × Nat
  | .other => (w, p)
  | .permanentErr [] => (w, p)
  | .permanentErr errs =>
    let perm := w.get p
    ({ maps := (w.maps.set p (w.get p ++ errs.filterMap id)) ++ [perm] }, w.maps.length)

/-- retry.go:106-119 `NewRetryStore`: the options of the default (sharing its map), then the options. -/
def newStore (w : World) (opts : List Opt) : World × Nat :=
  opts.foldl (fun (w, p) o => applyOpt w p o) (w, 0)

/-- retry.go:185-188: whether an error is in the table of a store. -/
def isPermanent (w : World) (p : Nat) (e : Err) : Bool := (w.get p).contains e

/-! ### Operations -/

/-- One attempt: the outcome of the wrapped store, whether the context of the caller is done afterwards, whether the
backoff says stop. -/
structure Attempt (V : Type) where
  outcome : Except Err V
  ctxDone : Bool
  stop : Bool

/-- retry.go:122-183 `Get`, `Set` and `Delete` with `opErr` (185-196), which differ only in the call: the result and
the number of attempts made; `none` when the loop has not ended. In `Get` (retry.go:139) the value is read after the
call of `Retry`, as the Go compiler does; the language leaves this order open. -/
def retry {V : Type} (perm : Err → Bool) : List (Attempt V) → Option (Except Err V × Nat)
  | [] => none
  | a :: as =>
    match a.outcome with
    | .ok v => some (.ok v, 1)
    | .error e =>
      if perm e then some (.error e, 1)
      else if a.ctxDone then some (.error e, 1)
      else if a.stop then some (.error e, 1)
      else (retry perm as).map (fun (r, n) => (r, n + 1))

end RankDB.Retry

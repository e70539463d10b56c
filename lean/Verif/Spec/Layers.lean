import Verif.Model.Layers
/-
What clients may rely on when they use the configured storage, in terms of calls and results alone.
-/
namespace RankDB.Spec.Layers
open RankDB.Layers Wire

/-- How a storage may differ from an ideal map: nothing survives the process; a blob whose writing was reported as
failed may be anything. -/
structure Kind where
  volatile : Bool
  torn : Bool
deriving DecidableEq, Repr

/-- The values that a key may have; `none` if it may be anything. -/
abbrev Known := Option (List (Option Bytes))

/-- What is known about a key after an event. A value that was acknowledged is the only one that is possible; one that
was reported as failed is possible from then on, until something is acknowledged or read. For torn storage the
acknowledgement of a deletion is not taken for a proof (C38_delete_ignored). -/
def after (kind : Kind) (s k : Str) (v : Known) : Event → Known
  | .restart => if kind.volatile then some [none] else v
  | .call c r =>
    if c.inSet = s ∧ c.key = k then
      match c, r with
      | .set _ _ b, .done => some [some b]
      | .set _ _ _, .err .tooBig => v
      | .set _ _ b, _ => if kind.torn then none else v.map (some b :: ·)
      | .delete _ _, .done => if kind.torn then v.map (none :: ·) else some [none]
      | .delete _ _, _ => v.map (none :: ·)
      | .get _ _, .blob b => v.map fun _ => [some b]
      | .get _ _, .err .notFound => v.map fun _ => [none]
      | .get _ _, _ => v
    else v

/-- What is known about a key after a history of a new storage. -/
def known (kind : Kind) (h : List Event) (s k : Str) : Known := h.foldl (after kind s k) (some [none])

/-- A read gives one of the possible values, or reports a failure (which is not "not found"). -/
def Answers (v : Known) (r : Ret) : Prop :=
  match v with
  | none => True
  | some l => (∃ b, r = .blob b ∧ some b ∈ l) ∨ (r = .err .notFound ∧ none ∈ l) ∨ r = .err .store

/-- Every read of a history is answered like that. -/
def Consistent (kind : Kind) (h : List Event) : Prop :=
  ∀ before s k r behind, h = before ++ .call (.get s k) r :: behind → Answers (known kind before s k) r

/-- All calls of a history are about these sets and keys. -/
def Uses (P : Str → Str → Prop) (h : List Event) : Prop := ∀ c r, Event.call c r ∈ h → P c.inSet c.key

/-- The keys that the database uses: no slash and no plus sign (C38_keys_used, C82_keys_used). -/
def PlainKey (_ k : Str) : Prop := (47 : UInt8) ∉ k ∧ (43 : UInt8) ∉ k

/-- How the configured storages differ from an ideal map. -/
def kindOf : Storage → Kind
  | .memory => { volatile := true, torn := false }
  | .aerospike _ => { volatile := false, torn := true }
  | _ => { volatile := false, torn := false }

/-- Sizes of write blocks with which the parts of a blob are not too big for the driver, and that
`NewMaxSizeStore` accepts; 0 is the default. -/
def BlockOK : Storage → Prop
  | .aerospike writeBlock => writeBlock = 0 ∨ (2048 ≤ writeBlock ∧ writeBlock ≤ 2 ^ 20 + 1024)
  | _ => True

end RankDB.Spec.Layers

import Verif.Model.LazySaver
/-
What a write-behind store promises, in terms of the calls only.
-/
namespace RankDB.Spec.LazySaver
open RankDB.LazySaver Wire

/-- The last value set for a key (`none` when it was deleted last or never set): what the store held before, then
changed by each call. -/
def last (store : MaxSize.Store) (ls : List Label) : Str → Str → Option Bytes :=
  ls.foldl (fun m l => match l with
    | .put s k b => fun s' k' => if s' = s ∧ k' = k then b else m s' k'
    | _ => m) store

/-- The keys used by calls. -/
def Uses (P : Str → Str → Prop) (ls : List Label) : Prop := ∀ s k b, Label.put s k b ∈ ls → P s k

/-- Different keys in use stay different when joined with a slash. -/
def Distinct (P : Str → Str → Prop) : Prop :=
  ∀ s k s' k', P s k → P s' k' → s ++ 47 :: k = s' ++ 47 :: k' → s = s' ∧ k = k'

/-- No write to the store below fails. -/
def NoFailure (ls : List Label) : Prop := ∀ i, Label.write i false ∉ ls

end RankDB.Spec.LazySaver

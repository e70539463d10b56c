import Verif.Model.Access
/-
What it means that something is named in a comma-separated restriction.
-/
namespace RankDB.Spec
open Access

/-- `p` is one of the parts between the commas of `val`. -/
def IsPart (val p : Text) : Prop :=
  ',' ∉ p ∧ ∃ pre post, val = pre ++ p ++ post ∧ (pre = [] ∨ ∃ q, pre = q ++ [',']) ∧
    (post = [] ∨ ∃ q, post = ',' :: q)

/-- The code points with the Unicode property White_Space. -/
def whiteSpace : List Nat :=
  [0x09, 0x0a, 0x0b, 0x0c, 0x0d, 0x20, 0x85, 0xa0, 0x1680, 0x2000, 0x2001, 0x2002, 0x2003, 0x2004, 0x2005, 0x2006,
   0x2007, 0x2008, 0x2009, 0x200a, 0x2028, 0x2029, 0x202f, 0x205f, 0x3000]

def White (c : Char) : Prop := c.toNat ∈ whiteSpace

/-- `t` is `p` without the white space around it. -/
def IsTrimmed (p t : Text) : Prop :=
  ∃ l r, p = l ++ t ++ r ∧ (∀ c ∈ l, White c) ∧ (∀ c ∈ r, White c) ∧
    (∀ c, t.head? = some c → ¬ White c) ∧ (∀ c, t.getLast? = some c → ¬ White c)

/-- The list `id` is named in the restriction. -/
def NamesList (val id : Text) : Prop := ∃ p, IsPart val p ∧ IsTrimmed p id

/-- The number written by decimal digits. -/
def decimal (s : Text) : Nat := s.foldl (fun n c => n * 10 + (c.toNat - 48)) 0

/-- `s` is a decimal number (leading zeros allowed) with the value `n` below 2^64. -/
def IsNumeral (s : Text) (n : Nat) : Prop :=
  s ≠ [] ∧ (∀ c ∈ s, 48 ≤ c.toNat ∧ c.toNat ≤ 57) ∧ decimal s = n ∧ n < 2 ^ 64

/-- The element `id` is named in the restriction. -/
def NamesElement (val : Text) (id : Nat) : Prop := ∃ p t, IsPart val p ∧ IsTrimmed p t ∧ IsNumeral t id

end RankDB.Spec

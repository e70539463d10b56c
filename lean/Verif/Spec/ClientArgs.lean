import Verif.Spec.Validate
import Verif.Spec.Routes
import Verif.Model.ClientArgs
/-
What calls of the client library ask for, by their arguments, for C115. No text of a URL is involved.
-/
namespace RankDB.Spec
open Server Validate Routes ClientArgs

/-- An optional number of a call: absent stands for the default, otherwise it is between `lo` and `hi`. -/
def Amount (default lo hi : Nat) (arg : Option Int) (v : Nat) : Prop :=
  match arg with
  | none => v = default
  | some i => i = v ∧ lo ≤ v ∧ v ≤ hi

/-- The call is proper and asks for this. Percentiles are texts and read by `float`. -/
inductive Says (float : Str → Percent) : Use → Ask → Prop
  | createElement {list body range r e} : IsListID list → Amount 5 0 100 range r → IsElement body e →
      Says float (.createElement list body range) (.change (.createElement list e))
  | deleteElement {list element v} : IsListID list → IsElementID element v →
      Says float (.deleteElement list element) (.change (.deleteElements list [v]))
  | deleteElements {list elements vs} : IsListID list → elements.length = vs.length →
      (∀ x ∈ elements.zip vs, IsElementID x.1 x.2) → Says float (.deleteElements list elements) (.change (.deleteElements list vs))
  | getElement {list element range v r} : IsListID list → IsElementID element v → Amount 5 0 100 range r →
      Says float (.getElement list element range) (.query (.element list v r))
  | getAround {list element range v r} {ids : List UInt64} : IsListID list → IsElementID element v → Amount 5 0 100 range r →
      Says float (.getAround list element ids range) (.query (.around list (ids.map (·.toNat)) v r))
  | getElements {list} {ids : List UInt64} : IsListID list →
      Says float (.getElements list ids) (.query (.elements list (ids.map (·.toNat))))
  | putElement {list element body range r e} : IsListID list → IsElementID element e.id → Amount 5 0 100 range r →
      IsElement body e → Says float (.putElement list element body range) (.change (.putElements list [e]))
  | putElements {list bs es results} : IsListID list → AreElements bs es →
      Says float (.putElements list bs results) (.change (.putElements list es))
  | cloneList {list body p} : IsListID list → IsList body p → Says float (.cloneList list body) (.change (.clone list p))
  | createList {body p} {replace : Option Bool} : IsList body p →
      Says float (.createList body replace) (.change (.create (replace.getD false) p))
  | deleteList {list} : IsListID list → Says float (.deleteList list) (.change (.delete list))
  | getList {list topBottom} : IsListID list → Says float (.getList list topBottom) (.query (.list list))
  | getPercentile {list range m e r} {fromTop : Option Str} : IsListID list → IsPercent (fromTop.map float) m e →
      Amount 5 0 100 range r → Says float (.getPercentile list fromTop range) (.query (.percentile list m e r))
  | fromTop {list limit n} {v : Nat} : IsListID list → Amount 25 1 1000 limit n →
      Says float (.getRange list none (some v) limit) (.query (.fromTop list v n))
  | fromBottom {list limit n} {v : Nat} : IsListID list → Amount 25 1 1000 limit n →
      Says float (.getRange list (some v) none limit) (.query (.fromBottom list v n))
  | getLists {limit n} {after : Option Str} : Amount 25 1 1000 limit n →
      Says float (.getLists after limit) (.query (.page (after.getD []) n))
  | reindexList {list} : IsListID list → Says float (.reindexList list) (.change (.reindex list))
  | repairList {list clear} : IsListID list → Says float (.repairList list clear) (.change (.repair list))

/-- An `int` of Go, if it is given. -/
def IsInt (arg : Option Int) : Prop := ∀ i, arg = some i → -2 ^ 63 ≤ i ∧ i < 2 ^ 63

/-- The numbers of a call are of the type `int`. -/
def Ints : Use → Prop
  | .createElement _ _ r | .getElement _ _ r | .getAround _ _ _ r | .putElement _ _ _ r | .getPercentile _ _ r |
    .getLists _ r => IsInt r
  | .getRange _ b t l => IsInt b ∧ IsInt t ∧ IsInt l
  | _ => True

/-- Percentiles are numbers of the type float64. -/
def IsFloat64 : Percent → Prop
  | .nan => False
  | .num _ m e => e = 0 ∨ m < 2 ^ 53 ∧ e ≤ 1074
  | _ => True

/-- Bodies of a call are no larger than the server takes, no element in them is null, elements to put have an ID and a
score, and a percentile is not the text `NaN`. -/
def Usual (float : Str → Percent) : Use → Prop
  | .createList b _ | .cloneList _ b => (b.populate.getD []).length < 2 ^ 30 ∧ none ∉ b.populate.getD []
  | .putElements _ bs _ => ∀ b ∈ bs, ∃ x, b = some x ∧ x.id ≠ none ∧ x.score ≠ none
  | .getPercentile _ (some t) _ => IsFloat64 (float t)
  | _ => True

/-- A digit of base 16, in lower or upper case. -/
def HexDigit (c : UInt8) (n : Nat) : Prop := (w "0123456789abcdef")[n]? = some c ∨ (w "0123456789ABCDEF")[n]? = some c

/-- A text in a query, in any of the ways to write it: bytes without a meaning of their own stand for themselves, `+` is a
blank, and any byte can be written as `%` with two digits. -/
inductive Spells : Str → Str → Prop
  | nil : Spells [] []
  | same (c : UInt8) {s t} : c ∉ w "%+&;=" → Spells s t → Spells (c :: s) (c :: t)
  | blank {s t} : Spells s t → Spells ('+'.toUInt8 :: s) (' '.toUInt8 :: t)
  | code {x y m n s t} : HexDigit x m → HexDigit y n → Spells s t → Spells ('%'.toUInt8 :: x :: y :: s) (UInt8.ofNat (16 * m + n) :: t)

/-- A query in any of the ways to write it. -/
inductive Writes : Str → List (Str × Str) → Prop
  | nil : Writes [] []
  | one {k v key value} : Spells k key → Spells v value → Writes (k ++ '='.toUInt8 :: v) [(key, value)]
  | more {k v key value rest arg args} : Spells k key → Spells v value → Writes rest (arg :: args) →
      Writes (k ++ '='.toUInt8 :: v ++ '&'.toUInt8 :: rest) ((key, value) :: arg :: args)

end RankDB.Spec

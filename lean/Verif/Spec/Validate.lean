import Verif.Spec.Answers
import Verif.Model.Validate
/-
The documented form of requests (api/design/*.go) and what they ask for. A request that asks for nothing by these
rules is malformed.
-/
namespace RankDB.Spec
open Server Validate

/-- The ID of a list: 2 to 100 letters, digits or one of `-_.`. -/
def IsListID (s : Str) : Prop :=
  2 ≤ s.length ∧ s.length ≤ 100 ∧
  ∀ b ∈ s, ('a'.toUInt8 ≤ b ∧ b ≤ 'z'.toUInt8) ∨ ('A'.toUInt8 ≤ b ∧ b ≤ 'Z'.toUInt8) ∨
    ('0'.toUInt8 ≤ b ∧ b ≤ '9'.toUInt8) ∨ b = '-'.toUInt8 ∨ b = '_'.toUInt8 ∨ b = '.'.toUInt8

/-- A number in decimal digits. -/
inductive Decimal : Str → Nat → Prop
  | one (d : Nat) : d < 10 → Decimal [UInt8.ofNat (48 + d)] d
  | more (d : Nat) (s : Str) (n : Nat) : d < 10 → Decimal s n → Decimal (UInt8.ofNat (48 + d) :: s) (d * 10 ^ s.length + n)

/-- An integer of 64 bits in decimal digits, with or without sign. -/
inductive Integer : Str → Int → Prop
  | plain (s : Str) (n : Nat) : Decimal s n → n < 2 ^ 63 → Integer s n
  | plus (s : Str) (n : Nat) : Decimal s n → n < 2 ^ 63 → Integer ('+'.toUInt8 :: s) n
  | minus (s : Str) (n : Nat) : Decimal s n → n ≤ 2 ^ 63 → Integer ('-'.toUInt8 :: s) (-n)

/-- The ID of an element: a number of 64 bits with at most 20 digits. -/
def IsElementID (s : Str) (v : Nat) : Prop := Decimal s v ∧ s.length ≤ 20 ∧ v < 2 ^ 64

/-- An optional number between `lo` and `hi`. -/
def IsNumber (default lo hi : Nat) (raw : Option Str) (v : Nat) : Prop :=
  match raw with
  | none => v = default
  | some s => Integer s v ∧ lo ≤ v ∧ v ≤ hi

/-- An optional boolean. -/
def IsFlag (raw : Option Str) (v : Bool) : Prop :=
  match raw with
  | none => v = false
  | some s => s ∈ (if v then ["1", "t", "T", "true", "TRUE", "True"] else ["0", "f", "F", "false", "FALSE", "False"]).map
      fun x => x.toUTF8.toList

/-- The number of characters of a text in UTF-8: bytes outside of 128-191 begin a character. -/
def characters (s : Str) : Nat := s.countP fun b => decide (b.toNat < 128 ∨ 192 ≤ b.toNat)

/-- An element has an ID and a score; without a tie breaker it is 0. -/
def IsElement (b : RawElement) (e : Element) : Prop :=
  ∃ id score, b.id = some id ∧ b.score = some score ∧
    e = { id := id.toNat, score := score.toNat, tie := ((b.tie.map (·.toNat)).getD 0), payload := b.payload.getD [], updated := 0 }

/-- Every entry is an element. -/
inductive AreElements : List (Option RawElement) → List Element → Prop
  | nil : AreElements [] []
  | cons (b : RawElement) (e : Element) (bs : List (Option RawElement)) (es : List Element) :
      IsElement b e → AreElements bs es → AreElements (some b :: bs) (e :: es)

/-- An optional size of segments from 10 to 100000. -/
def IsSize (default : Nat) (raw : Option Int) (v : Nat) : Prop :=
  match raw with
  | none => v = default
  | some i => i = v ∧ 10 ≤ v ∧ v ≤ 100000

/-- The description of a list: it has an ID and a set of 2 to 100 characters; sizes and elements are optional. -/
structure IsList (b : RawList) (p : Payload) : Prop where
  id : b.id = some p.id
  goodID : IsListID p.id
  set : b.set = some p.set
  goodSet : 2 ≤ characters p.set ∧ characters p.set ≤ 100
  merge : IsSize 500 b.mergeSize p.mergeSize
  split : IsSize 2000 b.splitSize p.splitSize
  loadIndex : p.loadIndex = b.loadIndex.getD false
  metadata : p.metadata = b.metadata
  populate : match b.populate with
    | none => p.populate = none
    | some bs => ∃ es, p.populate = some es ∧ AreElements bs es

/-- The percentile `m / 2 ^ e` (50 by default) is from 0 to 100, and `m' / 2 ^ e'` is a hundredth of it in float64: with
an error of at most `2 ^ -53`, and it is 1 only for 100. -/
def IsPercent (raw : Option Percent) (m' e' : Nat) : Prop :=
  ∃ neg m e, raw.getD (.num false 50 0) = .num neg m e ∧ (neg = true → m = 0) ∧ m ≤ 100 * 2 ^ e ∧
    (100 * (m' * 2 ^ e) * 2 ^ 53 ≤ (m * 2 ^ e') * 2 ^ 53 + 100 * 2 ^ e * 2 ^ e') ∧
    ((m * 2 ^ e') * 2 ^ 53 ≤ 100 * (m' * 2 ^ e) * 2 ^ 53 + 100 * 2 ^ e * 2 ^ e') ∧
    m' < 2 ^ 53 ∧ (m' < 2 ^ e' ↔ m < 100 * 2 ^ e)

/-- What clients ask for. -/
inductive Ask
  | change (r : Request)
  | query (q : Query)

/-- The request is well-formed and asks for this. -/
inductive AsksFor : Raw → Ask → Prop
  | createList {replace body rep p} : IsFlag replace rep → IsList body p →
      AsksFor (.createList replace (some body)) (.change (.create rep p))
  | cloneList {id body p} : IsListID id → IsList body p → AsksFor (.cloneList id (some body)) (.change (.clone id p))
  | deleteList {id} : IsListID id → AsksFor (.deleteList id) (.change (.delete id))
  | getList {id} : IsListID id → AsksFor (.getList id) (.query (.list id))
  | getPercentile {id fromTop range m e r} : IsListID id → IsPercent fromTop m e → IsNumber 5 0 100 range r →
      AsksFor (.getPercentile id fromTop range) (.query (.percentile id m e r))
  | fromTop {id s limit v n} : IsListID id → Integer s (v : Nat) → IsNumber 25 1 1000 limit n →
      AsksFor (.getRange id (some s) none limit) (.query (.fromTop id v n))
  | fromBottom {id s limit v n} : IsListID id → Integer s (v : Nat) → IsNumber 25 1 1000 limit n →
      AsksFor (.getRange id none (some s) limit) (.query (.fromBottom id v n))
  | getAll {after limit n} : IsNumber 25 1 1000 limit n → AsksFor (.getAll after limit) (.query (.page (after.getD []) n))
  | reindex {id} : IsListID id → AsksFor (.reindex id) (.change (.reindex id))
  | repair {id} : IsListID id → AsksFor (.repair id) (.change (.repair id))
  | createElement {id range body r e} : IsListID id → IsNumber 5 0 100 range r → IsElement body e →
      AsksFor (.createElement id range (some body)) (.change (.createElement id e))
  | deleteElement {id eid v} : IsListID id → IsElementID eid v → AsksFor (.deleteElement id eid) (.change (.deleteElements id [v]))
  | deleteElements {id eids vs} : IsListID id → eids.length = vs.length → (∀ x ∈ eids.zip vs, IsElementID x.1 x.2) →
      AsksFor (.deleteElements id eids) (.change (.deleteElements id vs))
  | getElement {id eid range v r} : IsListID id → IsElementID eid v → IsNumber 5 0 100 range r →
      AsksFor (.getElement id eid range) (.query (.element id v r))
  | getElements {id} {ids : List UInt64} : IsListID id →
      AsksFor (.getElements id (some (some ids))) (.query (.elements id (ids.map (·.toNat))))
  | getAround {id eid range v r} {ids : List UInt64} : IsListID id → IsElementID eid v → IsNumber 5 0 100 range r →
      AsksFor (.getAround id eid range (some (some ids))) (.query (.around id (ids.map (·.toNat)) v r))
  | putElement {id eid range body r e} : IsListID id → IsElementID eid e.id → IsNumber 5 0 100 range r → IsElement body e →
      AsksFor (.putElement id eid range (some body)) (.change (.putElements id [e]))
  | putElements {id bs es} : IsListID id → AreElements bs es →
      AsksFor (.putElements id (some bs)) (.change (.putElements id es))

/-- Bodies have at most 1 GB (the limit of goa), so there are fewer than `2 ^ 30` elements; percentiles are float64. -/
def Sized : Raw → Prop
  | .createList _ (some b) | .cloneList _ (some b) => (b.populate.getD []).length < 2 ^ 30
  | .getPercentile _ (some (.num _ m e)) _ => e = 0 ∨ m < 2 ^ 53 ∧ e ≤ 1074
  | _ => True

/-- Requests that are not read as documented: a description of a list with null for an element, elements to put with
null for an element or without ID or score, and the percentile NaN. -/
def Unusual : Raw → Prop
  | .createList _ (some b) | .cloneList _ (some b) => ∃ bs, b.populate = some bs ∧ none ∈ bs
  | .putElements _ (some bs) => ∃ b ∈ bs, ∀ x, b = some x → x.id = none ∨ x.score = none
  | .getPercentile _ (some .nan) _ => True
  | _ => False

/-- Lists have room for all their elements. -/
def LengthRoom (db : Db) : Prop :=
  ∀ l ∈ db.lists, ∀ st, Disk.reload db.store l.ent = some st → st.content.length + 2 ≤ 2 ^ 32 ∧ st.scores.segs.length + 1 ≤ 2 ^ 32

end RankDB.Spec

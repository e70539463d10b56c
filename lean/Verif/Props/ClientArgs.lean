import Verif.Proofs.ClientArgs
import Verif.Props.Routes
import Verif.Props.Payload
/-
C115: the arguments given to the client library are the ones the server works with.
-/
namespace RankDB.Props
open Spec Routes Server Validate ClientArgs

/-- Texts of any bytes come out of the query of a URL as they were put in, all of them and in their order. -/
theorem C115_values (args : List (Str × Str)) : parse (encode args) = args := parse_encode args

example : encode [(w "after_id", w "a b&c=d;e%+/~" ++ [0, 255]), (w "limit", w "10")] =
    w "after_id=a+b%26c%3Dd%3Be%25%2B%2F~%00%FF&limit=10" := by decide +kernel

/-- Queries can be written in any of the ways that the standard allows: the values are read as they are meant. -/
theorem C115_any_spelling (query : Str) (args : List (Str × Str)) (h : Writes query args) : parse query = args := parse_writes h

/-- The client writes in one of these ways, and only with bytes that may be in a query. -/
theorem C115_legal (args : List (Str × Str)) : Writes (encode args) args ∧
    ∀ c ∈ encode args, ('a'.toUInt8 ≤ c ∧ c ≤ 'z'.toUInt8) ∨ ('A'.toUInt8 ≤ c ∧ c ≤ 'Z'.toUInt8) ∨
      ('0'.toUInt8 ≤ c ∧ c ≤ '9'.toUInt8) ∨ c ∈ w "-_.~%+&=" := by
  refine ⟨writes_encode args, fun c hc => ?_⟩
  have h := encode_legal args c hc
  have key := bytes_all (P := fun c => !(plain c || (w "%+&=").contains c) ||
    (decide ('a'.toUInt8 ≤ c ∧ c ≤ 'z'.toUInt8) || (decide ('A'.toUInt8 ≤ c ∧ c ≤ 'Z'.toUInt8) ||
      (decide ('0'.toUInt8 ≤ c ∧ c ≤ '9'.toUInt8) || (w "-_.~%+&=").contains c)))) (by decide +kernel) c
  have h' : (plain c || (w "%+&=").contains c) = true := by simpa using h
  rw [h'] at key
  simpa using key

/-- `%2c` and `%2C` are the same comma. -/
example : Writes (w "a=%2c%2C,") [(w "a", w ",,,")] ∧ parse (w "a=%2c%2C,") = [(w "a", w ",,,")] := by
  have h : Writes (w "a=%2c%2C,") [(w "a", w ",,,")] :=
    .one (k := w "a") (v := w "%2c%2C,") (.same _ (by decide +kernel) .nil)
      (.code (m := 2) (n := 12) (.inl (by decide +kernel)) (.inl (by decide +kernel))
        (.code (m := 2) (n := 12) (.inl (by decide +kernel)) (.inr (by decide +kernel)) (.same _ (by decide +kernel) .nil)))
  exact ⟨h, C115_any_spelling _ _ h⟩

/-- Every call arrives, and the request asks for exactly what the arguments of the call say. -/
theorem C115_understood (float : Str → Percent) (u : Use) (hp : PathParams u.call) (hi : Ints u) :
    ∃ raw, send float u = some raw ∧ ∀ a, AsksFor raw a ↔ Says float u a := by
  have hr := C114_arrives u.call hp
  unfold send received
  rw [hr, parse_encode]
  cases u <;> simp only [Use.call, meant, Use.args, Use.body] <;> refine ⟨_, rfl, fun a => ?_⟩
  case createElement l b r =>
    simp only [first, values_set_same, Option.head?_toList, Body.asElement]
    exact ⟨fun h => by cases h with | createElement h1 h2 h3 => exact .createElement h1 ((amount_iff hi).1 h2) h3,
      fun h => by cases h with | createElement h1 h2 h3 => exact .createElement h1 ((amount_iff hi).2 h2) h3⟩
  case deleteElement l e =>
    exact ⟨fun h => by cases h with | deleteElement h1 h2 => exact .deleteElement h1 h2,
      fun h => by cases h with | deleteElement h1 h2 => exact .deleteElement h1 h2⟩
  case deleteElements l es =>
    simp only [values_many]
    exact ⟨fun h => by cases h with | deleteElements h1 h2 h3 => exact .deleteElements h1 h2 h3,
      fun h => by cases h with | deleteElements h1 h2 h3 => exact .deleteElements h1 h2 h3⟩
  case getElement l e r =>
    simp only [first, values_set_same, Option.head?_toList]
    exact ⟨fun h => by cases h with | getElement h1 h2 h3 => exact .getElement h1 h2 ((amount_iff hi).1 h3),
      fun h => by cases h with | getElement h1 h2 h3 => exact .getElement h1 h2 ((amount_iff hi).2 h3)⟩
  case getAround l e ids r =>
    simp only [first, values_set_same, Option.head?_toList, Body.asIDs]
    exact ⟨fun h => by cases h with | getAround h1 h2 h3 => exact .getAround h1 h2 ((amount_iff hi).1 h3),
      fun h => by cases h with | getAround h1 h2 h3 => exact .getAround h1 h2 ((amount_iff hi).2 h3)⟩
  case getElements l ids =>
    simp only [Body.asIDs]
    exact ⟨fun h => by cases h with | getElements h1 => exact .getElements h1,
      fun h => by cases h with | getElements h1 => exact .getElements h1⟩
  case putElement l e b r =>
    simp only [first, values_set_same, Option.head?_toList, Body.asElement]
    exact ⟨fun h => by cases h with | putElement h1 h2 h3 h4 => exact .putElement h1 h2 ((amount_iff hi).1 h3) h4,
      fun h => by cases h with | putElement h1 h2 h3 h4 => exact .putElement h1 h2 ((amount_iff hi).2 h3) h4⟩
  case putElements l bs results =>
    simp only [Body.asElements]
    exact ⟨fun h => by cases h with | putElements h1 h2 => exact .putElements h1 h2,
      fun h => by cases h with | putElements h1 h2 => exact .putElements h1 h2⟩
  case cloneList l b =>
    simp only [Body.asList]
    exact ⟨fun h => by cases h with | cloneList h1 h2 => exact .cloneList h1 h2,
      fun h => by cases h with | cloneList h1 h2 => exact .cloneList h1 h2⟩
  case createList b replace =>
    simp only [first, values_set_same, Option.head?_toList, Body.asList]
    refine ⟨fun h => ?_, fun h => ?_⟩
    · cases h with
      | createList h1 h2 => rw [flag_iff.1 h1]; exact .createList h2
    · cases h with
      | createList h2 => exact .createList (flag_iff.2 rfl) h2
  case deleteList l =>
    exact ⟨fun h => by cases h with | deleteList h1 => exact .deleteList h1,
      fun h => by cases h with | deleteList h1 => exact .deleteList h1⟩
  case getList l t =>
    exact ⟨fun h => by cases h with | getList h1 => exact .getList h1,
      fun h => by cases h with | getList h1 => exact .getList h1⟩
  case getPercentile l t r =>
    have k : w "from_top" ≠ w "range" := by decide +kernel
    simp only [first, values_append, values_set_same, values_set_other k, values_set_other k.symm, Option.head?_toList,
      List.append_nil, List.nil_append]
    exact ⟨fun h => by cases h with | getPercentile h1 h2 h3 => exact .getPercentile h1 h2 ((amount_iff hi).1 h3),
      fun h => by cases h with | getPercentile h1 h2 h3 => exact .getPercentile h1 h2 ((amount_iff hi).2 h3)⟩
  case getRange l b t n =>
    obtain ⟨i1, i2, i3⟩ := hi
    have k1 : w "from_bottom" ≠ w "from_top" := by decide +kernel
    have k2 : w "from_bottom" ≠ w "limit" := by decide +kernel
    have k3 : w "from_top" ≠ w "limit" := by decide +kernel
    simp only [first, values_append, values_set_same, values_set_other k1, values_set_other k1.symm, values_set_other k2,
      values_set_other k2.symm, values_set_other k3, values_set_other k3.symm, Option.head?_toList, List.append_nil,
      List.nil_append]
    refine ⟨fun h => ?_, fun h => ?_⟩
    · cases b with
      | none =>
        cases t with
        | none => cases h
        | some t =>
          cases h with
          | fromTop h1 h2 h3 =>
            have := (integer_formatInt (i2 t rfl) _).1 h2
            subst this
            exact .fromTop h1 ((amount_iff i3).1 h3)
      | some b =>
        cases t with
        | some t => cases h
        | none =>
          cases h with
          | fromBottom h1 h2 h3 =>
            have := (integer_formatInt (i1 b rfl) _).1 h2
            subst this
            exact .fromBottom h1 ((amount_iff i3).1 h3)
    · cases h with
      | fromTop h1 h2 => exact .fromTop h1 (formatInt_integer (i2 _ rfl)) ((amount_iff i3).2 h2)
      | fromBottom h1 h2 => exact .fromBottom h1 (formatInt_integer (i1 _ rfl)) ((amount_iff i3).2 h2)
  case getLists after n =>
    have k : w "after_id" ≠ w "limit" := by decide +kernel
    simp only [first, values_append, values_set_same, values_set_other k, values_set_other k.symm, Option.head?_toList,
      List.append_nil, List.nil_append]
    exact ⟨fun h => by cases h with | getAll h1 => exact .getLists ((amount_iff hi).1 h1),
      fun h => by cases h with | getLists h1 => exact .getAll ((amount_iff hi).2 h1)⟩
  case reindexList l =>
    exact ⟨fun h => by cases h with | reindex h1 => exact .reindexList h1,
      fun h => by cases h with | reindexList h1 => exact .reindex h1⟩
  case repairList l c =>
    exact ⟨fun h => by cases h with | repair h1 => exact .repairList h1,
      fun h => by cases h with | repairList h1 => exact .repair h1⟩

/-- Digits and words that stand for percentiles in examples. -/
def exFloat (s : Str) : Percent :=
  if s = w "NaN" then .nan else match parseUint s with
    | some n => .num false n 0
    | none => .unreadable

/-- A call for 10 elements from position 1000. -/
def exUse : Use := .getRange (w "top-10") none (some 1000) (some 10)

example : PathParams exUse.call ∧ Ints exUse ∧ Usual exFloat exUse ∧ encode exUse.args = w "from_top=1000&limit=10" ∧
    Says exFloat exUse (.query (.fromTop (w "top-10") 1000 10)) := by
  refine ⟨?_, ⟨nofun, ?_, ?_⟩, trivial, by decide +kernel, .fromTop ((okListID_iff _).1 (by decide +kernel)) ⟨rfl, by decide, by decide⟩⟩
  · intro x hx
    simp only [exUse, Use.call, meant, List.mem_cons, List.not_mem_nil, or_false] at hx
    subst hx
    decide
  · rintro i ⟨⟩; decide
  · rintro i ⟨⟩; decide

/-- A call says one thing only. (A percentile is a hundredth of a float64, rounded, so it is left out here.) -/
theorem C115_one_meaning (float : Str → Percent) (u : Use) (hp : PathParams u.call) (hi : Ints u) (a b : Ask)
    (ha : Says float u a) (hb : Says float u b) (hc : ∀ l t r, u ≠ .getPercentile l t r) : a = b := by
  obtain ⟨raw, h1, h2⟩ := C115_understood float u hp hi
  refine C85_one_meaning raw a b ((h2 a).2 ha) ((h2 b).2 hb) ?_
  rintro id t r rfl
  have h3 := (h2 a).2 ha
  cases h3
  cases ha
  exact hc _ _ _ rfl

theorem sent_usual {float : Str → Percent} {u : Use} {raw : Raw} (hp : PathParams u.call) (hu : Usual float u)
    (h : send float u = some raw) : Sized raw ∧ ¬ Unusual raw := by
  have hr := C114_arrives u.call hp
  unfold send received at h
  rw [hr, parse_encode] at h
  cases u <;> simp only [Use.call, meant, Use.args, Use.body] at h <;> obtain rfl := Option.some.inj h
  case createList b r | cloneList l b =>
    refine ⟨hu.1, ?_⟩
    rintro ⟨bs, h1, h2⟩
    exact hu.2 (by rw [h1]; exact h2)
  case putElements l bs r =>
    refine ⟨trivial, ?_⟩
    rintro ⟨b, h1, h2⟩
    obtain ⟨x, rfl, h3, h4⟩ := hu b h1
    exact (h2 x rfl).elim h3 h4
  case getPercentile l t r =>
    have k : w "from_top" ≠ w "range" := by decide +kernel
    simp only [first, values_append, values_set_same, values_set_other k, values_set_other k.symm, Option.head?_toList,
      List.append_nil, List.nil_append]
    cases t with
    | none => exact ⟨trivial, id⟩
    | some t =>
      have hf : IsFloat64 (float t) := hu
      rw [Option.map_some]
      cases hx : float t <;> rw [hx] at hf
      case nan => exact hf.elim
      case num => exact ⟨hf, id⟩
      all_goals exact ⟨trivial, id⟩
  all_goals exact ⟨trivial, id⟩

/-- Every usual call is answered by what its arguments say, or, if they say nothing proper, refused without a change. -/
theorem C115_served (float : Str → Percent) (u : Use) (hp : PathParams u.call) (hi : Ints u) (hu : Usual float u)
    (env : Env) (db : Db) (h : Good db) (hf : Fits env db) (hr : LengthRoom db) :
    ∃ raw, send float u = some raw ∧ Good (respond env db raw).2 ∧
    ((∃ r a, Says float u (.change r) ∧ (respond env db raw).1 = .answer a ∧
        Means env.now (look db) r a (look (respond env db raw).2)) ∨
     (∃ q s, Says float u (.query q) ∧ respond env db raw = (.shown s, db) ∧
        (Shows (look db) q s ∨ ∃ id m e range, q = .percentile id m e range ∧ 2 ^ e ≤ m)) ∨
     ((∀ a, ¬ Says float u a) ∧ ∃ a, (a = .badRequest ∨ a = .notFound) ∧ respond env db raw = (.answer a, db))) := by
  obtain ⟨raw, h1, h2⟩ := C115_understood float u hp hi
  obtain ⟨s1, s2⟩ := sent_usual hp hu h1
  obtain ⟨g, g'⟩ := C85_serves_partial env db raw h hf hr s1 s2
  refine ⟨raw, h1, g, ?_⟩
  rcases g' with ⟨r, a, c1, c2⟩ | ⟨q, s, c1, c2⟩ | ⟨c1, c2⟩
  · exact .inl ⟨r, a, (h2 _).1 c1, c2⟩
  · exact .inr (.inl ⟨q, s, (h2 _).1 c1, c2⟩)
  · exact .inr (.inr ⟨fun a ha => c1 ⟨a, (h2 a).2 ha⟩, c2⟩)

/-- The server of `exampleServer` shows its element to the client. -/
example : ((send exFloat (.getRange (w "highscore_list") none (some 0) (some 10))).map fun raw =>
      match (respond (exEnvAt 2) exampleServer raw).1 with
      | .shown (.range l) => l.map fun x => (x.1.id, x.1.score)
      | _ => []) = some [(7, 100)] ∧
    ((send exFloat (.getRange (w "highscore_list") none (some 0) (some 1001))).map fun raw =>
      match (respond (exEnvAt 2) exampleServer raw).1 with
      | .answer .badRequest => true
      | _ => false) = some true := by
  constructor <;> decide +kernel

example : Good noLists ∧ Fits (exEnvAt 1) noLists ∧ LengthRoom noLists ∧ PathParams (Use.createList exampleBody (some true)).call ∧
    Ints (.createList exampleBody (some true)) ∧ Usual exFloat (.createList exampleBody (some true)) :=
  ⟨noLists_good, ⟨by decide, by decide, by decide, fun _ h => h⟩, by intro l hl; simp [noLists] at hl,
    by intro x hx; simp [Use.call, meant] at hx, trivial, by decide +kernel, by simp [exampleBody]⟩

/-- Two calls that are sent as the same request say the same. -/
theorem C115_distinct (float : Str → Percent) (u v : Use) (hp : PathParams u.call) (hi : Ints u) (hp' : PathParams v.call)
    (hi' : Ints v) (hm : u.call.method = v.call.method) (hpath : u.call.path = v.call.path)
    (hq : encode u.args = encode v.args) (hb : u.body = v.body) (a : Ask) : Says float u a ↔ Says float v a := by
  obtain ⟨raw, h1, h2⟩ := C115_understood float u hp hi
  obtain ⟨raw', h1', h2'⟩ := C115_understood float v hp' hi'
  unfold send at h1 h1'
  rw [hm, hpath, hq, hb, h1'] at h1
  obtain rfl := Option.some.inj h1
  rw [← h2, ← h2']

/-- Queries that the client does not write: of several values for a parameter that takes one, the first counts. -/
theorem C115_first_counts (args : List (Str × Str)) (key value : Str) (h : key ∉ args.map (·.1)) (rest : List (Str × Str)) :
    first (parse (encode (args ++ (key, value) :: rest))) key = some value := by
  rw [parse_encode, first, values_append]
  have : values args key = [] := by
    simp only [values, List.map_eq_nil_iff, List.filter_eq_nil_iff, beq_iff_eq]
    exact fun p hp e => h (List.mem_map.2 ⟨p, hp, e⟩)
  rw [this]
  simp [values]

example : first (parse (w "limit=10&limit=20&limit=%3")) (w "limit") = some (w "10") ∧
    first (parse (w "limit=%3&limit=20;&LIMIT=4")) (w "limit") = none := by decide +kernel

end RankDB.Props

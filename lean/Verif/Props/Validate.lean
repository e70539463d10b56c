import Verif.Proofs.Validate
import Verif.Props.Answers
/-
C85: malformed requests are refused and change nothing, and all others are carried out as documented.
-/
namespace RankDB.Props
open Spec Server Validate

/-- What is asked for is carried out. -/
def carry : Ask → Outcome
  | .change r => .change r
  | .query q => .query q

/-- A request asks for something. -/
def WellFormed (raw : Raw) : Prop := ∃ a, AsksFor raw a

theorem listID_no {id : Str} (h : ¬ okListID id = true) : ¬ IsListID id := fun h' => h ((okListID_iff id).mpr h')

theorem number_no {d lo hi : Nat} {raw : Option Str} (h : intParam d lo hi raw = none) (v : Nat) : ¬ IsNumber d lo hi raw v := by
  intro h'
  rw [(intParam_iff ..).mpr h'] at h
  simp at h

theorem parseAll_iff (eids : List Str) (vs : List Nat) (h : eids.all okElementID = true) :
    parseAll eids = some vs ↔ eids.length = vs.length ∧ ∀ x ∈ eids.zip vs, IsElementID x.1 x.2 := by
  induction eids generalizing vs with
  | nil =>
    cases vs <;> simp [parseAll]
  | cons s ss ih =>
    simp only [List.all_cons, Bool.and_eq_true] at h
    cases vs with
    | nil =>
      simp only [parseAll]
      cases parseUint s <;> cases parseAll ss <;> simp
    | cons v vs =>
      simp only [parseAll, List.length_cons, List.zip_cons_cons, List.mem_cons, forall_eq_or_imp]
      have ih' := ih vs h.2
      constructor
      · intro hp
        cases h1 : parseUint s with
        | none => simp [h1] at hp
        | some v' =>
          cases h2 : parseAll ss with
          | none => simp [h1, h2] at hp
          | some vs' =>
            simp only [h1, h2, Option.some.injEq, List.cons.injEq] at hp
            obtain ⟨rfl, rfl⟩ := hp
            obtain ⟨i1, i2⟩ := ih'.mp h2
            exact ⟨by omega, elementID_of h.1 h1, i2⟩
      · rintro ⟨h1, h2, h3⟩
        rw [parse_of h2, ih'.mpr ⟨by omega, h3⟩]

/-- A request that is not unusual is carried out exactly as it asks for if it is well-formed, and is refused
otherwise. -/
theorem C85_read_partial (raw : Raw) (hs : Sized raw) (hu : ¬ Unusual raw) :
    (∃ a, route raw = carry a ∧ AsksFor raw a) ∨
    (¬ WellFormed raw ∧ (route raw = .refused ∨ ∃ id, route raw = .late id)) := by
  cases raw with
  | createList replace body =>
    simp only [route]
    cases hb : boolParam replace with
    | none =>
      refine .inr ⟨?_, .inl rfl⟩
      rintro ⟨a, ⟨h1, h2⟩⟩
      rw [(boolParam_iff ..).mpr h1] at hb
      simp at hb
    | some r =>
      cases body with
      | none => exact .inr ⟨(by rintro ⟨a, h⟩; cases h), .inl rfl⟩
      | some b =>
        simp only [readList]
        by_cases hok : okList (finalize b) = true
        · rw [if_pos hok]
          cases hp : publicize (finalize b) with
          | none =>
            exfalso
            apply hu
            have hp' := hp
            unfold publicize finalize at hp
            cases hq : b.populate with
            | none => simp [hq] at hp
            | some bs =>
              refine ⟨bs, hq, ?_⟩
              apply Classical.byContradiction
              intro hn
              obtain ⟨es, he⟩ := publicizeAll_some hn
              simp [hq, he] at hp
          | some p => exact .inl ⟨.change _, rfl, .createList ((boolParam_iff ..).mp hb) ((isList_iff b p).mpr ⟨hok, hp⟩)⟩
        · rw [if_neg hok]
          refine .inr ⟨?_, .inl rfl⟩
          rintro ⟨a, ⟨h1, h2⟩⟩
          exact hok ((isList_iff ..).mp h2).1
  | cloneList id body =>
    simp only [route]
    by_cases hid : okListID id = true
    · rw [if_pos hid]
      cases body with
      | none => exact .inr ⟨(by rintro ⟨a, h⟩; cases h), .inl rfl⟩
      | some b =>
        simp only [readList]
        by_cases hok : okList (finalize b) = true
        · rw [if_pos hok]
          cases hp : publicize (finalize b) with
          | none =>
            exfalso
            apply hu
            unfold publicize finalize at hp
            cases hq : b.populate with
            | none => simp [hq] at hp
            | some bs =>
              refine ⟨bs, hq, ?_⟩
              apply Classical.byContradiction
              intro hn
              obtain ⟨es, he⟩ := publicizeAll_some hn
              simp [hq, he] at hp
          | some p => exact .inl ⟨.change _, rfl, .cloneList ((okListID_iff _).mp hid) ((isList_iff b p).mpr ⟨hok, hp⟩)⟩
        · rw [if_neg hok]
          refine .inr ⟨?_, .inl rfl⟩
          rintro ⟨a, h⟩
          cases h with
          | cloneList h1 h2 => exact hok ((isList_iff ..).mp h2).1
    · rw [if_neg hid]
      refine .inr ⟨?_, .inl rfl⟩
      rintro ⟨a, h⟩
      cases h with
      | cloneList h1 h2 => exact listID_no hid h1
  | deleteList id =>
    simp only [route]
    by_cases hid : okListID id = true
    · rw [if_pos hid]; exact .inl ⟨.change _, rfl, .deleteList ((okListID_iff _).mp hid)⟩
    · rw [if_neg hid]
      refine .inr ⟨?_, .inl rfl⟩
      rintro ⟨a, h⟩
      cases h with
      | deleteList h1 => exact listID_no hid h1
  | getList id =>
    simp only [route]
    by_cases hid : okListID id = true
    · rw [if_pos hid]; exact .inl ⟨.query _, rfl, .getList ((okListID_iff _).mp hid)⟩
    · rw [if_neg hid]
      refine .inr ⟨?_, .inl rfl⟩
      rintro ⟨a, h⟩
      cases h with
      | getList h1 => exact listID_no hid h1
  | reindex id =>
    simp only [route]
    by_cases hid : okListID id = true
    · rw [if_pos hid]; exact .inl ⟨.change _, rfl, .reindex ((okListID_iff _).mp hid)⟩
    · rw [if_neg hid]
      refine .inr ⟨?_, .inl rfl⟩
      rintro ⟨a, h⟩
      cases h with
      | reindex h1 => exact listID_no hid h1
  | repair id =>
    simp only [route]
    by_cases hid : okListID id = true
    · rw [if_pos hid]; exact .inl ⟨.change _, rfl, .repair ((okListID_iff _).mp hid)⟩
    · rw [if_neg hid]
      refine .inr ⟨?_, .inl rfl⟩
      rintro ⟨a, h⟩
      cases h with
      | repair h1 => exact listID_no hid h1
  | getPercentile id fromTop range =>
    simp only [route]
    by_cases hid : okListID id = true
    · rw [if_pos hid]
      cases hr : intParam 5 0 100 range with
      | none =>
        refine .inr ⟨?_, .inl rfl⟩
        rintro ⟨a, h⟩
        cases h with
        | getPercentile h1 h2 h3 => exact number_no hr _ h3
      | some r =>
        have no : (∀ neg m e, fromTop.getD (.num false 50 0) = .num neg m e → (neg = true ∧ m ≠ 0) ∨ 100 * 2 ^ e < m) →
            ¬ WellFormed (.getPercentile id fromTop range) := by
          rintro hno ⟨a, h⟩
          cases h with
          | getPercentile h1 h2 h3 =>
            obtain ⟨neg, m, e, p1, p2, p3, -⟩ := h2
            rcases hno neg m e p1 with ⟨q1, q2⟩ | q
            · exact q2 (p2 q1)
            · omega
        dsimp only
        cases hp : fromTop.getD (.num false 50 0) with
        | unreadable => exact .inr ⟨no (by rw [hp]; intro _ _ _ h; cases h), .inr ⟨id, rfl⟩⟩
        | inf b => exact .inr ⟨no (by rw [hp]; intro _ _ _ h; cases h), .inr ⟨id, rfl⟩⟩
        | nan =>
          exfalso
          apply hu
          cases fromTop with
          | none => simp at hp
          | some p => simp at hp; subst hp; trivial
        | num neg m e =>
          have hf : e = 0 ∨ m < 2 ^ 53 ∧ e ≤ 1074 := by
            cases fromTop with
            | none => simp at hp; exact .inl hp.2.2.symm
            | some p => simp at hp; subst hp; exact hs
          simp only [readPercent]
          by_cases hn : (neg && m != 0) = true
          · rw [if_pos hn]
            refine .inr ⟨no ?_, .inr ⟨id, rfl⟩⟩
            intro neg' m' e' h
            rw [hp] at h
            cases h
            simp at hn
            exact .inl hn
          · rw [if_neg hn]
            by_cases hm : m > 100 * 2 ^ e
            · rw [if_pos hm]
              refine .inr ⟨no ?_, .inr ⟨id, rfl⟩⟩
              intro neg' m' e' h
              rw [hp] at h
              cases h
              exact .inr hm
            · rw [if_neg hm]
              refine .inl ⟨.query _, rfl, .getPercentile ((okListID_iff _).mp hid) ?_ ((intParam_iff ..).mp hr)⟩
              refine ⟨neg, m, e, hp, ?_, by omega, div100_spec m e (by omega) hf⟩
              intro h
              subst h
              simpa using hn
    · rw [if_neg hid]
      refine .inr ⟨?_, .inl rfl⟩
      rintro ⟨a, h⟩
      cases h with
      | getPercentile h1 => exact listID_no hid h1
  | getRange id fromTop fromBottom limit =>
    simp only [route]
    by_cases hid : okListID id = true
    · rw [if_pos hid]
      have off : ∀ raw v, offsetParam (some raw) = some (some v) ↔ Integer raw (v : Nat) := by
        intro raw v
        rw [← atoi_iff]
        simp only [offsetParam]
        cases atoi raw with
        | none => simp
        | some i => dsimp only; split <;> simp <;> omega
      have off' : ∀ raw, offsetParam (some raw) ≠ some none := by
        intro raw
        simp only [offsetParam]
        cases atoi raw with
        | none => simp
        | some i => dsimp only; split <;> simp
      cases hl : intParam 25 1 1000 limit with
      | none =>
        have : (match offsetParam fromTop, offsetParam fromBottom, (none : Option Nat) with
          | some (some t), some none, some n => Outcome.query (.fromTop id t n)
          | some none, some (some b), some n => .query (.fromBottom id b n)
          | _, _, _ => .refused) = .refused := by
          rcases offsetParam fromTop with _ | _ | _ <;> rcases offsetParam fromBottom with _ | _ | _ <;> rfl
        refine .inr ⟨?_, .inl this⟩
        rintro ⟨a, h⟩
        cases h with
        | fromTop h1 h2 h3 => exact number_no hl _ h3
        | fromBottom h1 h2 h3 => exact number_no hl _ h3
      | some n =>
        have hn := (intParam_iff ..).mp hl
        have hi := (okListID_iff _).mp hid
        cases fromTop with
        | none =>
          cases fromBottom with
          | none => exact .inr ⟨(by rintro ⟨a, h⟩; cases h), .inl rfl⟩
          | some s =>
            cases ho : offsetParam (some s) with
            | none =>
              refine .inr ⟨?_, .inl rfl⟩
              rintro ⟨a, h⟩
              cases h with
              | fromBottom h1 h2 h3 => rw [(off ..).mpr h2] at ho; simp at ho
            | some o =>
              cases o with
              | none => exact absurd ho (off' s)
              | some v => exact .inl ⟨.query _, rfl, .fromBottom hi ((off ..).mp ho) hn⟩
        | some s =>
          cases fromBottom with
          | none =>
            cases ho : offsetParam (some s) with
            | none =>
              refine .inr ⟨?_, .inl rfl⟩
              rintro ⟨a, h⟩
              cases h with
              | fromTop h1 h2 h3 => rw [(off ..).mpr h2] at ho; simp at ho
            | some o =>
              cases o with
              | none => exact absurd ho (off' s)
              | some v => exact .inl ⟨.query _, rfl, .fromTop hi ((off ..).mp ho) hn⟩
          | some s' =>
            refine .inr ⟨(by rintro ⟨a, h⟩; cases h), .inl ?_⟩
            cases ho : offsetParam (some s) with
            | none => rfl
            | some o =>
              cases o with
              | none => exact absurd ho (off' s)
              | some v =>
                cases ho' : offsetParam (some s') with
                | none => rfl
                | some o' =>
                  cases o' with
                  | none => exact absurd ho' (off' s')
                  | some v' => rfl
    · rw [if_neg hid]
      refine .inr ⟨?_, .inl rfl⟩
      rintro ⟨a, h⟩
      cases h with
      | fromTop h1 => exact listID_no hid h1
      | fromBottom h1 => exact listID_no hid h1
  | getAll after limit =>
    simp only [route]
    cases hl : intParam 25 1 1000 limit with
    | none =>
      refine .inr ⟨?_, .inl rfl⟩
      rintro ⟨a, h⟩
      cases h with
      | getAll h1 => exact number_no hl _ h1
    | some n => exact .inl ⟨.query _, rfl, .getAll ((intParam_iff ..).mp hl)⟩
  | createElement id range body =>
    simp only [route]
    by_cases hid : okListID id = true
    · rw [if_pos hid]
      cases hr : intParam 5 0 100 range with
      | none =>
        refine .inr ⟨?_, .inl rfl⟩
        rintro ⟨a, h⟩
        cases h with
        | createElement h1 h2 h3 => exact number_no hr _ h2
      | some r =>
        cases body with
        | none => exact .inr ⟨(by rintro ⟨a, h⟩; cases h), .inl rfl⟩
        | some b =>
          simp only [readElement]
          by_cases hok : okElement b = true
          · rw [if_pos hok]
            exact .inl ⟨.change _, rfl, .createElement ((okListID_iff _).mp hid) ((intParam_iff ..).mp hr)
              ((isElement_iff ..).mpr ⟨hok, rfl⟩)⟩
          · rw [if_neg hok]
            refine .inr ⟨?_, .inl rfl⟩
            rintro ⟨a, h⟩
            cases h with
            | createElement h1 h2 h3 => exact hok ((isElement_iff ..).mp h3).1
    · rw [if_neg hid]
      refine .inr ⟨?_, .inl rfl⟩
      rintro ⟨a, h⟩
      cases h with
      | createElement h1 => exact listID_no hid h1
  | deleteElement id eid =>
    simp only [route]
    by_cases hid : okListID id = true
    · by_cases he : okElementID eid = true
      · rw [if_pos (by simp [hid, he])]
        simp only [readElementID]
        cases hp : parseUint eid with
        | none =>
          refine .inr ⟨?_, .inr ⟨id, rfl⟩⟩
          rintro ⟨a, h⟩
          cases h with
          | deleteElement h1 h2 => rw [parse_of h2] at hp; simp at hp
        | some v => exact .inl ⟨.change _, rfl, .deleteElement ((okListID_iff _).mp hid) (elementID_of he hp)⟩
      · rw [if_neg (by simp [he])]
        refine .inr ⟨?_, .inl rfl⟩
        rintro ⟨a, h⟩
        cases h with
        | deleteElement h1 h2 => exact he (okElementID_of h2)
    · rw [if_neg (by simp [hid])]
      refine .inr ⟨?_, .inl rfl⟩
      rintro ⟨a, h⟩
      cases h with
      | deleteElement h1 => exact listID_no hid h1
  | deleteElements id eids =>
    simp only [route]
    by_cases hid : okListID id = true
    · by_cases he : eids.all okElementID = true
      · rw [if_pos (by rw [hid, he]; rfl)]
        cases hp : parseAll eids with
        | none =>
          refine .inr ⟨?_, .inr ⟨id, rfl⟩⟩
          rintro ⟨a, h⟩
          cases h with
          | deleteElements h1 h2 h3 => rw [(parseAll_iff _ _ he).mpr ⟨h2, h3⟩] at hp; simp at hp
        | some vs =>
          obtain ⟨p1, p2⟩ := (parseAll_iff _ _ he).mp hp
          exact .inl ⟨.change _, rfl, .deleteElements ((okListID_iff _).mp hid) p1 p2⟩
      · rw [if_neg (by intro h; exact he (Bool.and_eq_true_iff.mp h).2)]
        refine .inr ⟨?_, .inl rfl⟩
        rintro ⟨a, h⟩
        cases h with
        | @deleteElements _ _ vs h1 h2 h3 =>
          apply he
          rw [List.all_eq_true]
          intro s hs
          obtain ⟨i, hi, rfl⟩ := List.mem_iff_getElem.mp hs
          have := h3 (eids[i], vs[i]'(by omega)) (by
            rw [← List.getElem_zip]
            exact List.getElem_mem (by simp [List.length_zip]; omega))
          exact okElementID_of this
    · rw [if_neg (by intro h; exact hid (Bool.and_eq_true_iff.mp h).1)]
      refine .inr ⟨?_, .inl rfl⟩
      rintro ⟨a, h⟩
      cases h with
      | deleteElements h1 => exact listID_no hid h1
  | getElement id eid range =>
    simp only [route]
    by_cases hid : okListID id = true
    · by_cases he : okElementID eid = true
      · rw [if_pos (by simp [hid, he])]
        cases hr : intParam 5 0 100 range with
        | none =>
          refine .inr ⟨?_, .inl rfl⟩
          rintro ⟨a, h⟩
          cases h with
          | getElement h1 h2 h3 => exact number_no hr _ h3
        | some r =>
          simp only [readElementID]
          cases hp : parseUint eid with
          | none =>
            refine .inr ⟨?_, .inr ⟨id, rfl⟩⟩
            rintro ⟨a, h⟩
            cases h with
            | getElement h1 h2 => rw [parse_of h2] at hp; simp at hp
          | some v => exact .inl ⟨.query _, rfl, .getElement ((okListID_iff _).mp hid) (elementID_of he hp) ((intParam_iff ..).mp hr)⟩
      · rw [if_neg (by simp [he])]
        refine .inr ⟨?_, .inl rfl⟩
        rintro ⟨a, h⟩
        cases h with
        | getElement h1 h2 => exact he (okElementID_of h2)
    · rw [if_neg (by simp [hid])]
      refine .inr ⟨?_, .inl rfl⟩
      rintro ⟨a, h⟩
      cases h with
      | getElement h1 => exact listID_no hid h1
  | getElements id body =>
    simp only [route]
    by_cases hid : okListID id = true
    · rw [if_pos hid]
      rcases body with _ | _ | ids
      · exact .inr ⟨(by rintro ⟨a, h⟩; cases h), .inl rfl⟩
      · exact .inr ⟨(by rintro ⟨a, h⟩; cases h), .inl rfl⟩
      · exact .inl ⟨.query _, rfl, .getElements ((okListID_iff _).mp hid)⟩
    · rw [if_neg hid]
      refine .inr ⟨?_, .inl rfl⟩
      rintro ⟨a, h⟩
      cases h with
      | getElements h1 => exact listID_no hid h1
  | getAround id eid range body =>
    simp only [route]
    by_cases hid : okListID id = true
    · by_cases he : okElementID eid = true
      · rw [if_pos (by simp [hid, he])]
        cases hr : intParam 5 0 100 range with
        | none =>
          refine .inr ⟨?_, .inl rfl⟩
          rintro ⟨a, h⟩
          cases h with
          | getAround h1 h2 h3 => exact number_no hr _ h3
        | some r =>
          rcases body with _ | _ | ids
          · exact .inr ⟨(by rintro ⟨a, h⟩; cases h), .inl rfl⟩
          · exact .inr ⟨(by rintro ⟨a, h⟩; cases h), .inl rfl⟩
          simp only [readElementID, readIDs]
          cases hp : parseUint eid with
          | none =>
            refine .inr ⟨?_, .inr ⟨id, rfl⟩⟩
            rintro ⟨a, h⟩
            cases h with
            | getAround h1 h2 => rw [parse_of h2] at hp; simp at hp
          | some v => exact .inl ⟨.query _, rfl, .getAround ((okListID_iff _).mp hid) (elementID_of he hp) ((intParam_iff ..).mp hr)⟩
      · rw [if_neg (by simp [he])]
        refine .inr ⟨?_, .inl rfl⟩
        rintro ⟨a, h⟩
        cases h with
        | getAround h1 h2 => exact he (okElementID_of h2)
    · rw [if_neg (by simp [hid])]
      refine .inr ⟨?_, .inl rfl⟩
      rintro ⟨a, h⟩
      cases h with
      | getAround h1 => exact listID_no hid h1
  | putElement id eid range body =>
    simp only [route]
    by_cases hid : okListID id = true
    · by_cases he : okElementID eid = true
      · rw [if_pos (by simp [hid, he])]
        cases hr : intParam 5 0 100 range with
        | none =>
          refine .inr ⟨?_, .inl rfl⟩
          rintro ⟨a, h⟩
          cases h with
          | putElement h1 h2 h3 => exact number_no hr _ h3
        | some r =>
          cases body with
          | none => exact .inr ⟨(by rintro ⟨a, h⟩; cases h), .inl rfl⟩
          | some b =>
            simp only [readElement]
            by_cases hok : okElement b = true
            · rw [if_pos hok]
              simp only [readElementID]
              cases hp : parseUint eid with
              | none =>
                refine .inr ⟨?_, .inr ⟨id, rfl⟩⟩
                rintro ⟨a, h⟩
                cases h with
                | putElement h1 h2 => rw [parse_of h2] at hp; simp at hp
              | some v =>
                dsimp only
                by_cases hv : v = (toElement b).id
                · rw [if_neg (by simp [hv])]
                  subst hv
                  exact .inl ⟨.change _, rfl, .putElement ((okListID_iff _).mp hid) (elementID_of he hp) ((intParam_iff ..).mp hr)
                    ((isElement_iff ..).mpr ⟨hok, rfl⟩)⟩
                · rw [if_pos (by simp [hv])]
                  refine .inr ⟨?_, .inr ⟨id, rfl⟩⟩
                  rintro ⟨a, h⟩
                  cases h with
                  | putElement h1 h2 h3 h4 =>
                    obtain ⟨-, rfl⟩ := (isElement_iff ..).mp h4
                    rw [parse_of h2] at hp
                    exact hv (Option.some.inj hp).symm
            · rw [if_neg hok]
              refine .inr ⟨?_, .inl rfl⟩
              rintro ⟨a, h⟩
              cases h with
              | putElement h1 h2 h3 h4 => exact hok ((isElement_iff ..).mp h4).1
      · rw [if_neg (by simp [he])]
        refine .inr ⟨?_, .inl rfl⟩
        rintro ⟨a, h⟩
        cases h with
        | putElement h1 h2 => exact he (okElementID_of h2)
    · rw [if_neg (by simp [hid])]
      refine .inr ⟨?_, .inl rfl⟩
      rintro ⟨a, h⟩
      cases h with
      | putElement h1 => exact listID_no hid h1
  | putElements id body =>
    simp only [route]
    by_cases hid : okListID id = true
    · rw [if_pos hid]
      cases body with
      | none => exact .inr ⟨(by rintro ⟨a, h⟩; cases h), .inl rfl⟩
      | some bs =>
        refine .inl ⟨.change _, rfl, .putElements ((okListID_iff _).mp hid) ?_⟩
        have hall : ∀ b ∈ bs, ∃ x, b = some x ∧ okElement x = true := by
          intro b hb
          apply Classical.byContradiction
          intro hno
          apply hu
          refine ⟨b, hb, ?_⟩
          intro x hx
          apply Classical.byContradiction
          intro h'
          apply hno
          refine ⟨x, hx, ?_⟩
          unfold okElement
          cases h1 : x.id <;> cases h2 : x.score <;> simp_all
        clear hu hs
        induction bs with
        | nil => exact .nil
        | cons b bs ih =>
          obtain ⟨x, rfl, hx⟩ := hall b List.mem_cons_self
          exact .cons x _ bs _ ((isElement_iff ..).mpr ⟨hx, rfl⟩) (ih fun b hb => hall b (List.mem_cons_of_mem _ hb))
    · rw [if_neg hid]
      refine .inr ⟨?_, .inl rfl⟩
      rintro ⟨a, h⟩
      cases h with
      | putElements h1 => exact listID_no hid h1

/-! ### Accepted requests are within the limits of the server -/

theorem toElement_storable (b : RawElement) : Storable (toElement b) := by
  refine ⟨?_, ?_, ?_, ?_⟩
  · exact (b.score.getD 0).toNat_lt
  · exact (b.id.getD 0).toNat_lt
  · exact (b.tie.getD 0).toNat_lt
  · show 0 < 2 ^ 32 - 1; decide

theorem isElement_storable {b : RawElement} {e : Element} (h : IsElement b e) : Storable e := by
  obtain ⟨-, rfl⟩ := (isElement_iff b e).mp h
  exact toElement_storable b

theorem areElements_storable {bs : List (Option RawElement)} {es : List Element} (h : AreElements bs es) :
    (∀ e ∈ es, Storable e) ∧ es.length = bs.length := by
  induction h with
  | nil => exact ⟨by simp, rfl⟩
  | cons b e bs es hb _ ih =>
    refine ⟨?_, by simp [ih.2]⟩
    intro x hx
    rcases List.mem_cons.mp hx with rfl | hx
    · exact isElement_storable hb
    · exact ih.1 x hx

theorem isSize_ge {d : Nat} (hd : 10 ≤ d) {raw : Option Int} {v : Nat} (h : IsSize d raw v) : 10 ≤ v := by
  cases raw with
  | none => have : v = d := h; omega
  | some i => exact h.2.1

/-- What a well-formed request asks for is within the limits under which the server is known to work (C70, C75), if
lists are not too long; only for the percentile 100 it is not (`C25_percentile_panics`). -/
theorem C85_within_limits (db : Db) (raw : Raw) (hs : Sized raw) (hr : LengthRoom db) :
    (∀ r, AsksFor raw (.change r) → Spec.Allowed db r) ∧
    (∀ q, AsksFor raw (.query q) → AllowedQuery q ∨ ∃ id m e range, q = .percentile id m e range ∧ 2 ^ e ≤ m) := by
  refine ⟨?_, ?_⟩
  · intro r h
    cases h with
    | createList h1 h2 =>
      rename_i body rep p
      have h10 := isSize_ge (by decide) h2.split
      have hp := h2.populate
      refine ⟨by omega, ?_⟩
      have hs' : (body.populate.getD []).length < 2 ^ 30 := hs
      cases hb : body.populate with
      | none => rw [hb] at hp; dsimp only at hp; rw [hp]; exact ⟨by simp, by decide⟩
      | some bs =>
        rw [hb] at hp hs'
        obtain ⟨es, e1, e2⟩ := hp
        obtain ⟨a1, a2⟩ := areElements_storable e2
        rw [e1]
        simp only [Option.getD_some] at hs' ⊢
        exact ⟨a1, by omega⟩
    | cloneList h1 h2 =>
      have h10 := isSize_ge (by decide) h2.split
      exact ⟨by omega, fun l hl _ st hst => hr l hl st hst⟩
    | deleteList => trivial
    | reindex => exact fun l hl _ st hst => (hr l hl st hst).1
    | repair => exact fun l hl _ st hst => (hr l hl st hst).1
    | createElement h1 h2 h3 => exact isElement_storable h3
    | deleteElement h1 h2 =>
      intro v hv
      simp at hv
      subst hv
      exact h2.2.2
    | deleteElements h1 h2 h3 =>
      rename_i id eids vs
      intro v hv
      obtain ⟨i, hi, rfl⟩ := List.mem_iff_getElem.mp hv
      have := h3 (eids[i]'(by omega), vs[i]) (by
        rw [← List.getElem_zip]
        exact List.getElem_mem (by simp [List.length_zip]; omega))
      exact this.2.2
    | putElement h1 h2 h3 h4 =>
      intro x hx
      simp at hx
      subst hx
      exact isElement_storable h4
    | putElements h1 h2 => exact (areElements_storable h2).1
  · intro q h
    have hnum : ∀ {d lo hi raw v}, 0 < d → 0 < lo → IsNumber d lo hi raw v → 0 < v := by
      intro d lo hi raw v hd hlo h
      cases raw with
      | none => have : v = d := h; omega
      | some s => have := h.2.1; omega
    cases h with
    | getList => exact .inl trivial
    | getPercentile h1 h2 h3 =>
      rename_i id fromTop range m e r
      obtain ⟨neg, m0, e0, -, -, -, -, -, h53, -⟩ := h2
      by_cases h : m < 2 ^ e
      · exact .inl ⟨h, h53⟩
      · exact .inr ⟨id, m, e, r, rfl, by omega⟩
    | fromTop h1 h2 h3 => exact .inl (hnum (by decide) (by decide) h3)
    | fromBottom h1 h2 h3 => exact .inl (hnum (by decide) (by decide) h3)
    | getAll h1 => exact .inl (hnum (by decide) (by decide) h1)
    | getElement h1 h2 h3 => exact .inl h2.2.2
    | getElements h1 =>
      refine .inl ?_
      intro v hv
      obtain ⟨x, -, rfl⟩ := List.mem_map.mp hv
      exact x.toNat_lt
    | getAround h1 h2 h3 =>
      refine .inl ⟨h2.2.2, ?_⟩
      intro v hv
      obtain ⟨x, -, rfl⟩ := List.mem_map.mp hv
      exact x.toNat_lt

/-- From the text of a request to its effect: a well-formed request means what it asks for, or shows the lists as they
are; a malformed one is answered with "bad request" or "not found" and changes nothing. Missing for the full property
are the unusual requests (`C85_null_panics`, `C85_missing_id_is_zero`, `C85_nan_panics`) and the percentile 100. -/
theorem C85_serves_partial (env : Env) (db : Db) (raw : Raw) (h : Good db) (hf : Fits env db) (hr : LengthRoom db) (hs : Sized raw)
    (hu : ¬ Unusual raw) :
    Good (respond env db raw).2 ∧
    ((∃ r a, AsksFor raw (.change r) ∧ (respond env db raw).1 = .answer a ∧
        Means env.now (look db) r a (look (respond env db raw).2)) ∨
     (∃ q s, AsksFor raw (.query q) ∧ (respond env db raw) = (.shown s, db) ∧
        (Shows (look db) q s ∨ ∃ id m e range, q = .percentile id m e range ∧ 2 ^ e ≤ m)) ∨
     (¬ WellFormed raw ∧ ∃ a, (a = .badRequest ∨ a = .notFound) ∧ respond env db raw = (.answer a, db))) := by
  obtain ⟨w1, w2⟩ := C85_within_limits db raw hs hr
  rcases C85_read_partial raw hs hu with ⟨a, h1, h2⟩ | ⟨h1, h2⟩
  · cases a with
    | change r =>
      obtain ⟨g1, g2⟩ := C70_request env db r h hf (w1 r h2)
      have e : respond env db raw = (.answer (serve env db r).1, (serve env db r).2) := by
        unfold respond; rw [h1]; rfl
      rw [e]
      exact ⟨g1, .inl ⟨r, _, h2, rfl, g2⟩⟩
    | query q =>
      have e : respond env db raw = (.shown (ask env.sch db q), db) := by unfold respond; rw [h1]; rfl
      rw [e]
      refine ⟨h, .inr (.inl ⟨q, _, h2, rfl, ?_⟩)⟩
      rcases w2 q h2 with hq | hq
      · exact .inl (C75_answers_partial env.sch db q h hq)
      · exact .inr hq
  · rcases h2 with h2 | ⟨id, h2⟩
    · have e : respond env db raw = (.answer .badRequest, db) := by unfold respond; rw [h2]
      rw [e]
      exact ⟨h, .inr (.inr ⟨h1, _, .inl rfl, rfl⟩)⟩
    · have e : respond env db raw = (.answer (if (byID db.lists id).isSome then .badRequest else .notFound), db) := by
        unfold respond; rw [h2]
      rw [e]
      refine ⟨h, .inr (.inr ⟨h1, _, ?_, rfl⟩)⟩
      split
      · exact .inl rfl
      · exact .inr rfl

/-- What a request asks for is determined, apart from the last bit of a percentile. -/
theorem C85_one_meaning (raw : Raw) (a b : Ask) (ha : AsksFor raw a) (hb : AsksFor raw b)
    (hp : ∀ id fromTop range, raw ≠ .getPercentile id fromTop range) : a = b := by
  have hnum : ∀ {d lo hi raw v w}, IsNumber d lo hi raw v → IsNumber d lo hi raw w → v = w := by
    intro d lo hi raw v w h h'
    exact Option.some.inj (((intParam_iff ..).mpr h).symm.trans ((intParam_iff ..).mpr h'))
  have hflag : ∀ {raw v w}, IsFlag raw v → IsFlag raw w → v = w := by
    intro raw v w h h'
    exact Option.some.inj (((boolParam_iff ..).mpr h).symm.trans ((boolParam_iff ..).mpr h'))
  have hlist : ∀ {b p p'}, IsList b p → IsList b p' → p = p' := by
    intro b p p' h h'
    exact Option.some.inj (((isList_iff ..).mp h).2.symm.trans ((isList_iff ..).mp h').2)
  have helem : ∀ {b e e'}, IsElement b e → IsElement b e' → e = e' := by
    intro b e e' h h'
    exact ((isElement_iff ..).mp h).2.trans ((isElement_iff ..).mp h').2.symm
  have helems : ∀ {b e e'}, AreElements b e → AreElements b e' → e = e' := by
    intro b e e' h h'
    exact Option.some.inj (((areElements_iff ..).mp h).2.symm.trans ((areElements_iff ..).mp h').2)
  have hid : ∀ {s v w}, IsElementID s v → IsElementID s w → v = w := fun h h' => decimal_unique h.1 h'.1
  have hint : ∀ {s} {v w : Nat}, Integer s v → Integer s w → v = w := by
    intro s v w h h'
    have := Option.some.inj (((atoi_iff ..).mpr h).symm.trans ((atoi_iff ..).mpr h'))
    omega
  cases ha with
  | createList h1 h2 => cases hb with
    | createList h3 h4 => rw [hflag h1 h3, hlist h2 h4]
  | cloneList h1 h2 => cases hb with
    | cloneList h3 h4 => rw [hlist h2 h4]
  | deleteList h1 => cases hb; rfl
  | getList h1 => cases hb; rfl
  | getPercentile h1 => exact absurd rfl (hp _ _ _)
  | fromTop h1 h2 h3 => cases hb with
    | fromTop h4 h5 h6 => rw [hint h2 h5, hnum h3 h6]
  | fromBottom h1 h2 h3 => cases hb with
    | fromBottom h4 h5 h6 => rw [hint h2 h5, hnum h3 h6]
  | getAll h1 => cases hb with
    | getAll h2 => rw [hnum h1 h2]
  | reindex h1 => cases hb; rfl
  | repair h1 => cases hb; rfl
  | createElement h1 h2 h3 => cases hb with
    | createElement h4 h5 h6 => rw [helem h3 h6]
  | deleteElement h1 h2 => cases hb with
    | deleteElement h3 h4 => rw [hid h2 h4]
  | deleteElements h1 h2 h3 => cases hb with
    | deleteElements h4 h5 h6 =>
      rename_i id eids vs ws
      congr 2
      apply List.ext_getElem (by omega)
      intro i hi hi'
      have e1 := h3 (eids[i]'(by omega), vs[i]) (by
        rw [← List.getElem_zip]
        exact List.getElem_mem (by simp [List.length_zip]; omega))
      have e2 := h6 (eids[i]'(by omega), ws[i]) (by
        rw [← List.getElem_zip]
        exact List.getElem_mem (by simp [List.length_zip]; omega))
      exact hid e1 e2
  | getElement h1 h2 h3 => cases hb with
    | getElement h4 h5 h6 => rw [hid h2 h5, hnum h3 h6]
  | getElements h1 => cases hb; rfl
  | getAround h1 h2 h3 => cases hb with
    | getAround h4 h5 h6 => rw [hid h2 h5, hnum h3 h6]
  | putElement h1 h2 h3 h4 => cases hb with
    | putElement h5 h6 h7 h8 => rw [helem h4 h8]
  | putElements h1 h2 => cases hb with
    | putElements h3 h4 => rw [helems h2 h4]

/-! ### Requests that are not read as documented -/

/-- If a description of a list has null for one of its elements and nothing else is wrong with it, the server panics
instead of refusing it. -/
theorem C85_null_panics (replace : Option Str) (rep : Bool) (b : RawList) (bs : List (Option RawElement)) (env : Env) (db : Db)
    (hr : IsFlag replace rep) (hb : b.populate = some bs) (hn : none ∈ bs)
    (hok : ∃ p, IsList { b with populate := some (bs.filter (·.isSome)) } p) :
    ¬ WellFormed (.createList replace (some b)) ∧ respond env db (.createList replace (some b)) = (.answer .stuck, db) := by
  have hbad : publicizeAll bs = none := publicizeAll_none hn
  refine ⟨?_, ?_⟩
  · rintro ⟨a, h⟩
    cases h with
    | createList h1 h2 =>
      have hp := h2.populate
      rw [hb] at hp
      obtain ⟨es, -, e2⟩ := hp
      rw [((areElements_iff ..).mp e2).2] at hbad
      simp at hbad
  · obtain ⟨p, hp⟩ := hok
    obtain ⟨o1, -⟩ := (isList_iff ..).mp hp
    have o2 : okList (finalize b) = true := by
      unfold okList finalize at o1 ⊢
      simp only [Bool.and_eq_true] at o1 ⊢
      refine ⟨o1.1, ?_⟩
      rw [hb]
      have o3 := o1.2
      simp only [Option.getD_some, List.all_eq_true, List.mem_filter] at o3 ⊢
      intro x hx
      cases x with
      | none => rfl
      | some e => exact o3 _ ⟨hx, rfl⟩
    have o4 : publicize (finalize b) = none := by
      unfold publicize finalize
      simp only [hb, hbad, Option.map_none]
    unfold respond
    simp only [route, (boolParam_iff ..).mpr hr, readList]
    rw [if_pos o2, o4]

/-- Elements to put are accepted without ID and score: both are taken as 0. -/
theorem C85_missing_id_is_zero (id : Str) (payload : List UInt8) (hid : IsListID id) :
    let raw : Raw := .putElements id (some [some { id := none, score := none, tie := none, payload := some payload }])
    ¬ WellFormed raw ∧
    route raw = .change (.putElements id [{ id := 0, score := 0, tie := 0, payload := payload, updated := 0 }]) := by
  dsimp only
  refine ⟨?_, ?_⟩
  · rintro ⟨a, h⟩
    cases h with
    | putElements h1 h2 =>
      cases h2 with
      | cons _ _ _ _ h3 _ =>
        obtain ⟨_, _, h4, -⟩ := h3
        simp at h4
  · simp only [route]
    rw [if_pos ((okListID_iff id).mpr hid)]
    rfl

/-- The percentile NaN is not refused: the server panics if the list exists. -/
theorem C85_nan_panics (id : Str) (env : Env) (db : Db) (hid : IsListID id) (hl : (byID db.lists id).isSome) :
    ¬ WellFormed (.getPercentile id (some .nan) none) ∧
    respond env db (.getPercentile id (some .nan) none) = (.answer .stuck, db) := by
  refine ⟨?_, ?_⟩
  · rintro ⟨a, h⟩
    cases h with
    | getPercentile h1 h2 =>
      obtain ⟨_, _, _, h3, -⟩ := h2
      simp at h3
  · unfold respond
    simp only [route, readPercent, Option.getD_some, intParam]
    rw [if_pos ((okListID_iff id).mpr hid)]
    dsimp only
    rw [if_pos hl]

/-! ### Cases -/

deriving instance DecidableEq for Payload, Request, Query, Outcome

def text (s : String) : Str := s.toUTF8.toList

def exampleBody : RawList :=
  { id := some (text "highscore_list"), set := some (text "storage-set"), loadIndex := none, mergeSize := some 100
    splitSize := none, metadata := none
    populate := some [some { id := some 7, score := some 100, tie := none, payload := some [123, 125] }] }

def examplePayload : Payload :=
  { id := text "highscore_list", set := text "storage-set", metadata := none, mergeSize := 100, splitSize := 2000
    loadIndex := false, populate := some [{ id := 7, score := 100, tie := 0, payload := [123, 125], updated := 0 }] }

/-- A list is created with the default for what is absent. -/
example : AsksFor (.createList (some (text "true")) (some exampleBody)) (.change (.create true examplePayload)) := by
  refine .createList ?_ ?_
  · show text "true" ∈ _; decide +kernel
  · rw [isList_iff]
    constructor <;> decide +kernel

/-- Neither a name with a space nor a size of 9 is accepted, and the server does not change. -/
example : route (.deleteList (text "high score")) = .refused ∧ ¬ WellFormed (.deleteList (text "high score")) := by
  refine ⟨by decide +kernel, ?_⟩
  rintro ⟨a, h⟩
  cases h with
  | deleteList h1 => exact absurd ((okListID_iff _).mpr h1) (by decide +kernel)

example : route (.createList none (some { exampleBody with mergeSize := some 9 })) = .refused := by decide +kernel

example : ¬ Unusual (.createList none (some exampleBody)) ∧ Sized (.createList none (some exampleBody)) := by
  refine ⟨?_, by show _ < 2 ^ 30; decide⟩
  rintro ⟨bs, h1, h2⟩
  simp only [exampleBody, Option.some.injEq] at h1
  subst h1
  simp at h2

/-- `/lists/ab/range?from_top=+10`. -/
example : AsksFor (.getRange (text "ab") (some (text "+10")) none none) (.query (.fromTop (text "ab") 10 25)) := by
  refine .fromTop ((okListID_iff _).mp (by decide +kernel)) ((atoi_iff _ _).mp (by decide +kernel)) rfl

/-- An element ID of 20 digits that does not fit in 64 bits is refused. -/
example : route (.deleteElement (text "ab") (text "18446744073709551616")) = .late (text "ab") ∧
    route (.deleteElement (text "ab") (text "18446744073709551615")) = .change (.deleteElements (text "ab") [18446744073709551615]) := by
  constructor <;> decide +kernel

/-- The percentile 99.99999999999999 (the float64 just below 100) is still below 1 after the division. -/
example : div100 (100 * 2 ^ 46 - 1) 46 = (9007199254740991, 53) ∧ div100 100 0 = (2 ^ 52, 52) ∧
    div100 50 0 = (4503599627370496, 53) := by
  refine ⟨?_, ?_, ?_⟩ <;> decide +kernel

/-- Null for an element. -/
example : ∃ p, IsList { exampleBody with populate := some ([none].filter (·.isSome)) } p :=
  ⟨{ examplePayload with populate := some [] }, (isList_iff _ _).mpr ⟨by decide +kernel, by decide +kernel⟩⟩

end RankDB.Props

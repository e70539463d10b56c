import Verif.Spec.ValidateMany
import Verif.Props.Validate
import Verif.Props.Catalogue
/-
C85 for requests for many lists.
-/
namespace RankDB.Props
open Spec Server Validate Access

theorem spaceByte_iff (b : UInt8) : spaceByte b = true ↔ IsSpace b := by
  unfold spaceByte IsSpace
  have h : ∀ n : Fin 256, (let b := UInt8.ofNat n.val
      (decide (9 ≤ b ∧ b ≤ 13) || b == 32) = true ↔ (b = ' '.toUInt8 ∨ b = '\t'.toUInt8 ∨ b = '\n'.toUInt8 ∨ b = '\r'.toUInt8 ∨
        b = 11 ∨ b = 12)) := by decide +kernel
  have := h ⟨b.toNat, b.toNat_lt⟩
  simpa using this

theorem dropWhile_skip {p : UInt8 → Bool} (a l : Str) (ha : ∀ c ∈ a, p c = true) (hl : ∀ c, l.head? = some c → p c = false) :
    (a ++ l).dropWhile p = l := by
  induction a with
  | nil =>
    cases l with
    | nil => rfl
    | cons c l => rw [List.nil_append, List.dropWhile_cons_of_neg (by simp [hl c rfl])]
  | cons c a ih =>
    rw [List.cons_append, List.dropWhile_cons_of_pos (ha c List.mem_cons_self)]
    exact ih fun d hd => ha d (List.mem_cons_of_mem _ hd)

theorem takeWhile_all {p : UInt8 → Bool} (l : Str) : ∀ c ∈ l.takeWhile p, p c = true := by
  induction l with
  | nil => simp
  | cons c l ih =>
    by_cases hc : p c = true
    · rw [List.takeWhile_cons_of_pos hc]
      intro d hd
      rcases List.mem_cons.1 hd with rfl | hd
      · exact hc
      · exact ih d hd
    · rw [List.takeWhile_cons_of_neg hc]; simp

theorem dropWhile_head {p : UInt8 → Bool} (l : Str) : ∀ c, (l.dropWhile p).head? = some c → p c = false := by
  induction l with
  | nil => simp
  | cons c l ih =>
    by_cases hc : p c = true
    · rw [List.dropWhile_cons_of_pos hc]; exact ih
    · rw [List.dropWhile_cons_of_neg hc]
      intro d hd
      simp only [List.head?_cons, Option.some.injEq] at hd
      rw [← hd]; simpa using hc

theorem written_iff (raw name : Str) : Spelled raw name ↔ name = trimBytes raw := by
  constructor
  · rintro ⟨a, b, rfl, ha, hb, h1, h2⟩
    have ha' : ∀ c ∈ a, spaceByte c = true := fun c hc => (spaceByte_iff c).2 (ha c hc)
    have hb' : ∀ c ∈ b, spaceByte c = true := fun c hc => (spaceByte_iff c).2 (hb c hc)
    unfold trimBytes
    cases name with
    | nil =>
      have : ∀ c ∈ a ++ [] ++ b, spaceByte c = true := by
        intro c hc
        simp only [List.append_nil, List.mem_append] at hc
        rcases hc with h | h
        · exact ha' c h
        · exact hb' c h
      have h0 := dropWhile_skip (p := spaceByte) (a ++ [] ++ b) [] this (by simp)
      rw [List.append_nil] at h0
      rw [h0]; rfl
    | cons x l =>
      rw [List.append_assoc, dropWhile_skip a _ ha' (by
        intro c hc
        have hcx : x = c := by simpa using hc
        rw [← hcx]
        have := h1 x rfl
        rw [← spaceByte_iff] at this
        simpa using this), List.reverse_append, dropWhile_skip b.reverse _ (by simpa using hb') (by
        intro c hc
        rw [List.head?_reverse] at hc
        have := h2 c hc
        rw [← spaceByte_iff] at this
        simpa using this), List.reverse_reverse]
  · rintro rfl
    unfold trimBytes
    generalize hm : raw.dropWhile spaceByte = m
    refine ⟨raw.takeWhile spaceByte, (m.reverse.takeWhile spaceByte).reverse, ?_, ?_, ?_, ?_, ?_⟩
    · rw [List.append_assoc, ← List.reverse_append, List.takeWhile_append_dropWhile, List.reverse_reverse, ← hm,
        List.takeWhile_append_dropWhile]
    · intro c hc
      exact (spaceByte_iff c).1 (takeWhile_all _ c hc)
    · intro c hc
      rw [List.mem_reverse] at hc
      exact (spaceByte_iff c).1 (takeWhile_all _ c hc)
    · intro c hc
      rw [← spaceByte_iff]
      -- the first byte of what is left is that of `m`
      have hsplit : m = (m.reverse.dropWhile spaceByte).reverse ++ (m.reverse.takeWhile spaceByte).reverse := by
        rw [← List.reverse_append, List.takeWhile_append_dropWhile, List.reverse_reverse]
      have : m.head? = some c := by
        rw [hsplit, List.head?_append, hc]
        rfl
      rw [← hm] at this
      simp [dropWhile_head raw c this]
    · intro c hc
      rw [List.getLast?_reverse] at hc
      rw [← spaceByte_iff]
      simp [dropWhile_head _ c hc]

theorem ascending_ext : ∀ {a b : List Str}, a.Pairwise (· < ·) → b.Pairwise (· < ·) → (∀ x, x ∈ a ↔ x ∈ b) → a = b
  | [], [], _, _, _ => rfl
  | [], y :: b, _, _, h => by have := (h y).2 List.mem_cons_self; simp at this
  | x :: a, [], _, _, h => by have := (h x).1 List.mem_cons_self; simp at this
  | x :: a, y :: b, ha, hb, h => by
    have hirr : ∀ z : Str, ¬ z < z := fun z => List.lt_irrefl z
    obtain ⟨a1, a2⟩ := List.pairwise_cons.1 ha
    obtain ⟨b1, b2⟩ := List.pairwise_cons.1 hb
    have hxy : x = y := by
      rcases List.mem_cons.1 ((h x).1 List.mem_cons_self) with e | e
      · exact e
      · rcases List.mem_cons.1 ((h y).2 List.mem_cons_self) with e' | e'
        · exact e'.symm
        · exact absurd (List.lt_trans (a1 y e') (b1 x e)) (hirr x)
    subst hxy
    rw [ascending_ext a2 b2 fun z => ?_]
    have hz := h z
    constructor
    · intro hm
      rcases List.mem_cons.1 (hz.1 (List.mem_cons_of_mem _ hm)) with e | e
      · rw [e] at hm; exact absurd (a1 x hm) (hirr x)
      · exact e
    · intro hm
      rcases List.mem_cons.1 (hz.2 (List.mem_cons_of_mem _ hm)) with e | e
      · rw [e] at hm; exact absurd (b1 x hm) (hirr x)
      · exact e

theorem selects_iff (raw : List Str) (fields : List (Str × Str)) (sets : List Str) (s : Select) :
    Selects raw fields sets s ↔ s = { lists := listIDs raw, fields := fields, sets := sets } := by
  have hd := C48_deduplicate_lists ((raw.map trimBytes).filter fun s => s ≠ [])
  have hm : ∀ x, x ∈ listIDs raw ↔ x ≠ [] ∧ ∃ r ∈ raw, Spelled r x := by
    intro x
    unfold listIDs
    rw [hd.2.1, List.mem_filter, List.mem_map]
    simp only [decide_eq_true_eq]
    constructor
    · rintro ⟨⟨r, hr, rfl⟩, hne⟩
      exact ⟨by simpa using hne, r, hr, (written_iff _ _).2 rfl⟩
    · rintro ⟨hne, r, hr, hw⟩
      exact ⟨⟨r, hr, ((written_iff _ _).1 hw).symm⟩, by simpa using hne⟩
  constructor
  · rintro ⟨h1, h2, h3, h4⟩
    obtain ⟨lists, fs, ss⟩ := s
    simp only at h1 h2 h3 h4
    subst h3 h4
    rw [ascending_ext h2 hd.1 fun x => by rw [h1]; exact (hm x).symm]
    rfl
  · rintro rfl
    exact ⟨hm, hd.1, rfl, rfl⟩

theorem readFields_iff (raw : Option RawFields) (fs : List (Str × Str)) : readFields raw = some fs ↔ IsFields raw fs := by
  unfold readFields IsFields
  cases raw with
  | none => simp [eq_comm]
  | some f =>
    obtain ⟨text, parsed⟩ := f
    cases text with
    | nil => simp [eq_comm]
    | cons c t => simp

/-- What the server should do. -/
def carryMany : AskMany → OutcomeMany
  | .nothing => .nothing
  | .call c => .call c

theorem readMany_iff {body : Option (RawSelect × Option (List (Option RawElement)))} {f : Select → List Element → OutcomeMany}
    (hnull : ∀ s bs, body = some (s, some bs) → none ∉ bs) :
    (∃ s p sel es, body = some (s, p) ∧ Selects s.lists s.fields s.sets sel ∧ AreElements (p.getD []) es ∧ readMany body f = f sel es) ∨
    ((∀ s p, body = some (s, p) → ∀ es, ¬ AreElements (p.getD []) es) ∧ readMany body f = .refused) := by
  cases body with
  | none => exact .inr ⟨by simp, rfl⟩
  | some x =>
    obtain ⟨s, p⟩ := x
    unfold readMany
    by_cases hok : (p.getD []).all okEntry = true
    · obtain ⟨es, hes⟩ := publicizeAll_some (bs := p.getD []) (by
        cases p with
        | none => simp
        | some bs => exact hnull s bs rfl)
      refine .inl ⟨s, p, s.select, es, rfl, (selects_iff ..).2 rfl, (areElements_iff ..).2 ⟨hok, hes⟩, ?_⟩
      dsimp only
      rw [if_pos hok, hes]
    · refine .inr ⟨?_, ?_⟩
      · intro s' p' he es h
        cases he
        exact hok ((areElements_iff ..).1 h).1
      · dsimp only
        rw [if_neg hok]

/-- Every request for many lists is read as documented, or refused if it is not of the documented form; requests with
null for an element are the exception. -/
theorem C85_many_read_partial (raw : RawMany) (hn : ¬ HasNull raw) :
    (∃ a, AsksForMany raw a ∧ routeMany raw = carryMany a) ∨
    ((∀ a, ¬ AsksForMany raw a) ∧ (routeMany raw = .refused ∨ ∃ s, routeMany raw = .late s)) := by
  have flag : ∀ (x : Option Str), (∃ v, boolParam x = some v ∧ IsFlag x v) ∨ (boolParam x = none ∧ ∀ v, ¬ IsFlag x v) := by
    intro x
    cases h : boolParam x with
    | none =>
      refine .inr ⟨rfl, fun v hv => ?_⟩
      rw [(boolParam_iff ..).2 hv] at h
      simp at h
    | some v => exact .inl ⟨v, rfl, (boolParam_iff ..).1 h⟩
  have eid : ∀ (x : Str), okElementID x = false → ∀ v, ¬ IsElementID x v := by
    intro x h v hv
    have := okElementID_of hv
    rw [this] at h
    simp at h
  have late : ∀ (x : Str), parseUint x = none → ∀ v, ¬ IsElementID x v := by
    intro x h v hv
    rw [parse_of hv] at h
    simp at h
  cases raw with
  | create errorsOnly results body =>
    simp only [routeMany]
    rcases flag errorsOnly with ⟨v, f1, f2⟩ | ⟨f1, f2⟩
    · rcases flag results with ⟨w, g1, g2⟩ | ⟨g1, g2⟩
      · rw [f1, g1]
        dsimp only
        rcases readMany_iff (body := body) (f := fun s es => .call (.bulk s (.create es))) (by
            rintro s bs rfl; exact hn) with ⟨s, p, sel, es, rfl, h2, h3, h4⟩ | ⟨h1, h2⟩
        · exact .inl ⟨_, .create f2 g2 h2 h3, h4⟩
        · refine .inr ⟨?_, .inl h2⟩
          intro a ha
          cases ha with
          | create _ _ _ h => exact h1 _ _ rfl _ h
      · rw [f1, g1]
        exact .inr ⟨by intro a ha; cases ha with | create _ h => exact g2 _ h, .inl rfl⟩
    · rw [f1]
      refine .inr ⟨by intro a ha; cases ha with | create h => exact f2 _ h, .inl ?_⟩
      split <;> simp_all
  | put errorsOnly results body =>
    simp only [routeMany]
    rcases flag errorsOnly with ⟨v, f1, f2⟩ | ⟨f1, f2⟩
    · rcases flag results with ⟨w, g1, g2⟩ | ⟨g1, g2⟩
      · rw [f1, g1]
        dsimp only
        rcases readMany_iff (body := body) (f := fun s es => .call (.bulk s (.put es))) (by
            rintro s bs rfl; exact hn) with ⟨s, p, sel, es, rfl, h2, h3, h4⟩ | ⟨h1, h2⟩
        · exact .inl ⟨_, .put f2 g2 h2 h3, h4⟩
        · refine .inr ⟨?_, .inl h2⟩
          intro a ha
          cases ha with
          | put _ _ _ h => exact h1 _ _ rfl _ h
      · rw [f1, g1]
        exact .inr ⟨by intro a ha; cases ha with | put _ h => exact g2 _ h, .inl rfl⟩
    · rw [f1]
      refine .inr ⟨by intro a ha; cases ha with | put h => exact f2 _ h, .inl ?_⟩
      split <;> simp_all
  | delete x errorsOnly lists sets fields =>
    simp only [routeMany]
    rcases flag errorsOnly with ⟨v, f1, f2⟩ | ⟨f1, f2⟩
    · rw [f1]
      dsimp only
      by_cases hx : okElementID x = true
      · rw [if_pos hx]
        cases hf : readFields fields with
        | none =>
          refine .inr ⟨?_, .inl rfl⟩
          intro a ha
          cases ha with
          | delete _ _ h => rw [(readFields_iff ..).2 h] at hf; simp at hf
        | some fs =>
          dsimp only
          cases hp : parseUint x with
          | none =>
            refine .inr ⟨?_, .inr ⟨_, rfl⟩⟩
            intro a ha
            cases ha with
            | delete _ h => exact late x hp _ h
          | some w => exact .inl ⟨_, .delete f2 (elementID_of hx hp) ((readFields_iff ..).1 hf) ((selects_iff ..).2 rfl), rfl⟩
      · rw [if_neg hx]
        refine .inr ⟨?_, .inl rfl⟩
        intro a ha
        cases ha with
        | delete _ h => exact eid x (by simpa using hx) _ h
    · rw [f1]
      exact .inr ⟨by intro a ha; cases ha with | delete h => exact f2 _ h, .inl rfl⟩
  | get x lists sets fields =>
    simp only [routeMany]
    by_cases hx : okElementID x = true
    · rw [if_pos hx]
      cases hf : readFields fields with
      | none =>
        refine .inr ⟨?_, .inl rfl⟩
        intro a ha
        cases ha with
        | get _ h => rw [(readFields_iff ..).2 h] at hf; simp at hf
      | some fs =>
        dsimp only
        cases hp : parseUint x with
        | none =>
          refine .inr ⟨?_, .inr ⟨_, rfl⟩⟩
          intro a ha
          cases ha with
          | get h => exact late x hp _ h
        | some w => exact .inl ⟨_, .get (elementID_of hx hp) ((readFields_iff ..).1 hf) ((selects_iff ..).2 rfl), rfl⟩
    · rw [if_neg hx]
      refine .inr ⟨?_, .inl rfl⟩
      intro a ha
      cases ha with
      | get h => exact eid x (by simpa using hx) _ h
  | reindex errorsOnly body =>
    simp only [routeMany]
    rcases flag errorsOnly with ⟨v, f1, f2⟩ | ⟨f1, f2⟩
    · cases body with
      | none => rw [f1]; exact .inr ⟨(by intro a ha; cases ha), .inl rfl⟩
      | some s =>
        rw [f1]
        dsimp only
        by_cases h0 : s.lists.length > 0 ∧ s.fields.length = 0 ∧ (listIDs s.lists).length = 0
        · rw [if_pos h0]
          exact .inl ⟨_, .reindexNothing f2 ((selects_iff ..).2 rfl) (List.length_pos_iff.1 h0.1) (List.length_eq_zero_iff.1 h0.2.1)
            (List.length_eq_zero_iff.1 h0.2.2), rfl⟩
        · rw [if_neg h0]
          refine .inl ⟨_, .reindex f2 ((selects_iff ..).2 rfl) ?_, rfl⟩
          apply Classical.byContradiction
          intro hno
          apply h0
          refine ⟨List.length_pos_iff.2 fun h => hno (.inl h), ?_, ?_⟩
          · exact List.length_eq_zero_iff.2 (Classical.byContradiction fun h => hno (.inr (.inl h)))
          · exact List.length_eq_zero_iff.2 (Classical.byContradiction fun h => hno (.inr (.inr h)))
    · rw [f1]
      refine .inr ⟨by intro a ha; cases ha with | reindex h => exact f2 _ h | reindexNothing h => exact f2 _ h, .inl ?_⟩
      split <;> simp_all

/-- A request that is not of the documented form changes nothing. -/
theorem C85_many_refused (txt : Str → Text) (auth : Auth) (sch : Sched) (env : Str → Env) (db : Db) (raw : RawMany)
    (h : ∀ a, ¬ AsksForMany raw a) : (respondMany txt auth sch env db raw).2 = db := by
  by_cases hn : HasNull raw
  · unfold respondMany
    cases hr : routeMany raw with
    | call c =>
      exfalso
      cases raw with
      | create e r body =>
        cases body with
        | none => exact hn
        | some x =>
          obtain ⟨s, p⟩ := x
          cases p with
          | none => exact hn
          | some bs =>
            simp only [routeMany, readMany, Option.getD_some, publicizeAll_none (show none ∈ bs from hn)] at hr
            split at hr
            · split at hr <;> simp at hr
            · simp at hr
      | put e r body =>
        cases body with
        | none => exact hn
        | some x =>
          obtain ⟨s, p⟩ := x
          cases p with
          | none => exact hn
          | some bs =>
            simp only [routeMany, readMany, Option.getD_some, publicizeAll_none (show none ∈ bs from hn)] at hr
            split at hr
            · split at hr <;> simp at hr
            · simp at hr
      | _ => exact hn
    | _ => rfl
  · rcases C85_many_read_partial raw hn with ⟨a, ha, -⟩ | ⟨-, hr | ⟨s, hr⟩⟩
    · exact absurd ha (h a)
    · unfold respondMany; rw [hr]
    · unfold respondMany; rw [hr]

/-- Requests have one meaning. -/
theorem C85_many_one_meaning (raw : RawMany) (a b : AskMany) (ha : AsksForMany raw a) (hb : AsksForMany raw b) : a = b := by
  have num : ∀ {x : Str} {v w : Nat}, IsElementID x v → IsElementID x w → v = w := by
    intro x v w h1 h2
    have := (parse_of h1).symm.trans (parse_of h2)
    simpa using this
  have els : ∀ {bs : List (Option RawElement)} {x y : List Element}, AreElements bs x → AreElements bs y → x = y := by
    intro bs x y h1 h2
    have := ((areElements_iff ..).1 h1).2.symm.trans ((areElements_iff ..).1 h2).2
    simpa using this
  have flds : ∀ {f : Option RawFields} {x y : List (Str × Str)}, IsFields f x → IsFields f y → x = y := by
    intro f x y h1 h2
    have := ((readFields_iff ..).2 h1).symm.trans ((readFields_iff ..).2 h2)
    simpa using this
  cases ha with
  | create _ _ h3 h4 =>
    cases hb with
    | create _ _ g3 g4 => rw [els h4 g4, (selects_iff ..).1 h3, (selects_iff ..).1 g3]
  | put _ _ h3 h4 =>
    cases hb with
    | put _ _ g3 g4 => rw [els h4 g4, (selects_iff ..).1 h3, (selects_iff ..).1 g3]
  | delete _ h2 h3 h4 =>
    cases hb with
    | delete _ g2 g3 g4 =>
      have e := flds h3 g3
      subst e
      rw [num h2 g2, (selects_iff ..).1 h4, (selects_iff ..).1 g4]
  | get h2 h3 h4 =>
    cases hb with
    | get g2 g3 g4 =>
      have e := flds h3 g3
      subst e
      rw [num h2 g2, (selects_iff ..).1 h4, (selects_iff ..).1 g4]
  | reindex _ h2 h3 =>
    cases hb with
    | reindex _ g2 g3 => rw [(selects_iff ..).1 h2, (selects_iff ..).1 g2]
    | reindexNothing _ g2 g3 g4 g5 =>
      rw [(selects_iff ..).1 h2] at h3
      rw [(selects_iff ..).1 g2] at g5
      rcases h3 with h | h | h
      · exact absurd h g3
      · exact absurd g4 h
      · exact absurd g5 h
  | reindexNothing _ h2 h3 h4 h5 =>
    cases hb with
    | reindexNothing => rfl
    | reindex _ g2 g3 =>
      rw [(selects_iff ..).1 h2] at h5
      rw [(selects_iff ..).1 g2] at g3
      rcases g3 with h | h | h
      · exact absurd h h3
      · exact absurd h4 h
      · exact absurd h5 h

/-- Null for an element of a request for many lists: the server panics instead of refusing it, for every server and
every token, also for one that grants nothing. -/
theorem C85_many_null_panics (txt : Str → Text) (auth : Auth) (sch : Sched) (env : Str → Env) (db : Db) (s : RawSelect)
    (bs : List (Option RawElement)) (hn : none ∈ bs) (hok : ∀ b ∈ bs, ∀ x, b = some x → ∃ e, IsElement x e) :
    (∀ a, ¬ AsksForMany (.put none none (some (s, some bs))) a) ∧
    respondMany txt auth sch env db (.put none none (some (s, some bs))) = (.answer .stuck, db) ∧
    respondMany txt auth sch env db (.create none none (some (s, some bs))) = (.answer .stuck, db) := by
  have hall : bs.all okEntry = true := by
    rw [List.all_eq_true]
    intro b hb
    cases b with
    | none => rfl
    | some x =>
      obtain ⟨e, he⟩ := hok _ hb x rfl
      exact ((isElement_iff ..).1 he).1
  refine ⟨?_, ?_, ?_⟩
  · intro a ha
    cases ha with
    | put _ _ _ h =>
      have := ((areElements_iff ..).1 h).2
      rw [Option.getD_some, publicizeAll_none hn] at this
      simp at this
  · unfold respondMany
    simp only [routeMany, boolParam, readMany, Option.getD_some]
    rw [if_pos hall, publicizeAll_none hn]
  · unfold respondMany
    simp only [routeMany, boolParam, readMany, Option.getD_some]
    rw [if_pos hall, publicizeAll_none hn]

/-- The calls of a request are made under the scope of its endpoint. -/
theorem routeMany_scope {raw : RawMany} {c : Call} (h : routeMany raw = .call c) : c.scope = some raw.scope := by
  have hread : ∀ {body : Option (RawSelect × Option (List (Option RawElement)))} {f : Select → List Element → OutcomeMany},
      readMany body f = .call c → ∃ s es, f s es = .call c := by
    intro body f hb
    unfold readMany at hb
    split at hb
    · cases hb
    · split at hb
      · split at hb
        · cases hb
        · exact ⟨_, _, hb⟩
      · cases hb
  cases raw with
  | create e r body =>
    simp only [routeMany] at h
    split at h
    · obtain ⟨s, es, h⟩ := hread h; cases h; rfl
    · cases h
  | put e r body =>
    simp only [routeMany] at h
    split at h
    · obtain ⟨s, es, h⟩ := hread h; cases h; rfl
    · cases h
  | delete eid e lists sets fields =>
    simp only [routeMany] at h
    split at h
    · cases h
    · split at h
      · split at h
        · cases h
        · split at h <;> cases h
          rfl
      · cases h
  | get eid lists sets fields =>
    simp only [routeMany] at h
    split at h
    · split at h
      · cases h
      · split at h <;> cases h
        rfl
    · cases h
  | reindex e body =>
    simp only [routeMany] at h
    split at h
    · split at h <;> cases h
      rfl
    · cases h

/-- Without the scope of the endpoint nothing is shown and nothing changes, whatever the request is: the answer is that
it is not authorized, or for null in the place of an element the panic of `C85_many_null_panics`. -/
theorem C85_many_denied (txt : Str → Text) (auth : Auth) (sch : Sched) (env : Str → Env) (db : Db) (raw : RawMany)
    (h : auth.allows raw.scope = false) :
    (respondMany txt auth sch env db raw).2 = db ∧
    ((respondMany txt auth sch env db raw).1 = .unauthorized ∨
      HasNull raw ∧ (respondMany txt auth sch env db raw).1 = .answer .stuck) := by
  unfold respondMany
  cases hr : routeMany raw with
  | broken =>
    refine ⟨rfl, .inr ⟨Classical.byContradiction fun hn => ?_, rfl⟩⟩
    rcases C85_many_read_partial raw hn with ⟨a, -, h2⟩ | ⟨-, h2 | ⟨s, h2⟩⟩
    · rw [hr] at h2
      revert h2
      cases a <;> intro h2 <;> cases h2
    · rw [hr] at h2; cases h2
    · rw [hr] at h2; cases h2
  | refused => exact ⟨rfl, .inl (if_neg (by rw [h]; nofun))⟩
  | nothing => exact ⟨rfl, .inl (if_neg (by rw [h]; nofun))⟩
  | late s => exact ⟨rfl, .inl (if_neg (by rw [h]; nofun))⟩
  | call c =>
    have hs := routeMany_scope hr
    have : Server.call txt auth sch env db c = (.unauthorized, db) := by
      unfold Server.call
      rw [hs]
      dsimp only
      rw [if_pos (by rw [h]; rfl)]
    dsimp only
    rw [this]
    exact ⟨rfl, .inl rfl⟩

/-- With the scope, a request that is not of the documented form is answered as a bad request, or, when the token does
not give access to the lists, as not authorized. -/
theorem C85_many_bad (txt : Str → Text) (auth : Auth) (sch : Sched) (env : Str → Env) (db : Db) (raw : RawMany)
    (h : auth.allows raw.scope = true) (hn : ¬ HasNull raw) (hf : ∀ a, ¬ AsksForMany raw a) :
    (respondMany txt auth sch env db raw).1 = .answer .badRequest ∨
      ∃ s, routeMany raw = .late s ∧ hasAccessToList auth.token ((selectAlways db s).map txt) ≠ .ok ∧
        (respondMany txt auth sch env db raw).1 = .unauthorized := by
  rcases C85_many_read_partial raw hn with ⟨a, ha, -⟩ | ⟨-, hr | ⟨s, hr⟩⟩
  · exact absurd ha (hf a)
  · left
    unfold respondMany
    rw [hr]
    exact if_pos h
  · by_cases ha : hasAccessToList auth.token ((selectAlways db s).map txt) = .ok
    · left
      unfold respondMany
      rw [hr]
      dsimp only
      rw [if_pos h, if_neg (by simp [ha])]
    · refine .inr ⟨s, hr, ha, ?_⟩
      unfold respondMany
      rw [hr]
      dsimp only
      rw [if_pos h, if_pos ha]

/-! ### Cases -/

example : AsksForMany (.delete (text "18446744073709551615") (some (text "T")) [text " ab\t", text "", text "aa", text "ab"] [] none)
    (.call (.bulk { lists := [text "aa", text "ab"], fields := [], sets := [] } (.delete [18446744073709551615]))) := by
  refine .delete (e := true) ((boolParam_iff ..).1 (by decide +kernel)) (elementID_of (by decide +kernel) (by decide +kernel)) rfl
    ((selects_iff ..).2 ?_)
  have : listIDs [text " ab\t", text "", text "aa", text "ab"] = [text "aa", text "ab"] := by decide +kernel
  rw [this]

example : ∀ a, ¬ AsksForMany (.get (text "-1") [] [] none) a := by
  intro a ha
  cases ha with
  | get h => exact absurd ((okElementID_of h)) (by decide +kernel)

/-- Names that are all blank do not select all lists. -/
example : (match routeMany (.reindex none (some ⟨[text "  "], [], []⟩)) with | .nothing => true | _ => false) = true ∧
    (match routeMany (.reindex none (some ⟨[], [], []⟩)) with | .call (.bulk _ .reindex) => true | _ => false) = true := by
  decide +kernel

/-- The condition of `C85_many_null_panics` holds. -/
example : ∃ bs : List (Option RawElement), none ∈ bs ∧ (∀ b ∈ bs, ∀ x, b = some x → ∃ e, IsElement x e) ∧ bs.length = 2 :=
  ⟨[some { id := some 1, score := some 2, tie := none, payload := none }, none], by simp, by
    intro b hb x hx
    subst hx
    simp only [List.mem_cons, Option.some.injEq, reduceCtorEq, List.not_mem_nil, or_false] at hb
    subst hb
    exact ⟨_, 1, 2, rfl, rfl, rfl⟩, rfl⟩

end RankDB.Props

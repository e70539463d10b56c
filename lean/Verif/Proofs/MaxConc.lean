import Verif.Proofs.MaxSteps
/-
Lemmas for C98: calls on different keys do not touch the same blobs.
-/
namespace RankDB.MaxSteps
open Wire
open RankDB.MaxSize (Store State Err Res Op mapKey extKey partKey setCount putUvarint uvarint total partKey_inj put_ne
  put_same run final)
open Spec.MaxSteps
open Spec.MaxSize (Separate opKey)

/-- A call only uses the blobs and the count of its key. -/
def Within (s k : Str) : Prog → Prop
  | .done _ => True
  | .read s' k' c => s' = s ∧ (∃ i, k' = partKey k i) ∧ ∀ v, Within s k (c v)
  | .write s' k' _ c => s' = s ∧ (∃ i, k' = partKey k i) ∧ ∀ v, Within s k (c v)
  | .count m c => m = mapKey s k ∧ ∀ v, Within s k (c v)
  | .setCount m _ p => m = mapKey s k ∧ Within s k p

theorem extKey_part (k : Str) (i : Nat) : extKey k i = partKey k (i + 1) := by
  simp [partKey]

theorem within_getLoop (s k : Str) (c i : Nat) (acc : Bytes) : Within s k (getLoop s k c i acc) := by
  induction c generalizing i acc with
  | zero => trivial
  | succ c ih =>
    refine ⟨rfl, ⟨i + 1, extKey_part k i⟩, fun v => ?_⟩
    match v with
    | none => trivial
    | some none => trivial
    | some (some b) => exact ih _ _

theorem within_extraLoop (s k : Str) (c i : Nat) (p : Prog) (hp : Within s k p) : Within s k (extraLoop s k c i p) := by
  induction c generalizing i with
  | zero => exact hp
  | succ c ih => exact ⟨rfl, ⟨i - 1 + 1, extKey_part k _⟩, fun v => ih _⟩

theorem within_setLoop (max : Nat) (s k : Str) (c i : Nat) (b2 : Bytes) (p : Prog) (hp : Within s k p) :
    Within s k (setLoop max s k c i b2 p) := by
  induction c generalizing i b2 with
  | zero => exact hp
  | succ c ih =>
    refine ⟨rfl, ⟨i, rfl⟩, fun v => ?_⟩
    match v with
    | true => exact ih _ _
    | false => trivial

theorem within_deleteLoop (s k : Str) (c i : Nat) : Within s k (deleteLoop s k c i) := by
  induction c generalizing i with
  | zero => exact ⟨rfl, trivial⟩
  | succ c ih =>
    refine ⟨rfl, ⟨i, rfl⟩, fun v => ?_⟩
    match v with
    | true => exact ih _
    | false => trivial

theorem within_call (max : Nat) (c : Call) : Within c.name c.key (c.prog max) := by
  cases c with
  | get s k =>
    refine ⟨rfl, ⟨0, rfl⟩, fun v => ?_⟩
    match v with
    | none => trivial
    | some none => trivial
    | some (some b) =>
      dsimp only
      cases uvarint b with
      | none => trivial
      | some q =>
        dsimp only
        split
        · exact ⟨rfl, trivial⟩
        · exact ⟨rfl, within_getLoop _ _ _ _ _⟩
  | set s k b =>
    show Within s k (setProg max s k b)
    unfold setProg
    split
    · trivial
    · exact ⟨rfl, fun v => within_extraLoop _ _ _ _ _ (within_setLoop _ _ _ _ _ _ _ ⟨rfl, trivial⟩)⟩
  | delete s k =>
    refine ⟨rfl, fun n => ?_⟩
    dsimp only
    split
    · refine ⟨rfl, ⟨0, rfl⟩, fun v => ?_⟩
      match v with
      | none => trivial
      | some none => trivial
      | some (some b) =>
        dsimp only
        cases uvarint b with
        | none => exact within_deleteLoop _ _ _ _
        | some q => exact within_deleteLoop _ _ _ _
    · exact within_deleteLoop _ _ _ _

/-- Two states have the same blobs and count for a key. -/
def Agree (s k : Str) (a b : State) : Prop :=
  (∀ i, a.store s (partKey k i) = b.store s (partKey k i)) ∧ a.parts (mapKey s k) = b.parts (mapKey s k)

theorem Agree.refl (s k : Str) (a : State) : Agree s k a a := ⟨fun _ => rfl, rfl⟩
theorem Agree.symm {s k : Str} {a b : State} (h : Agree s k a b) : Agree s k b a := ⟨fun i => (h.1 i).symm, h.2.symm⟩
theorem Agree.trans {s k : Str} {a b c : State} (h : Agree s k a b) (h' : Agree s k b c) : Agree s k a c :=
  ⟨fun i => (h.1 i).trans (h'.1 i), h.2.trans h'.2⟩

theorem agree_put {s k : Str} {a b : State} (h : Agree s k a b) (key : Str) (v : Option Bytes) :
    Agree s k { a with store := a.store.put s key v } { b with store := b.store.put s key v } := by
  refine ⟨fun i => ?_, h.2⟩
  show a.store.put s key v s (partKey k i) = b.store.put s key v s (partKey k i)
  simp only [MaxSize.Store.put]
  split
  · rfl
  · exact h.1 i

/-- An operation depends only on the blobs and the count of its key. -/
theorem act_local {s k : Str} {a b : State} {p : Prog} (hw : Within s k p) (h : Agree s k a b) (f : Fate) :
    (act a p f).2 = (act b p f).2 ∧ Agree s k (act a p f).1 (act b p f).1 ∧ Within s k (act a p f).2 := by
  cases p with
  | done r => exact ⟨rfl, h, trivial⟩
  | read s' k' c =>
    obtain ⟨rfl, ⟨i, rfl⟩, hc⟩ := hw
    refine ⟨?_, h, hc _⟩
    simp only [act]
    rw [h.1 i]
  | write s' k' v c =>
    obtain ⟨rfl, ⟨i, rfl⟩, hc⟩ := hw
    refine ⟨rfl, ?_, hc _⟩
    simp only [act]
    split
    · exact h
    · exact agree_put h _ _
  | count m c =>
    obtain ⟨rfl, hc⟩ := hw
    refine ⟨?_, h, hc _⟩
    simp only [act]
    rw [h.2]
  | setCount m n p =>
    obtain ⟨rfl, hc⟩ := hw
    refine ⟨rfl, ⟨h.1, ?_⟩, hc⟩
    simp [act, setCount]

theorem acts_local {s k : Str} {a b : State} {p : Prog} (hw : Within s k p) (h : Agree s k a b) (fs : List Fate) :
    (acts a p fs).2 = (acts b p fs).2 ∧ Agree s k (acts a p fs).1 (acts b p fs).1 ∧ Within s k (acts a p fs).2 := by
  induction fs generalizing a b p with
  | nil => exact ⟨rfl, h, hw⟩
  | cons f fs ih =>
    obtain ⟨h1, h2, h3⟩ := act_local hw h f
    have := ih h3 h2
    simp only [acts]
    rw [← h1]
    exact this

/-- The keys in use: they do not interfere. -/
structure Good (P : Str → Str → Prop) : Prop where
  sep : Separate (fun k => ∃ s, P s k)
  inj : ∀ s k s' k', P s k → P s' k' → mapKey s k = mapKey s' k' → s = s' ∧ k = k'

theorem Good.part {P : Str → Str → Prop} (hP : Good P) {s k s' k' : Str} {i j : Nat} (h : P s k) (h' : P s' k')
    (he : partKey k i = partKey k' j) : k = k' := (partKey_inj hP.sep ⟨s, h⟩ ⟨s', h'⟩ he).1

/-- An operation does not touch the blobs and counts of other keys. -/
theorem act_frame {P : Str → Str → Prop} (hP : Good P) {s k s' k' : Str} (h : P s k) (h' : P s' k')
    (hne : ¬(s = s' ∧ k = k')) {a : State} {p : Prog} (hw : Within s k p) (f : Fate) : Agree s' k' a (act a p f).1 := by
  cases p with
  | done r => exact Agree.refl _ _ _
  | read => exact Agree.refl _ _ _
  | write s1 k1 v c =>
    obtain ⟨rfl, ⟨i, rfl⟩, hc⟩ := hw
    simp only [act]
    split
    · exact Agree.refl _ _ _
    · refine ⟨fun j => ?_, rfl⟩
      refine (put_ne ?_).symm
      rintro ⟨h1, h2⟩
      exact hne ⟨h1.symm, (hP.part h' h h2).symm⟩
  | count => exact Agree.refl _ _ _
  | setCount m n p =>
    obtain ⟨rfl, hc⟩ := hw
    refine ⟨fun _ => rfl, ?_⟩
    simp only [act, setCount]
    rw [if_neg]
    intro he
    obtain ⟨h1, h2⟩ := hP.inj _ _ _ _ h' h he
    exact hne ⟨h1.symm, h2.symm⟩

theorem acts_frame {P : Str → Str → Prop} (hP : Good P) {s k s' k' : Str} (h : P s k) (h' : P s' k')
    (hne : ¬(s = s' ∧ k = k')) {a : State} {p : Prog} (hw : Within s k p) (fs : List Fate) :
    Agree s' k' a (acts a p fs).1 := by
  induction fs generalizing a p with
  | nil => exact Agree.refl _ _ _
  | cons f fs ih =>
    exact (act_frame hP h h' hne hw f).trans (ih (act_local hw (Agree.refl _ _ a) f).2.2)

/-- Blobs and counts that belong to none of the keys. -/
def Rest (P : Str → Str → Prop) (a b : State) : Prop :=
  (∀ s key, (∀ k i, P s k → key ≠ partKey k i) → a.store s key = b.store s key) ∧
    ∀ m, (∀ s k, P s k → m ≠ mapKey s k) → a.parts m = b.parts m

theorem Rest.refl (P : Str → Str → Prop) (a : State) : Rest P a a := ⟨fun _ _ _ => rfl, fun _ _ => rfl⟩
theorem Rest.symm {P : Str → Str → Prop} {a b : State} (h : Rest P a b) : Rest P b a :=
  ⟨fun s k hk => (h.1 s k hk).symm, fun m hm => (h.2 m hm).symm⟩
theorem Rest.trans {P : Str → Str → Prop} {a b c : State} (h : Rest P a b) (h' : Rest P b c) : Rest P a c :=
  ⟨fun s k hk => (h.1 s k hk).trans (h'.1 s k hk), fun m hm => (h.2 m hm).trans (h'.2 m hm)⟩

theorem act_rest {P : Str → Str → Prop} {s k : Str} (h : P s k) {a : State} {p : Prog} (hw : Within s k p) (f : Fate) :
    Rest P a (act a p f).1 := by
  cases p with
  | done r => exact Rest.refl _ _
  | read => exact Rest.refl _ _
  | write s1 k1 v c =>
    obtain ⟨rfl, ⟨i, rfl⟩, hc⟩ := hw
    simp only [act]
    split
    · exact Rest.refl _ _
    · refine ⟨fun s' key hk => (put_ne ?_).symm, fun _ _ => rfl⟩
      rintro ⟨rfl, h2⟩
      exact hk k i h h2
  | count => exact Rest.refl _ _
  | setCount m n p =>
    obtain ⟨rfl, hc⟩ := hw
    refine ⟨fun _ _ _ => rfl, fun m hm => ?_⟩
    simp only [act, setCount]
    rw [if_neg (hm _ _ h)]

theorem acts_rest {P : Str → Str → Prop} {s k : Str} (h : P s k) {a : State} {p : Prog} (hw : Within s k p)
    (fs : List Fate) : Rest P a (acts a p fs).1 := by
  induction fs generalizing a p with
  | nil => exact Rest.refl _ _
  | cons f fs ih => exact (act_rest h hw f).trans (ih (act_local hw (Agree.refl _ _ a) f).2.2)

theorem same_of {P : Str → Str → Prop} {a b : State} (h : ∀ s k, P s k → Agree s k a b) (hr : Rest P a b) : a = b := by
  have h1 : a.store = b.store := by
    funext s key
    by_cases hk : ∃ k i, P s k ∧ key = partKey k i
    · obtain ⟨k, i, hk, rfl⟩ := hk
      exact (h s k hk).1 i
    · exact hr.1 s key fun k i hp he => hk ⟨k, i, hp, he⟩
  have h2 : a.parts = b.parts := by
    funext m
    by_cases hk : ∃ s k, P s k ∧ m = mapKey s k
    · obtain ⟨s, k, hk, rfl⟩ := hk
      exact (h s k hk).2
    · exact hr.2 m fun s k hp he => hk ⟨s, k, hp, he⟩
  cases a
  cases b
  cases h1
  cases h2
  rfl

/-! ### Invariant -/

/-- The calls running have done what they would have done after the calls that are over: `ss` is the state after
these, one after the other. -/
structure Core (max : Nat) (P : Str → Str → Prop) (st : State) (ts : List Thread) (ss : State) : Prop where
  keys : ∀ (i : Nat) (t : Thread), ts[i]? = some t → P t.call.name t.call.key
  one : ∀ (i j : Nat) (t u : Thread), ts[i]? = some t → ts[j]? = some u → t.pc.isRunning = true →
    u.pc.isRunning = true → mapKey t.call.name t.call.key = mapKey u.call.name u.call.key → i = j
  idle : ∀ (s k : Str), P s k → free ts (mapKey s k) = true → Agree s k ss st
  busy : ∀ (i : Nat) (c : Call) (p : Prog) (clean : Bool), ts[i]? = some ⟨c, .running p clean⟩ →
    ∃ fs, (acts ss (c.prog max) fs).2 = p ∧ Agree c.name c.key (acts ss (c.prog max) fs).1 st ∧
      (clean = true → allok fs = true)
  rest : Rest P ss st

theorem free_iff {ts : List Thread} {m : Str} :
    free ts m = true ↔ ∀ (i : Nat) (t : Thread), ts[i]? = some t → t.pc.isRunning = true →
      mapKey t.call.name t.call.key ≠ m := by
  unfold free
  rw [List.all_eq_true]
  constructor
  · intro h i t ht hr he
    have := h t (List.mem_of_getElem? ht)
    simp [hr, he] at this
  · intro h t ht
    obtain ⟨i, hi, rfl⟩ := List.mem_iff_getElem.1 ht
    have := h i _ (List.getElem?_eq_getElem hi)
    cases hr : ts[i].pc.isRunning
    · rfl
    · simpa using this hr

theorem get_set {ts : List Thread} {i j : Nat} {x t : Thread} (h : (ts.set i x)[j]? = some t) :
    (j = i ∧ t = x) ∨ (j ≠ i ∧ ts[j]? = some t) := by
  rw [List.getElem?_set] at h
  split at h
  · rename_i he
    split at h
    · exact Or.inl ⟨he.symm, (Option.some.inj h).symm⟩
    · simp at h
  · rename_i he
    exact Or.inr ⟨fun e => he e.symm, h⟩

theorem set_get {ts : List Thread} {i : Nat} {x t : Thread} (h : ts[i]? = some t) : (ts.set i x)[i]? = some x := by
  rw [List.getElem?_set]
  obtain ⟨hl, -⟩ := List.getElem?_eq_some_iff.1 h
  simp [hl]

theorem set_get_ne {ts : List Thread} {i j : Nat} {x : Thread} (h : j ≠ i) : (ts.set i x)[j]? = ts[j]? := by
  rw [List.getElem?_set, if_neg (fun e => h e.symm)]

theorem core_begin {max : Nat} {P : Str → Str → Prop} {st : State} {ts : List Thread} {ss : State}
    (h : Core max P st ts ss) {i : Nat} {c : Call} (hi : ts[i]? = some ⟨c, .want⟩)
    (hf : free ts (mapKey c.name c.key) = true) :
    Core max P st (ts.set i ⟨c, .running (c.prog max) true⟩) ss := by
  have hc := h.keys i _ hi
  refine ⟨?_, ?_, ?_, ?_, h.rest⟩
  · intro j t ht
    rcases get_set ht with ⟨rfl, rfl⟩ | ⟨hj, ht⟩
    · exact hc
    · exact h.keys j t ht
  · intro a b t u ha hb hta hub he
    rcases get_set ha with ⟨rfl, rfl⟩ | ⟨hne, ha'⟩ <;> rcases get_set hb with ⟨rfl, rfl⟩ | ⟨hne', hb'⟩
    · rfl
    · exact absurd he.symm (free_iff.1 hf b u hb' hub)
    · exact absurd he (free_iff.1 hf a t ha' hta)
    · exact h.one a b t u ha' hb' hta hub he
  · intro s k hk hfr
    apply h.idle s k hk
    rw [free_iff] at hfr ⊢
    intro j t ht hr
    by_cases hj : j = i
    · subst hj
      rw [hi] at ht
      cases ht
      cases hr
    · exact hfr j t (by rw [set_get_ne hj]; exact ht) hr
  · intro j c' p clean hj
    rcases get_set hj with ⟨rfl, he⟩ | ⟨hne, hj'⟩
    · cases he
      exact ⟨[], rfl, h.idle _ _ hc hf, fun _ => rfl⟩
    · exact h.busy j c' p clean hj'

theorem core_step {max : Nat} {P : Str → Str → Prop} (hP : Good P) {st : State} {ts : List Thread} {ss : State}
    (h : Core max P st ts ss) {i : Nat} {c : Call} {p : Prog} {clean : Bool}
    (hi : ts[i]? = some ⟨c, .running p clean⟩) (f : Fate) :
    Core max P (act st p f).1 (ts.set i ⟨c, .running (act st p f).2 (clean && f = .ok)⟩) ss := by
  have hc := h.keys i _ hi
  obtain ⟨fs, hb1, hb2, hb3⟩ := h.busy i c p clean hi
  have hwp : Within c.name c.key p := by
    rw [← hb1]
    exact (acts_local (within_call max c) (Agree.refl _ _ ss) fs).2.2
  have other : ∀ (j : Nat) (t : Thread), ts[j]? = some t → t.pc.isRunning = true → j ≠ i →
      ¬(c.name = t.call.name ∧ c.key = t.call.key) := by
    intro j t ht hr hj he
    exact hj (h.one j i t _ ht hi hr rfl (by simp only [he.1, he.2]))
  refine ⟨?_, ?_, ?_, ?_, h.rest.trans (act_rest hc hwp f)⟩
  · intro j t ht
    rcases get_set ht with ⟨rfl, rfl⟩ | ⟨hj, ht⟩
    · exact hc
    · exact h.keys j t ht
  · intro a b t u ha hb hta hub he
    rcases get_set ha with ⟨rfl, rfl⟩ | ⟨hne, ha'⟩ <;> rcases get_set hb with ⟨rfl, rfl⟩ | ⟨hne', hb'⟩
    · rfl
    · exact h.one _ _ _ _ hi hb' rfl hub he
    · exact h.one _ _ _ _ ha' hi hta rfl he
    · exact h.one a b t u ha' hb' hta hub he
  · intro s k hk hfr
    rw [free_iff] at hfr
    have hne : ¬(c.name = s ∧ c.key = k) := by
      rintro ⟨rfl, rfl⟩
      exact hfr i _ (set_get hi) rfl rfl
    refine (h.idle s k hk ?_).trans (act_frame hP hc hk hne hwp f)
    rw [free_iff]
    intro j t ht hr
    by_cases hj : j = i
    · subst hj
      rw [hi] at ht
      cases ht
      have := hfr j _ (set_get hi) rfl
      exact this
    · exact hfr j t (by rw [set_get_ne hj]; exact ht) hr
  · intro j c' p' clean' hj
    rcases get_set hj with ⟨rfl, he⟩ | ⟨hne, hj'⟩
    · cases he
      refine ⟨fs ++ [f], ?_, ?_, ?_⟩
      · rw [acts_append, hb1]
        exact (act_local hwp hb2 f).1
      · rw [acts_append, hb1]
        exact (act_local hwp hb2 f).2.1
      · intro hcl
        simp only [Bool.and_eq_true, decide_eq_true_eq] at hcl
        rw [allok_append, hb3 hcl.1, hcl.2]
        rfl
    · obtain ⟨fs', h1, h2, h3⟩ := h.busy j c' p' clean' hj'
      exact ⟨fs', h1, h2.trans (act_frame hP hc (h.keys j _ hj') (other j _ hj' rfl hne) hwp f), h3⟩

theorem core_steps {max : Nat} {P : Str → Str → Prop} (hP : Good P) (fs : List Fate) {st : State} {ts : List Thread} {ss : State}
    (h : Core max P st ts ss) {i : Nat} {c : Call} {p : Prog} {clean : Bool}
    (hi : ts[i]? = some ⟨c, .running p clean⟩) :
    ∃ clean', Core max P (acts st p fs).1 (ts.set i ⟨c, .running (acts st p fs).2 clean'⟩) ss := by
  induction fs generalizing st ts p clean with
  | nil =>
    refine ⟨clean, ?_⟩
    have : ts.set i ⟨c, .running p clean⟩ = ts := by
      apply List.ext_getElem?
      intro j
      by_cases hj : j = i
      · subst hj; rw [set_get hi, hi]
      · rw [set_get_ne hj]
    rw [show (acts st p []).2 = p from rfl, this]
    exact h
  | cons f fs ih =>
    have h1 := core_step hP h hi f
    obtain ⟨cl, h2⟩ := ih h1 (set_get hi)
    refine ⟨cl, ?_⟩
    rw [List.set_set] at h2
    exact h2

/-- A call that is over is appended to the calls one after the other. -/
theorem core_finish {max : Nat} {P : Str → Str → Prop} (hP : Good P) {st : State} {ts : List Thread} {ss : State}
    (h : Core max P st ts ss) {i : Nat} {c : Call} {r : Res} {clean : Bool}
    (hi : ts[i]? = some ⟨c, .running (.done r) clean⟩) :
    ∃ o, IsCall c clean o ∧ (MaxSize.step max ss o).2 = r ∧ Core max P st (ts.set i ⟨c, .over⟩) (MaxSize.step max ss o).1 := by
  have hc := h.keys i _ hi
  obtain ⟨fs, hb1, hb2, hb3⟩ := h.busy i c _ clean hi
  have hw := within_call max c
  obtain ⟨o, ho1, ho2⟩ := call_atomic (max := max) c ss (acts ss (c.prog max) fs).1 fs r (Prod.ext rfl hb1)
  have hic : IsCall c clean o := by
    cases clean with
    | true => rw [hb3 rfl] at ho1; exact ho1
    | false =>
      cases c with
      | get s k => obtain ⟨f, h1, h2⟩ := ho1; exact ⟨f, h1, nofun⟩
      | set s k b => obtain ⟨g, f, l, h1, h2⟩ := ho1; exact ⟨g, f, l, h1, nofun⟩
      | delete s k => obtain ⟨f, l, h1, h2⟩ := ho1; exact ⟨f, l, h1, nofun⟩
  refine ⟨o, hic, by rw [ho2], ?_⟩
  rw [ho2]
  show Core max P st _ (acts ss (c.prog max) fs).1
  have other : ∀ (j : Nat) (t : Thread), ts[j]? = some t → t.pc.isRunning = true → j ≠ i →
      ¬(c.name = t.call.name ∧ c.key = t.call.key) := by
    intro j t ht hr hj he
    exact hj (h.one j i t _ ht hi hr rfl (by simp only [he.1, he.2]))
  refine ⟨?_, ?_, ?_, ?_, (acts_rest hc hw fs).symm.trans h.rest⟩
  · intro j t ht
    rcases get_set ht with ⟨rfl, rfl⟩ | ⟨hj, ht⟩
    · exact hc
    · exact h.keys j t ht
  · intro a b t u ha hb hta hub he
    rcases get_set ha with ⟨rfl, rfl⟩ | ⟨hne, ha'⟩
    · cases hta
    · rcases get_set hb with ⟨rfl, rfl⟩ | ⟨hne', hb'⟩
      · cases hub
      · exact h.one a b t u ha' hb' hta hub he
  · intro s k hk hfr
    by_cases he : c.name = s ∧ c.key = k
    · obtain ⟨rfl, rfl⟩ := he
      exact hb2
    · refine (acts_frame hP hc hk he hw fs).symm.trans (h.idle s k hk ?_)
      rw [free_iff] at hfr ⊢
      intro j t ht hr
      by_cases hj : j = i
      · subst hj
        rw [hi] at ht
        cases ht
        intro hm
        exact he (hP.inj _ _ _ _ hc hk hm)
      · exact hfr j t (by rw [set_get_ne hj]; exact ht) hr
  · intro j c' p' clean' hj
    rcases get_set hj with ⟨rfl, he⟩ | ⟨hne, hj'⟩
    · cases he
    · obtain ⟨fs', h1, h2, h3⟩ := h.busy j c' p' clean' hj'
      have hfr := acts_frame hP hc (h.keys j _ hj') (other j _ hj' rfl hne) (a := ss) hw fs
      obtain ⟨l1, l2, -⟩ := acts_local (within_call max c') hfr fs'
      exact ⟨fs', l1.symm.trans h1, l2.symm.trans h2, h3⟩

theorem core_call {max : Nat} {P : Str → Str → Prop} {st : State} {ts : List Thread} {ss : State}
    (h : Core max P st ts ss) {c : Call} (hc : P c.name c.key) : Core max P st (ts ++ [⟨c, .want⟩]) ss := by
  have get : ∀ (i : Nat) (t : Thread), (ts ++ [⟨c, .want⟩])[i]? = some t → ts[i]? = some t ∨ t = ⟨c, .want⟩ := by
    intro i t ht
    rw [List.getElem?_append] at ht
    split at ht
    · exact Or.inl ht
    · have := List.mem_of_getElem? ht
      simp only [List.mem_singleton] at this
      exact Or.inr this
  refine ⟨?_, ?_, ?_, ?_, h.rest⟩
  · intro i t ht
    rcases get i t ht with h' | rfl
    · exact h.keys i t h'
    · exact hc
  · intro a b t u ha hb hta hub he
    rcases get a t ha with ha' | rfl
    · rcases get b u hb with hb' | rfl
      · exact h.one a b t u ha' hb' hta hub he
      · cases hub
    · cases hta
  · intro s k hk hfr
    apply h.idle s k hk
    rw [free_iff] at hfr ⊢
    intro j t ht hr
    refine hfr j t ?_ hr
    obtain ⟨hl, -⟩ := List.getElem?_eq_some_iff.1 ht
    rw [List.getElem?_append, if_pos hl]
    exact ht
  · intro j c' p clean hj
    rcases get j _ hj with h' | h'
    · exact h.busy j c' p clean h'
    · cases h'

/-! ### Histories -/

theorem serial_append {es es' : List Event} {os os' : List (Op × Res)} (h : Serial es os) (h' : Serial es' os') :
    Serial (es ++ es') (os ++ os') := by
  induction es generalizing os with
  | nil =>
    cases os with
    | nil => exact h'
    | cons => exact h.elim
  | cons e es ih =>
    cases os with
    | nil => exact h.elim
    | cons o os => exact ⟨h.1, ih h.2⟩

theorem final_append (max : Nat) (st : State) (os os' : List Op) :
    final max st (os ++ os') = final max (final max st os) os' := by
  simp only [final, List.foldl_append]

theorem opKey_call {c : Call} {clean : Bool} {o : Op} (h : IsCall c clean o) : opKey o = some c.key := by
  cases c with
  | get s k => obtain ⟨f, rfl, -⟩ := h; rfl
  | set s k b => obtain ⟨g, f, l, rfl, -⟩ := h; rfl
  | delete s k => obtain ⟨f, l, rfl, -⟩ := h; rfl

/-- The end of the process: what the calls that were running have done is what atomic calls do, some of whose
operations fail. -/
theorem core_crash {max : Nat} {P : Str → Str → Prop} (hP : Good P) (n j : Nat) {st : State} {ts : List Thread} {ss : State}
    (h : Core max P st ts ss) (hn : ts.length - j = n)
    (hj : ∀ (i : Nat) (t : Thread), i < j → ts[i]? = some t → t.pc.isRunning = false) :
    ∃ (os : List Op), Serial (lostCalls (ts.drop j)) (run max ss os) ∧ (final max ss os).store = st.store ∧
      ∀ o ∈ os, ∀ k, opKey o = some k → ∃ s, P s k := by
  induction n generalizing j st ts ss with
  | zero =>
    refine ⟨[], ?_, ?_, nofun⟩
    · rw [List.drop_eq_nil_of_le (by omega)]
      trivial
    · have : ss = st := same_of (fun s k hk => h.idle s k hk (free_iff.2 fun i t ht hr => by
        obtain ⟨hl, -⟩ := List.getElem?_eq_some_iff.1 ht
        rw [hj i t (by omega) ht] at hr
        cases hr)) h.rest
      rw [this]
      rfl
  | succ n ih =>
    have hlt : j < ts.length := by omega
    have hget := List.getElem?_eq_getElem hlt
    generalize ts[j] = t at hget
    have hdrop : ts.drop j = t :: ts.drop (j + 1) := by
      obtain ⟨hl, rfl⟩ := List.getElem?_eq_some_iff.1 hget
      exact List.drop_eq_getElem_cons hl
    obtain ⟨c, pc⟩ := t
    have skip : pc.isRunning = false → ∃ (os : List Op), Serial (lostCalls (ts.drop j)) (run max ss os) ∧
        (final max ss os).store = st.store ∧ ∀ o ∈ os, ∀ k, opKey o = some k → ∃ s, P s k := by
      intro hr
      have hl : lostCalls (ts.drop j) = lostCalls (ts.drop (j + 1)) := by
        rw [hdrop]
        simp [lostCalls, hr]
      rw [hl]
      refine ih (j + 1) h (by omega) ?_
      intro i t hi ht
      by_cases hij : i = j
      · subst hij
        rw [hget] at ht
        cases ht
        exact hr
      · exact hj i t (by omega) ht
    cases pc with
    | want => exact skip rfl
    | over => exact skip rfl
    | running p clean =>
      obtain ⟨fs, r, he1, he2⟩ := ends_failing p st
      obtain ⟨cl, h1⟩ := core_steps hP fs h hget
      rw [he1] at h1
      obtain ⟨o, ho1, ho2, h2⟩ := core_finish hP h1 (set_get hget)
      rw [List.set_set] at h2
      obtain ⟨os, hs, hf, hk⟩ := ih (j + 1) h2 (by rw [List.length_set]; omega) (by
        intro i t hi ht
        rcases get_set ht with ⟨rfl, rfl⟩ | ⟨hne, ht'⟩
        · rfl
        · exact hj i t (by omega) ht')
      refine ⟨o :: os, ?_, ?_, ?_⟩
      · have hl : lostCalls (ts.drop j) = .lost c :: lostCalls ((ts.set j ⟨c, .over⟩).drop (j + 1)) := by
          rw [hdrop, List.drop_set_of_lt (by omega)]
          simp [lostCalls, Pc.isRunning]
        rw [hl]
        refine ⟨?_, hs⟩
        show IsCall c false o
        cases c with
        | get s k => obtain ⟨f, h1, h2⟩ := ho1; exact ⟨f, h1, nofun⟩
        | set s k b => obtain ⟨g, f, l, h1, h2⟩ := ho1; exact ⟨g, f, l, h1, nofun⟩
        | delete s k => obtain ⟨f, l, h1, h2⟩ := ho1; exact ⟨f, l, h1, nofun⟩
      · exact hf.trans he2
      · intro o' ho' k hk'
        rcases List.mem_cons.1 ho' with rfl | ho'
        · have := opKey_call ho1
          rw [hk'] at this
          cases this
          exact ⟨_, h.keys j _ hget⟩
        · exact hk o' ho' k hk'

/-- Everything so far is explained by atomic calls. -/
def Inv (max : Nat) (P : Str → Str → Prop) (st0 : State) (σ : Conc) : Prop :=
  ∃ ops, Serial σ.log (run max st0 ops) ∧ (∀ o ∈ ops, ∀ k, opKey o = some k → ∃ s, P s k) ∧
    Core max P σ.st σ.threads (final max st0 ops)

theorem inv_start (max : Nat) (P : Str → Str → Prop) (st : State) : Inv max P st (start st) := by
  refine ⟨[], trivial, nofun, ⟨?_, ?_, ?_, ?_, Rest.refl _ _⟩⟩
  · intro i t ht; simp [start] at ht
  · intro i j t u ht; simp [start] at ht
  · intro s k _ _; exact Agree.refl _ _ _
  · intro i c p cl ht; simp [start] at ht

theorem inv_exec {max : Nat} {P : Str → Str → Prop} (hP : Good P) {st0 : State} {σ σ' : Conc} {l : Label}
    (hl : ∀ c, l = .call c → P c.name c.key) (h : Inv max P st0 σ) (hx : exec max σ l = some σ') : Inv max P st0 σ' := by
  obtain ⟨ops, hs, hk, hc⟩ := h
  cases l with
  | call c =>
    cases hx
    exact ⟨ops, hs, hk, core_call hc (hl c rfl)⟩
  | begin t =>
    simp only [exec] at hx
    split at hx
    · rename_i c hg
      split at hx
      · rename_i hf
        cases hx
        exact ⟨ops, hs, hk, core_begin hc hg hf⟩
      · cases hx
    · cases hx
  | step t f =>
    simp only [exec] at hx
    split at hx
    · cases hx
    · rename_i c p clean hnd hg
      cases hx
      exact ⟨ops, hs, hk, core_step hP hc hg f⟩
    · cases hx
  | finish t =>
    simp only [exec] at hx
    split at hx
    · rename_i c r clean hg
      cases hx
      obtain ⟨o, ho1, ho2, h2⟩ := core_finish hP hc hg
      refine ⟨ops ++ [o], ?_, ?_, ?_⟩
      · rw [MaxSize.run_append]
        exact serial_append hs ⟨⟨ho1, ho2.symm⟩, trivial⟩
      · intro o' ho' k hk'
        rcases List.mem_append.1 ho' with ho' | ho'
        · exact hk o' ho' k hk'
        · rw [List.mem_singleton.1 ho', opKey_call ho1] at hk'
          cases hk'
          exact ⟨_, hc.keys t _ hg⟩
      · rw [final_append]
        exact h2
    · cases hx
  | crash =>
    cases hx
    obtain ⟨os, h1, h2, h3⟩ := core_crash hP σ.threads.length 0 hc (by omega) (by omega)
    refine ⟨ops ++ os ++ [.restart], ?_, ?_, ?_⟩
    · rw [MaxSize.run_append, MaxSize.run_append]
      exact serial_append (serial_append hs (by simpa using h1)) ⟨rfl, trivial⟩
    · intro o' ho' k hk'
      rcases List.mem_append.1 ho' with ho' | ho'
      · rcases List.mem_append.1 ho' with ho' | ho'
        · exact hk o' ho' k hk'
        · exact h3 o' ho' k hk'
      · rw [List.mem_singleton.1 ho'] at hk'
        cases hk'
    · rw [final_append, final_append]
      have he : final max (final max (final max st0 ops) os) [.restart] = { σ.st with parts := fun _ => 0 } := by
        show State.mk (final max (final max st0 ops) os).store (fun _ => 0) = State.mk σ.st.store (fun _ => 0)
        rw [h2]
      rw [he]
      refine ⟨?_, ?_, ?_, ?_, Rest.refl _ _⟩
      · intro i t ht; simp at ht
      · intro i j t u ht; simp at ht
      · intro s k _ _; exact Agree.refl _ _ _
      · intro i c p cl ht; simp at ht

theorem inv_execs {max : Nat} {P : Str → Str → Prop} (hP : Good P) {st0 : State} (ls : List Label) {σ σ' : Conc}
    (hl : Calls P ls) (h : Inv max P st0 σ) (hx : execs max σ ls = some σ') : Inv max P st0 σ' := by
  induction ls generalizing σ with
  | nil => cases hx; exact h
  | cons l ls ih =>
    simp only [execs] at hx
    split at hx
    · rename_i σ1 h1
      exact ih (fun c hc => hl c (List.mem_cons_of_mem _ hc))
        (inv_exec hP (fun c e => hl c (by rw [e]; exact List.mem_cons_self ..)) h h1) hx
    · cases hx

/-! ### Answers -/

open Spec.MaxSize (Known Answers after)

/-- Less is known. -/
def Le (v w : Known) : Prop := v = .unknown ∨ v = w

theorem answers_le {v w : Known} {r : Except Err Bytes} (h : Le v w) (ha : Answers w r) : Answers v r := by
  rcases h with rfl | rfl
  · trivial
  · exact ha

theorem after_le {v w : Known} (h : Le v w) (s k : Str) {e : Event} {o : Op × Res} (he : Explains e o) :
    Le (afterEvent v s k e) (after w s k o) := by
  obtain ⟨o, r'⟩ := o
  cases e with
  | returned c r clean =>
    obtain ⟨hc, rfl⟩ := he
    cases c with
    | get s' k' =>
      obtain ⟨f, rfl, -⟩ := hc
      exact h
    | set s' k' b =>
      obtain ⟨g, f, l, rfl, -⟩ := hc
      cases r with
      | blob => exact h
      | unit r =>
        simp only [afterEvent, after]
        split
        · match r with
          | .ok _ => exact Or.inr rfl
          | .error .tooBig => exact h
          | .error .notFound => exact Or.inr rfl
          | .error .corrupt => exact Or.inr rfl
          | .error .store => exact Or.inr rfl
        · exact h
    | delete s' k' =>
      obtain ⟨f, l, rfl, hf⟩ := hc
      cases r with
      | blob => exact h
      | unit r =>
        simp only [afterEvent, after]
        split
        · match r with
          | .ok _ =>
            cases clean with
            | true => rw [hf rfl 0]; exact Or.inr rfl
            | false => exact Or.inl rfl
          | .error _ => exact Or.inr rfl
        · exact h
  | lost c =>
    cases c with
    | get s' k' =>
      obtain ⟨f, rfl, -⟩ := he
      exact h
    | set s' k' b =>
      obtain ⟨g, f, l, rfl, -⟩ := he
      simp only [afterEvent]
      split
      · exact Or.inl rfl
      · rename_i hne
        cases r' with
        | blob => exact h
        | unit r =>
          simp only [after, if_neg hne]
          exact h
    | delete s' k' =>
      obtain ⟨f, l, rfl, -⟩ := he
      simp only [afterEvent]
      split
      · exact Or.inl rfl
      · rename_i hne
        cases r' with
        | blob => exact h
        | unit r =>
          simp only [after, if_neg hne]
          exact h
  | crash =>
    cases he
    exact h

theorem last_le (s k : Str) {es : List Event} {os : List (Op × Res)} (h : Serial es os) {v w : Known} (hv : Le v w) :
    Le (es.foldl (fun v e => afterEvent v s k e) v) (os.foldl (fun v e => after v s k e) w) := by
  induction es generalizing os v w with
  | nil =>
    cases os with
    | nil => exact hv
    | cons => exact h.elim
  | cons e es ih =>
    cases os with
    | nil => exact h.elim
    | cons o os => exact ih h.2 (after_le hv s k h.1)

theorem serial_split {es es' : List Event} {e : Event} {os : List (Op × Res)} (h : Serial (es ++ e :: es') os) :
    ∃ os1 o os2, os = os1 ++ o :: os2 ∧ Serial es os1 ∧ Explains e o ∧ Serial es' os2 := by
  induction es generalizing os with
  | nil =>
    cases os with
    | nil => exact h.elim
    | cons o os => exact ⟨[], o, os, rfl, trivial, h.1, h.2⟩
  | cons a es ih =>
    cases os with
    | nil => exact h.elim
    | cons o os =>
      obtain ⟨os1, o', os2, rfl, h1, h2, h3⟩ := ih h.2
      exact ⟨o :: os1, o', os2, rfl, ⟨h.1, h1⟩, h2, h3⟩

/-! ### Every call ends -/

/-- What a step does to a call. -/
inductive Down : Thread → Thread → Prop
  | begin (c : Call) (p : Prog) : Down ⟨c, .running p true⟩ ⟨c, .want⟩
  | read (c : Call) (s k : Str) (q : Option (Option Bytes) → Prog) (v : Option (Option Bytes)) (a b : Bool) :
      Down ⟨c, .running (q v) a⟩ ⟨c, .running (.read s k q) b⟩
  | write (c : Call) (s k : Str) (x : Option Bytes) (q : Bool → Prog) (v : Bool) (a b : Bool) :
      Down ⟨c, .running (q v) a⟩ ⟨c, .running (.write s k x q) b⟩
  | count (c : Call) (m : Str) (q : Nat → Prog) (v : Nat) (a b : Bool) :
      Down ⟨c, .running (q v) a⟩ ⟨c, .running (.count m q) b⟩
  | setCount (c : Call) (m : Str) (n : Nat) (q : Prog) (a b : Bool) :
      Down ⟨c, .running q a⟩ ⟨c, .running (.setCount m n q) b⟩
  | finish (c : Call) (p : Prog) (b : Bool) : Down ⟨c, .over⟩ ⟨c, .running p b⟩

theorem down_over (c : Call) : Acc Down ⟨c, .over⟩ := ⟨_, fun _ h => nomatch h⟩

theorem down_running (c : Call) (p : Prog) (b : Bool) : Acc Down ⟨c, .running p b⟩ := by
  induction p generalizing b with
  | done r => exact ⟨_, fun _ h => by cases h; exact down_over c⟩
  | read s k q ih =>
    refine ⟨_, fun y h => ?_⟩
    cases h with
    | read => exact ih _ _
    | finish => exact down_over c
  | write s k x q ih =>
    refine ⟨_, fun y h => ?_⟩
    cases h with
    | write => exact ih _ _
    | finish => exact down_over c
  | count m q ih =>
    refine ⟨_, fun y h => ?_⟩
    cases h with
    | count => exact ih _ _
    | finish => exact down_over c
  | setCount m n q ih =>
    refine ⟨_, fun y h => ?_⟩
    cases h with
    | setCount => exact ih _
    | finish => exact down_over c

theorem down_acc (t : Thread) : Acc Down t := by
  obtain ⟨c, pc⟩ := t
  cases pc with
  | over => exact down_over c
  | running p b => exact down_running c p b
  | want => exact ⟨_, fun y h => by cases h; exact down_running _ _ _⟩

/-- One of the calls takes a step. -/
def DownList (l' l : List Thread) : Prop := ∃ (i : Nat) (x t : Thread), l[i]? = some t ∧ l' = l.set i x ∧ Down x t

theorem downList_acc (l : List Thread) : Acc DownList l := by
  induction l with
  | nil => exact ⟨_, fun y ⟨i, x, t, h, _⟩ => by simp at h⟩
  | cons a l ih =>
    have key : ∀ a, Acc Down a → ∀ l, Acc DownList l → Acc DownList (a :: l) := by
      intro a ha
      induction ha with
      | intro a _ iha =>
        intro l hl
        induction hl with
        | intro l hl' ihl =>
          refine ⟨_, fun y ⟨i, x, t, hg, hy, hd⟩ => ?_⟩
          cases i with
          | zero =>
            simp only [List.getElem?_cons_zero, Option.some.injEq] at hg
            subst hg
            subst hy
            exact iha x hd l ⟨_, hl'⟩
          | succ i =>
            simp only [List.getElem?_cons_succ] at hg
            subst hy
            exact ihl _ ⟨i, x, t, hg, rfl, hd⟩
    exact key a (down_acc a) l ih

end RankDB.MaxSteps

import Verif.Spec.Layers
import Verif.Proofs.MaxSize
import Verif.Props.Badger
/-
Lemmas for C82.
-/
namespace RankDB.Layers
open Wire Spec.Layers
open MaxSize (Store Err)

/-! ### What is known -/

/-- More values are possible. -/
def Sub : Known → Known → Prop
  | _, none => True
  | none, some _ => False
  | some l, some l' => ∀ x ∈ l, x ∈ l'

theorem Sub.refl (v : Known) : Sub v v := by
  cases v with
  | none => trivial
  | some l => exact fun x h => h

theorem sub_none {v : Known} (h : Sub none v) : v = none := by
  cases v with
  | none => rfl
  | some l => exact h.elim

theorem sub_cons {v w : Known} {x : Option Bytes} (h : Sub v w) : Sub (v.map (x :: ·)) (w.map (x :: ·)) := by
  cases w with
  | none => trivial
  | some l' =>
    cases v with
    | none => exact h.elim
    | some l =>
      intro y hy
      rcases List.mem_cons.1 hy with rfl | hy
      · exact List.mem_cons_self
      · exact List.mem_cons_of_mem _ (h y hy)

/-- A store keeps what its kind promises for the keys of `P`. -/
structure Keeps (kind : Kind) (P : Str → Str → Prop) (L : Layer) (I : Str → Str → L.State → Known → Prop)
    (big : Bytes → Prop) : Prop where
  mono : ∀ {s k st v w}, Sub v w → I s k st v → I s k st w
  init : ∀ {s k}, P s k → I s k L.init (some [none])
  restart : ∀ {s k st st' v}, P s k → I s k st v → L.restart st st' → I s k st' (after kind s k v .restart)
  call : ∀ {s k st st' v c r}, P s k → P c.inSet c.key → I s k st v → L.call st c r st' →
    I s k st' (after kind s k v (.call c r))
  answer : ∀ {s k st st' v r}, P s k → I s k st v → L.call st (.get s k) r st' → Answers v r
  size : ∀ {st s k b r st'}, P s k → L.call st (.set s k b) r st' → (r = .err .tooBig ↔ big b)

theorem Keeps.hist {kind : Kind} {P : Str → Str → Prop} {L : Layer} {I : Str → Str → L.State → Known → Prop}
    {big : Bytes → Prop} (h : Keeps kind P L I big) {s k : Str} (hk : P s k) {es : List Event} :
    ∀ {st st' : L.State} {v : Known}, I s k st v → Hist L st es st' → Uses P es → I s k st' (es.foldl (after kind s k) v) := by
  induction es with
  | nil => intro st st' v hi hh _; cases hh; exact hi
  | cons e es ih =>
    intro st st' v hi hh hu
    cases hh with
    | call hc ht =>
      exact ih (h.call hk (hu _ _ List.mem_cons_self) hi hc) ht (fun c r hm => hu c r (List.mem_cons_of_mem _ hm))
    | restart hc ht => exact ih (h.restart hk hi hc) ht (fun c r hm => hu c r (List.mem_cons_of_mem _ hm))

theorem hist_append {L : Layer} {a b : List Event} : ∀ {s s' : L.State}, Hist L s (a ++ b) s' →
    ∃ t, Hist L s a t ∧ Hist L t b s' := by
  induction a with
  | nil => intro s s' h; exact ⟨s, .nil, h⟩
  | cons e a ih =>
    intro s s' h
    cases h with
    | call hc ht => obtain ⟨t, h1, h2⟩ := ih ht; exact ⟨t, .call hc h1, h2⟩
    | restart hc ht => obtain ⟨t, h1, h2⟩ := ih ht; exact ⟨t, .restart hc h1, h2⟩

theorem Keeps.consistent {kind : Kind} {P : Str → Str → Prop} {L : Layer} {I : Str → Str → L.State → Known → Prop}
    {big : Bytes → Prop} (h : Keeps kind P L I big) {es : List Event} {st : L.State} (hh : Hist L L.init es st)
    (hu : Uses P es) : Consistent kind es := by
  rintro before s k r behind rfl
  obtain ⟨t, h1, h2⟩ := hist_append hh
  have hk : P s k := hu (.get s k) r (by simp)
  have hi := h.hist hk (h.init hk) h1 (fun c r hm => hu c r (List.mem_append_left _ hm))
  cases h2 with
  | call hc ht => exact h.answer hk hi hc

/-! ### Retries -/

/-- Trying once more adds no possibilities. -/
theorem after_again {kind : Kind} {s k : Str} {v : Known} {c : Call} {e : Err} {r : Ret} (hp : permanent e = false)
    (hr : ∀ s k b, c = .set s k b → r ≠ .err .tooBig) :
    Sub (after kind s k (after kind s k v (.call c (.err e))) (.call c r)) (after kind s k v (.call c r)) := by
  by_cases hk : c.inSet = s ∧ c.key = k
  · cases c with
    | get s' k' =>
      have : after kind s k v (.call (.get s' k') (.err e)) = v := by
        simp only [after, if_pos hk]
        cases e <;> first | rfl | simp [permanent] at hp
      rw [this]; exact Sub.refl _
    | set s' k' b =>
      have h1 : after kind s k v (.call (.set s' k' b) (.err e)) = if kind.torn then none else v.map (some b :: ·) := by
        simp only [after, if_pos hk]
        cases e <;> first | rfl | simp [permanent] at hp
      rw [h1]
      have hne := hr s' k' b rfl
      cases hr' : r with
      | done => simp only [after, if_pos hk]; exact Sub.refl _
      | blob x =>
        simp only [after, if_pos hk]
        split
        · trivial
        · cases v with
          | none => trivial
          | some l => intro y hy; simp only [List.mem_cons] at hy ⊢; grind
      | err e' =>
        have h2 : ∀ w, after kind s k w (.call (.set s' k' b) (.err e')) = if kind.torn then none else w.map (some b :: ·) := by
          intro w
          simp only [after, if_pos hk]
          cases e' <;> first | rfl | (subst hr'; exact absurd rfl hne)
        rw [h2, h2]
        split
        · trivial
        · cases v with
          | none => trivial
          | some l => intro y hy; simp only [List.mem_cons] at hy ⊢; grind
    | delete s' k' =>
      have h1 : after kind s k v (.call (.delete s' k') (.err e)) = v.map (none :: ·) := by
        simp only [after, if_pos hk]
      rw [h1]
      cases r <;> simp only [after, if_pos hk]
      all_goals
        first
        | (split <;> first | exact Sub.refl _ | skip)
        | skip
        cases v with
        | none => trivial
        | some l => intro y hy; simp only [List.mem_cons] at hy ⊢; grind
  · have : ∀ w r, after kind s k w (.call c r) = w := by intro w r; simp only [after, if_neg hk]
    rw [this, this, this]; exact Sub.refl _

section
variable {kind : Kind} {P : Str → Str → Prop} {L : Layer} {I : Str → Str → L.State → Known → Prop} {big : Bytes → Prop}

theorem attempts_size (h : Keeps kind P L I big) {st st' : L.State} {s k : Str} {b : Bytes} {r : Ret} (hk : P s k)
    (hcall : Attempts L (.set s k b) st r st') : r = .err .tooBig ↔ big b := by
  induction hcall with
  | last h1 => exact h.size hk h1
  | again h1 hp h2 ih => exact ih

theorem attempts_call (h : Keeps kind P L I big) {st st' : L.State} {s k : Str} {v : Known} {c : Call} {r : Ret}
    (hk : P s k) (hc : P c.inSet c.key) (hi : I s k st v) (hcall : Attempts L c st r st') :
    I s k st' (after kind s k v (.call c r)) := by
  induction hcall generalizing v with
  | last h1 => exact h.call hk hc hi h1
  | again h1 hp h2 ih =>
    refine h.mono (after_again hp ?_) (ih (h.call hk hc hi h1))
    rintro s' k' b rfl hr
    have hb := (h.size hc h1).2 ((attempts_size h hc h2).1 hr)
    simp only [Ret.err.injEq] at hb
    subst hb; simp [permanent] at hp

theorem attempts_answer (h : Keeps kind P L I big) {st st' : L.State} {s k : Str} {v : Known} {r : Ret}
    (hk : P s k) (hi : I s k st v) (hcall : Attempts L (.get s k) st r st') : Answers v r := by
  induction hcall generalizing v with
  | last h1 => exact h.answer hk hi h1
  | @again st e s1 r s' h1 hp h2 ih =>
    have := h.call (c := .get s k) hk hk hi h1
    have e1 : after kind s k v (.call (.get s k) (.err e)) = v := by
      simp only [after, Call.inSet, Call.key, and_self, if_true]
      cases e <;> first | rfl | simp [permanent] at hp
    rw [e1] at this
    exact ih this

theorem keeps_retry (h : Keeps kind P L I big) : Keeps kind P (retry L) I big where
  mono := h.mono
  init := h.init
  restart := h.restart
  call := fun hk hc hi hcall => attempts_call h hk hc hi hcall
  answer := fun hk hi hcall => attempts_answer h hk hi hcall
  size := fun hk hcall => attempts_size h hk hcall

end

/-! ### Maps -/

/-- A map each of whose operations may fail. -/
def atomicCall (big : Bytes → Prop) (m : Store) (c : Call) (r : Ret) (m' : Store) : Prop :=
  match c with
  | .get s k => m' = m ∧ (r = .err .store ∨ (m s k = none ∧ r = .err .notFound) ∨ ∃ b, m s k = some b ∧ r = .blob b)
  | .set s k b => (big b ∧ r = .err .tooBig ∧ m' = m) ∨
      (¬big b ∧ ((r = .done ∧ m' = m.put s k (some b)) ∨ (r = .err .store ∧ (m' = m ∨ m' = m.put s k (some b)))))
  | .delete s k => (r = .done ∧ m' = m.put s k none) ∨ (r = .err .store ∧ (m' = m ∨ m' = m.put s k none))

def atomic (big : Bytes → Prop) : Layer where
  State := Store
  init := fun _ _ => none
  call := atomicCall big
  restart m m' := m' = m

/-- A store that behaves like a map on the keys of `P`. -/
structure Sim (volatile : Bool) (P : Str → Str → Prop) (L : Layer) (R : L.State → Store → Prop) (big : Bytes → Prop) : Prop where
  init : R L.init fun _ _ => none
  call : ∀ {st m c r st'}, R st m → P c.inSet c.key → L.call st c r st' → ∃ m', atomicCall big m c r m' ∧ R st' m'
  restart : ∀ {st m st'}, R st m → L.restart st st' → R st' (if volatile then fun _ _ => none else m)

/-- The key has one of the possible values. -/
def Among (m : Store) (s k : Str) : Known → Prop
  | none => True
  | some l => m s k ∈ l

theorem among_sub {m : Store} {s k : Str} {v w : Known} (h : Sub v w) (ha : Among m s k v) : Among m s k w := by
  cases w with
  | none => trivial
  | some l' =>
    cases v with
    | none => exact h.elim
    | some l => exact h _ ha

theorem among_cons {m : Store} {s k : Str} {v : Known} {x : Option Bytes} (h : Among m s k v ∨ m s k = x) :
    Among m s k (v.map (x :: ·)) := by
  cases v with
  | none => trivial
  | some l =>
    rcases h with h | h
    · exact List.mem_cons_of_mem _ h
    · show m s k ∈ x :: l; rw [h]; exact List.mem_cons_self

theorem among_one {m : Store} {s k : Str} {v : Known} {x : Option Bytes} (h : m s k = x) : Among m s k (v.map fun _ => [x]) := by
  cases v with
  | none => trivial
  | some l => show m s k ∈ [x]; rw [h]; exact List.mem_cons_self

theorem atomic_among {big : Bytes → Prop} {m m' : Store} {c : Call} {r : Ret} {s k : Str} {v : Known} {volatile : Bool}
    (h : atomicCall big m c r m') (ha : Among m s k v) : Among m' s k (after ⟨volatile, false⟩ s k v (.call c r)) := by
  by_cases hk : c.inSet = s ∧ c.key = k
  · cases c with
    | get s' k' =>
      obtain ⟨rfl, rfl⟩ := hk
      obtain ⟨rfl, rfl | ⟨h1, rfl⟩ | ⟨b, h1, rfl⟩⟩ := h
      · simpa only [after, Call.inSet, Call.key, and_self, if_true] using ha
      · simpa only [after, Call.inSet, Call.key, and_self, if_true] using among_one h1
      · simpa only [after, Call.inSet, Call.key, and_self, if_true] using among_one h1
    | set s' k' b =>
      obtain ⟨rfl, rfl⟩ := hk
      rcases h with ⟨-, rfl, rfl⟩ | ⟨-, ⟨rfl, rfl⟩ | ⟨rfl, h1⟩⟩
      · simpa only [after, Call.inSet, Call.key, and_self, if_true] using ha
      · simp only [after, Call.inSet, Call.key, and_self, if_true]
        show _ ∈ [_]
        rw [MaxSize.put_same]; exact List.mem_cons_self
      · simp only [after, Call.inSet, Call.key, and_self, if_true, Bool.false_eq_true, if_false]
        apply among_cons
        rcases h1 with rfl | rfl
        · exact .inl ha
        · exact .inr (MaxSize.put_same ..)
    | delete s' k' =>
      obtain ⟨rfl, rfl⟩ := hk
      rcases h with ⟨rfl, rfl⟩ | ⟨rfl, h1⟩
      · simp only [after, Call.inSet, Call.key, and_self, if_true, Bool.false_eq_true, if_false]
        show _ ∈ [_]
        rw [MaxSize.put_same]; exact List.mem_cons_self
      · simp only [after, Call.inSet, Call.key, and_self, if_true]
        apply among_cons
        rcases h1 with rfl | rfl
        · exact .inl ha
        · exact .inr (MaxSize.put_same ..)
  · have e : after ⟨volatile, false⟩ s k v (.call c r) = v := by simp only [after, if_neg hk]
    rw [e]
    have hm : m' s k = m s k := by
      have hput : ∀ b s' k', ¬(s' = s ∧ k' = k) → m.put s' k' b s k = m s k :=
        fun b s' k' hne => MaxSize.put_ne fun hh => hne ⟨hh.1.symm, hh.2.symm⟩
      cases c with
      | get s' k' => rw [h.1]
      | set s' k' b =>
        rcases h with ⟨-, -, rfl⟩ | ⟨-, ⟨-, rfl⟩ | ⟨-, rfl | rfl⟩⟩
        · rfl
        · exact hput _ _ _ hk
        · rfl
        · exact hput _ _ _ hk
      | delete s' k' =>
        rcases h with ⟨-, rfl⟩ | ⟨-, rfl | rfl⟩
        · exact hput _ _ _ hk
        · rfl
        · exact hput _ _ _ hk
    cases v with
    | none => trivial
    | some l => show m' s k ∈ l; rw [hm]; exact ha

theorem atomic_answer {big : Bytes → Prop} {m m' : Store} {r : Ret} {s k : Str} {v : Known}
    (h : atomicCall big m (.get s k) r m') (ha : Among m s k v) : Answers v r := by
  cases v with
  | none => trivial
  | some l =>
    obtain ⟨-, rfl | ⟨h1, rfl⟩ | ⟨b, h1, rfl⟩⟩ := h
    · exact .inr (.inr rfl)
    · exact .inr (.inl ⟨rfl, by rw [← h1]; exact ha⟩)
    · exact .inl ⟨b, rfl, by rw [← h1]; exact ha⟩

/-- What is kept by a store that behaves like a map. -/
def MapInv {L : Layer} (R : L.State → Store → Prop) (s k : Str) (st : L.State) (v : Known) : Prop :=
  ∃ m, R st m ∧ Among m s k v

theorem sim_keeps {volatile : Bool} {P : Str → Str → Prop} {L : Layer} {R : L.State → Store → Prop} {big : Bytes → Prop}
    (h : Sim volatile P L R big)
    (hsize : ∀ {st s k b r st'}, P s k → L.call st (.set s k b) r st' → (r = .err .tooBig ↔ big b)) :
    Keeps ⟨volatile, false⟩ P L (MapInv R) big where
  mono := fun hs ⟨m, h1, h2⟩ => ⟨m, h1, among_sub hs h2⟩
  init := fun _ => ⟨_, h.init, List.mem_cons_self⟩
  restart := by
    rintro s k st st' v hk ⟨m, h1, h2⟩ hr
    refine ⟨_, h.restart h1 hr, ?_⟩
    cases volatile
    · exact h2
    · exact List.mem_cons_self
  call := by
    rintro s k st st' v c r hk hc ⟨m, h1, h2⟩ hcall
    obtain ⟨m', a1, a2⟩ := h.call h1 hc hcall
    exact ⟨m', a2, atomic_among a1 h2⟩
  answer := by
    rintro s k st st' v r hk ⟨m, h1, h2⟩ hcall
    obtain ⟨m', a1, -⟩ := h.call (c := .get s k) h1 hk hcall
    exact atomic_answer a1 h2
  size := hsize

end RankDB.Layers

namespace RankDB.Layers
open Wire Spec.Layers
open MaxSize (Store Err)

/-! ### Drivers -/

/-- Different sets or keys are different when joined with a slash. -/
abbrev Distinct := Spec.LazySaver.Distinct

/-- The map of joined keys. -/
def JoinedAre (P : Str → Str → Prop) (st : Str → Option Bytes) (m : Store) : Prop := ∀ s k, P s k → st (memKey s k) = m s k

theorem mem_call {P : Str → Str → Prop} (hP : Distinct P) {st st' : Str → Option Bytes} {m : Store} {c : Call} {r : Ret}
    (hR : JoinedAre P st m) (hc : P c.inSet c.key) (hcall : (r, st') = memCall st c) :
    ∃ m', atomicCall (fun b => b.length > 2 ^ 20) m c r m' ∧ JoinedAre P st' m' := by
  have hput : ∀ (s k : Str) (x : Option Bytes), P s k → ∀ s' k', P s' k' →
      (if memKey s' k' = memKey s k then x else st (memKey s' k')) = m.put s k x s' k' := by
    intro s k x hk s' k' hk'
    unfold Store.put
    by_cases he : s' = s ∧ k' = k
    · rw [if_pos he, if_pos (by rw [he.1, he.2])]
    · have hne : ¬memKey s' k' = memKey s k := fun hh => he (hP _ _ _ _ hk' hk hh)
      rw [if_neg he, if_neg hne]
      exact hR _ _ hk'
  cases c with
  | get s k =>
    have hk := hR s k hc
    simp only [memCall] at hcall
    cases hm : st (memKey s k) with
    | none =>
      rw [hm] at hcall hk
      simp only [Prod.mk.injEq] at hcall
      exact ⟨m, ⟨rfl, .inr (.inl ⟨hk.symm, hcall.1⟩)⟩, by rw [hcall.2]; exact hR⟩
    | some b =>
      rw [hm] at hcall hk
      simp only [Prod.mk.injEq] at hcall
      exact ⟨m, ⟨rfl, .inr (.inr ⟨b, hk.symm, hcall.1⟩)⟩, by rw [hcall.2]; exact hR⟩
  | set s k v =>
    simp only [memCall] at hcall
    split at hcall
    · rename_i hbig
      simp only [Prod.mk.injEq] at hcall
      exact ⟨m, .inl ⟨hbig, hcall.1, rfl⟩, by rw [hcall.2]; exact hR⟩
    · rename_i hbig
      split at hcall
      · simp only [Prod.mk.injEq] at hcall
        exact ⟨m, .inr ⟨hbig, .inr ⟨hcall.1, .inl rfl⟩⟩, by rw [hcall.2]; exact hR⟩
      · simp only [Prod.mk.injEq] at hcall
        refine ⟨m.put s k (some v), .inr ⟨hbig, .inl ⟨hcall.1, rfl⟩⟩, ?_⟩
        rw [hcall.2]
        exact hput s k (some v) hc
  | delete s k =>
    simp only [memCall, Prod.mk.injEq] at hcall
    refine ⟨m.put s k none, .inl ⟨hcall.1, rfl⟩, ?_⟩
    rw [hcall.2]
    exact hput s k none hc

theorem sim_memory {P : Str → Str → Prop} (hP : Distinct P) :
    Sim true P memory (JoinedAre P) (fun b => b.length > 2 ^ 20) where
  init := fun _ _ _ => rfl
  restart := by rintro st m st' - rfl s k -; rfl
  call := fun hR hc hcall => mem_call hP hR hc hcall

theorem size_memory {st st' : Str → Option Bytes} {s k : Str} {b : Bytes} {r : Ret}
    (h : (r, st') = memCall st (.set s k b)) : r = .err .tooBig ↔ b.length > 2 ^ 20 := by
  simp only [memCall] at h
  split at h
  · simp_all
  · split at h <;> simp_all

/-- The map of buckets with keys. -/
def BucketsAre (st : Buckets) (m : Store) : Prop := ∀ s k, m s k = (st s).bind (· k)

theorem buckets_put {st : Buckets} {m : Store} (h : BucketsAre st m) (s k : Str) (x : Option Bytes) {b : Str → Option Bytes}
    (hb : ∀ y, b y = m s y) :
    BucketsAre (fun z => if z = s then some fun y => if y = k then x else b y else st z) (m.put s k x) := by
  intro s' k'
  unfold Store.put
  by_cases hs : s' = s
  · subst hs
    simp only [true_and, if_true, Option.bind_some]
    split
    · rfl
    · exact (hb k').symm
  · rw [if_neg (fun hh => hs hh.1)]; dsimp only; rw [if_neg hs]; exact h s' k'

theorem bolt_call {st st' : Buckets} {m : Store} {c : Call} {r : Ret} {fate : Fate}
    (hR : BucketsAre st m) (hcall : (r, st') = boltCall fate st c) :
    ∃ m', atomicCall (fun _ => False) m c r m' ∧ BucketsAre st' m' := by
  cases c with
  | get s k =>
    have hk := hR s k
    simp only [boltCall] at hcall
    refine ⟨m, ?_, ?_⟩
    · refine ⟨rfl, ?_⟩
      split at hcall
      · cases hs : st s with
        | none => rw [hs] at hcall hk; simp only [Prod.mk.injEq] at hcall; exact .inr (.inl ⟨hk, hcall.1⟩)
        | some b =>
          rw [hs] at hcall hk
          simp only [Option.bind_some] at hcall hk
          cases hb : b k with
          | none => rw [hb] at hcall hk; simp only [Prod.mk.injEq] at hcall; exact .inr (.inl ⟨hk, hcall.1⟩)
          | some v => rw [hb] at hcall hk; simp only [Prod.mk.injEq] at hcall; exact .inr (.inr ⟨v, hk, hcall.1⟩)
      · simp only [Prod.mk.injEq] at hcall; exact .inl hcall.1
    · have : st' = st := by
        split at hcall
        · split at hcall
          · simp_all
          · split at hcall <;> simp_all
        · simp_all
      rw [this]; exact hR
  | set s k v =>
    simp only [boltCall] at hcall
    split at hcall
    · simp only [Prod.mk.injEq] at hcall
      exact ⟨m, .inr ⟨id, .inr ⟨hcall.1, .inl rfl⟩⟩, by rw [hcall.2]; exact hR⟩
    · have hput := buckets_put hR s k (some v) (b := (st s).getD fun _ => none) (by
        intro y; rw [hR s y]; cases st s <;> rfl)
      cases fate <;> simp only [Prod.mk.injEq] at hcall
      · exact ⟨_, .inr ⟨id, .inl ⟨hcall.1, rfl⟩⟩, by rw [hcall.2]; exact hput⟩
      · exact ⟨_, .inr ⟨id, .inr ⟨hcall.1, .inl rfl⟩⟩, by rw [hcall.2]; exact hR⟩
      · exact ⟨_, .inr ⟨id, .inr ⟨hcall.1, .inr rfl⟩⟩, by rw [hcall.2]; exact hput⟩
  | delete s k =>
    simp only [boltCall] at hcall
    cases hs : st s with
    | none =>
      rw [hs] at hcall
      have hsame : m.put s k none = m := by
        funext s' k'
        unfold Store.put
        split
        · rename_i he; rw [he.1, he.2, hR s k, hs]; rfl
        · rfl
      dsimp only at hcall
      split at hcall <;> simp only [Prod.mk.injEq] at hcall
      · exact ⟨m, .inl ⟨hcall.1, hsame.symm⟩, by rw [hcall.2]; exact hR⟩
      · exact ⟨m, .inr ⟨hcall.1, .inl rfl⟩, by rw [hcall.2]; exact hR⟩
    | some b =>
      rw [hs] at hcall
      have hput := buckets_put hR s k none (b := b) (by intro y; rw [hR s y, hs]; rfl)
      cases fate <;> simp only [Prod.mk.injEq] at hcall
      · exact ⟨_, .inl ⟨hcall.1, rfl⟩, by rw [hcall.2]; exact hput⟩
      · exact ⟨_, .inr ⟨hcall.1, .inl rfl⟩, by rw [hcall.2]; exact hR⟩
      · exact ⟨_, .inr ⟨hcall.1, .inr rfl⟩, by rw [hcall.2]; exact hput⟩

theorem sim_bolt (P : Str → Str → Prop) : Sim false P bolt BucketsAre (fun _ => False) where
  init := fun _ _ => rfl
  restart := by rintro st m st' h rfl; exact h
  call := fun hR _ ⟨_, hcall⟩ => bolt_call hR hcall

theorem size_bolt {st st' : Buckets} {s k : Str} {b : Bytes} {r : Ret} {fate : Fate}
    (h : (r, st') = boltCall fate st (.set s k b)) : r = .err .tooBig ↔ False := by
  simp only [boltCall] at h
  split at h
  · simp_all
  · cases fate <;> simp_all

/-- Blobs are only where they were written. -/
theorem dynamo_blob {m m' : Buckets} {c : Call} {r : Ret} {fate : Fate} (h : (r, m') = dynamoCall fate m c) {s k : Str} {b : Bytes}
    (hb : (m' s).bind (· k) = some b) : (m s).bind (· k) = some b ∨ c = .set s k b := by
  simp only [dynamoCall] at h
  cases hs : m c.inSet with
  | none =>
    rw [hs] at h
    simp only [Prod.mk.injEq] at h
    rw [h.2] at hb
    exact .inl hb
  | some t =>
    rw [hs] at h
    simp only at h
    cases c with
    | get s' k' =>
      have hm : m' = m := by
        simp only at h
        split at h
        · split at h <;> (simp only [Prod.mk.injEq] at h; exact h.2)
        · simp only [Prod.mk.injEq] at h; exact h.2
      rw [hm] at hb
      exact .inl hb
    | set s' k' v =>
      simp only [Call.inSet] at hs
      have : m' = m ∨ m' = fun x => if x = s' then some fun y => if y = k' then some v else t y else m x := by
        cases fate <;> simp only [Prod.mk.injEq] at h
        · exact .inr h.2
        · exact .inl h.2
        · exact .inr h.2
      rcases this with hm | hm
      · rw [hm] at hb; exact .inl hb
      · rw [hm] at hb
        simp only at hb
        split at hb
        · rename_i hx
          subst hx
          simp only [Option.bind_some] at hb
          split at hb
          · rename_i hy
            subst hy
            cases hb
            exact .inr rfl
          · left; rw [hs]; exact hb
        · exact .inl hb
    | delete s' k' =>
      simp only [Call.inSet] at hs
      have : m' = m ∨ m' = fun x => if x = s' then some fun y => if y = k' then none else t y else m x := by
        cases fate <;> simp only [Prod.mk.injEq] at h
        · exact .inr h.2
        · exact .inl h.2
        · exact .inr h.2
      rcases this with hm | hm
      · rw [hm] at hb; exact .inl hb
      · rw [hm] at hb
        simp only at hb
        split at hb
        · rename_i hx
          subst hx
          simp only [Option.bind_some] at hb
          split at hb
          · cases hb
          · left; rw [hs]; exact hb
        · exact .inl hb

/-- What a read of one copy gives. -/
theorem dynamo_get {m : Buckets} {s k : Str} {r : Ret} {fate : Fate} (h : (r, m) = dynamoCall fate m (.get s k)) :
    r = .err .store ∨ r = .err .notFound ∨ ∃ b, r = .blob b ∧ (m s).bind (· k) = some b := by
  simp only [dynamoCall, Call.inSet] at h
  cases hs : m s with
  | none => rw [hs] at h; simp only [Prod.mk.injEq] at h; exact .inl h.1
  | some t =>
    rw [hs] at h
    simp only at h
    split at h
    · cases hb : t k with
      | none => rw [hb] at h; simp only [Prod.mk.injEq] at h; exact .inr (.inl h.1)
      | some v => rw [hb] at h; simp only [Prod.mk.injEq] at h; exact .inr (.inr ⟨v, h.1, hb⟩)
    · simp only [Prod.mk.injEq] at h; exact .inl h.1

theorem aero_call {st st' : Store} {c : Call} {r : Ret} {fate : Fate} (hcall : (r, st') = aeroCall fate st c) :
    atomicCall (fun b => b.length > 2 ^ 20) st c r st' := by
  cases c with
  | get s k =>
    simp only [aeroCall] at hcall
    split at hcall
    · cases hm : st s k <;> rw [hm] at hcall <;> simp only [Prod.mk.injEq] at hcall
      · exact ⟨hcall.2, .inr (.inl ⟨hm, hcall.1⟩)⟩
      · exact ⟨hcall.2, .inr (.inr ⟨_, hm, hcall.1⟩)⟩
    · simp only [Prod.mk.injEq] at hcall; exact ⟨hcall.2, .inl hcall.1⟩
  | set s k v =>
    simp only [aeroCall] at hcall
    split at hcall
    · rename_i hb; simp only [Prod.mk.injEq] at hcall; exact .inl ⟨hb, hcall⟩
    · rename_i hb
      cases fate <;> simp only [Prod.mk.injEq] at hcall
      · exact .inr ⟨hb, .inl hcall⟩
      · exact .inr ⟨hb, .inr ⟨hcall.1, .inl hcall.2⟩⟩
      · exact .inr ⟨hb, .inr ⟨hcall.1, .inr hcall.2⟩⟩
  | delete s k =>
    simp only [aeroCall] at hcall
    cases fate <;> simp only [Prod.mk.injEq] at hcall
    · exact .inl hcall
    · exact .inr ⟨hcall.1, .inl hcall.2⟩
    · exact .inr ⟨hcall.1, .inr hcall.2⟩

theorem sim_aero (P : Str → Str → Prop) : Sim false P aerospike (fun st m => st = m) (fun b => b.length > 2 ^ 20) where
  init := rfl
  restart := by rintro st m st' h rfl; exact h
  call := by rintro st m c r st' rfl _ ⟨_, hcall⟩; exact ⟨st', aero_call hcall, rfl⟩

theorem size_aero {st st' : Store} {s k : Str} {b : Bytes} {r : Ret} {fate : Fate}
    (h : (r, st') = aeroCall fate st (.set s k b)) : r = .err .tooBig ↔ b.length > 2 ^ 20 := by
  simp only [aeroCall] at h
  split at h
  · simp_all
  · cases fate <;> simp_all

theorem badger_set_ok {P : Str → Str → Prop} {m : Store} {st : Badger.State} (h : Badger.Inv P m st) {f : Flushing} (hf : f.Fine)
    (s k : Str) (v : Bytes) : (Badger.set true f.evs f.order st s k v).2 = true := by
  unfold Badger.set
  dsimp only
  split
  · refine (Badger.flushLoop_fine f.evs _ [] { st with queue := _ } ?_ hf.2.2 (hf.1 _)
      (Badger.unique_add h.unique (Badger.joined s k, v)) _ (fun k => rfl)).1
    rw [(hf.1 _).length_eq]
    have h1 := Badger.drop_length st.queue (Badger.joined s k)
    have h2 := h.short
    have h3 := hf.2.1
    simp only [List.length_append, List.length_cons, List.length_nil]
    omega
  · rfl

theorem badger_call {P : Str → Str → Prop} (hP : Distinct P) {st st' : Badger.State} {m : Store} {c : Call} {r : Ret} {f : Flushing}
    (hf : f.Fine) (h : Badger.Inv P m st) (hc : P c.inSet c.key) (hcall : (r, st') = badgerCall f st c) :
    ∃ m', atomicCall (fun _ => False) m c r m' ∧ Badger.Inv P m' st' := by
  cases c with
  | get s k =>
    have hv := h.value s k hc
    simp only [badgerCall, Badger.get_view, hv] at hcall
    cases hm : m s k <;> rw [hm] at hcall <;> simp only [Prod.mk.injEq] at hcall
    · exact ⟨m, ⟨rfl, .inr (.inl ⟨hm, hcall.1⟩)⟩, by rw [hcall.2]; exact h⟩
    · exact ⟨m, ⟨rfl, .inr (.inr ⟨_, hm, hcall.1⟩)⟩, by rw [hcall.2]; exact h⟩
  | set s k v =>
    have hi := Badger.inv_step hP h (o := .set s k v f.evs f.order) ⟨hc, ⟨hf.2.1, hf.2.2⟩, hf.1⟩
    simp only [badgerCall, badger_set_ok h hf, if_true, Prod.mk.injEq] at hcall
    exact ⟨_, .inr ⟨id, .inl ⟨hcall.1, rfl⟩⟩, by rw [hcall.2]; exact hi⟩
  | delete s k =>
    have hi := Badger.inv_step hP h (o := .delete s k) hc
    simp only [badgerCall, Prod.mk.injEq] at hcall
    exact ⟨_, .inl ⟨hcall.1, rfl⟩, by rw [hcall.2]; exact hi⟩

theorem sim_badger {P : Str → Str → Prop} (hP : Distinct P) :
    Sim false P badger (fun st m => Badger.Inv P m st) (fun _ => False) where
  init := ⟨by simp [badger, Badger.UniqueKeys], by show 0 < 100; decide, fun _ _ _ => rfl⟩
  restart := by
    rintro st m st' h ⟨f, hf, rfl⟩
    exact Badger.inv_step hP h (o := .close f.evs f.order) ⟨⟨hf.2.1, hf.2.2⟩, hf.1⟩
  call := fun h hc ⟨_, hf, hcall⟩ => badger_call hP hf h hc hcall

/-! ### Limited size -/

/-- Code on a map. -/
inductive RunsA {α : Type} (big : Bytes → Prop) : Prog α → Store → α → Store → Prop
  | ret {a m} : RunsA big (.ret a) m a m
  | call {c k m r m1 a m2} : atomicCall big m c r m1 → RunsA big (k r) m1 a m2 → RunsA big (.call c k) m a m2

/-- All calls are about these keys. -/
def Within {α : Type} (Q : Str → Str → Prop) : Prog α → Prop
  | .ret _ => True
  | .call c k => Q c.inSet c.key ∧ ∀ r, Within Q (k r)

theorem runs_atomic {α : Type} {volatile : Bool} {Q : Str → Str → Prop} {L : Layer} {R : L.State → Store → Prop} {big : Bytes → Prop}
    (h : Sim volatile Q L R big) {p : Prog α} {st st' : L.State} {a : α} (hr : Runs L p st a st') {m : Store} (hR : R st m)
    (hq : Within Q p) : ∃ m', RunsA big p m a m' ∧ R st' m' := by
  induction hr generalizing m with
  | ret => exact ⟨m, .ret, hR⟩
  | call h1 h2 ih =>
    obtain ⟨m1, a1, a2⟩ := h.call hR hq.1 h1
    obtain ⟨m2, b1, b2⟩ := ih a2 (hq.2 _)
    exact ⟨m2, .call a1 b1, b2⟩

theorem runs_map {α β : Type} {big : Bytes → Prop} {f : α → β} {p : Prog α} : ∀ {m m' : Store} {b : β},
    RunsA big (p.map f) m b m' → ∃ a, RunsA big p m a m' ∧ b = f a := by
  induction p with
  | ret a => intro m m' b h; cases h; exact ⟨a, .ret, rfl⟩
  | call c k ih =>
    intro m m' b h
    cases h with
    | call h1 h2 => obtain ⟨a, h3, h4⟩ := ih _ h2; exact ⟨a, .call h1 h3, h4⟩

theorem within_map {α β : Type} {Q : Str → Str → Prop} {f : α → β} {p : Prog α} (h : Within Q p) : Within Q (p.map f) := by
  induction p with
  | ret a => trivial
  | call c k ih => exact ⟨h.1, fun r => ih r (h.2 r)⟩

section
variable {big : Bytes → Prop} {s k : Str}
open MaxSize

theorem runs_getParts {c i : Nat} {acc : Bytes} {m m' : Store} {x : Except Err Bytes}
    (h : RunsA big (getPartsP s k c i acc) m x m') (g : Nat → Bool) :
    m' = m ∧ ∃ f, (∀ j ≤ i, f j = g j) ∧ getParts f m s k c i acc = x := by
  induction c generalizing i acc g with
  | zero => cases h; exact ⟨rfl, g, fun _ _ => rfl, rfl⟩
  | succ c ih =>
    cases h with
    | call h1 h2 =>
      obtain ⟨rfl, rfl | ⟨hn, rfl⟩ | ⟨b, hb, rfl⟩⟩ := h1
      · cases h2
        refine ⟨rfl, fun j => if j = i + 1 then false else g j, fun j hj => if_neg (by omega), ?_⟩
        simp only [getParts, if_true, Bool.false_eq_true, if_false]
      · cases h2
        refine ⟨rfl, fun j => if j = i + 1 then true else g j, fun j hj => if_neg (by omega), ?_⟩
        simp only [getParts, if_true, hn]
      · obtain ⟨h3, f, hf, h4⟩ := ih h2 (fun j => if j = i + 1 then true else g j)
        refine ⟨h3, f, fun j hj => (hf j (by omega)).trans (if_neg (by omega)), ?_⟩
        simp only [getParts, (hf (i + 1) (by omega)).trans (if_pos rfl), if_true, hb]
        exact h4

/-- The numbers of parts after `Get`. -/
def countsGet (parts : Str → Nat) (s k : Str) : Option Nat → Str → Nat
  | none => parts
  | some n => setCount parts (mapKey s k) n

theorem runs_get {m m' : Store} {o : Option Nat} {x : Except Err Bytes} (h : RunsA big (getP s k) m (o, x) m') (parts : Str → Nat) :
    m' = m ∧ ∃ f, MaxSize.get f ⟨m, parts⟩ s k = (⟨m, countsGet parts s k o⟩, x) := by
  cases h with
  | call h1 h2 =>
    obtain ⟨rfl, rfl | ⟨hn, rfl⟩ | ⟨b, hb, rfl⟩⟩ := h1
    · cases h2; exact ⟨rfl, fun _ => false, rfl⟩
    · cases h2; refine ⟨rfl, fun _ => true, ?_⟩; simp only [MaxSize.get, hn, if_true]; rfl
    · dsimp only at h2
      cases hu : uvarint b with
      | none =>
        rw [hu] at h2
        cases h2
        refine ⟨rfl, fun _ => true, ?_⟩
        simp only [MaxSize.get, hb, hu, if_true]; rfl
      | some y =>
        rw [hu] at h2
        dsimp only at h2
        split at h2
        · rename_i h0
          cases h2
          refine ⟨rfl, fun _ => true, ?_⟩
          simp only [MaxSize.get, hb, hu, if_true, h0]; rfl
        · rename_i h0
          obtain ⟨a, h3, h4⟩ := runs_map h2
          obtain ⟨h5, f, hf, h6⟩ := runs_getParts h3 (fun _ => true)
          simp only [Prod.mk.injEq] at h4
          refine ⟨h5, f, ?_⟩
          simp only [MaxSize.get, hf 0 (Nat.le_refl 0), if_true, hb, hu, if_neg h0, h6, h4.1, h4.2]
          rfl

theorem runs_setParts {max : Nat} (hbig : ∀ b : Bytes, b.length ≤ max → ¬big b) {c i : Nat} {b2 : Bytes} {m m' : Store} {x : Option Err}
    (h : RunsA big (setPartsP max s k c i b2) m x m') (g : Nat → Bool) :
    (x = none ∨ x = some .store) ∧
      ∃ f late, (∀ j < i, f j = g j) ∧ setParts max f late s k c i b2 m = (m', x.isNone) := by
  induction c generalizing i b2 m g with
  | zero => cases h; exact ⟨.inl rfl, g, false, fun _ _ => rfl, rfl⟩
  | succ c ih =>
    cases h with
    | call h1 h2 =>
      rcases h1 with ⟨hb, -⟩ | ⟨-, ⟨rfl, rfl⟩ | ⟨rfl, h1⟩⟩
      · exact absurd hb (hbig _ (by simp only [List.length_take]; omega))
      · obtain ⟨h3, f, late, hf, h4⟩ := ih h2 (fun j => if j = i then true else g j)
        refine ⟨h3, f, late, fun j hj => (hf j (by omega)).trans (if_neg (by omega)), ?_⟩
        simp only [setParts, (hf i (by omega)).trans (if_pos rfl), if_true]
        exact h4
      · cases h2
        rcases h1 with rfl | rfl
        · refine ⟨.inr rfl, fun j => if j = i then false else g j, false, fun j hj => if_neg (by omega), ?_⟩
          simp only [setParts, if_true, Bool.false_eq_true, if_false]; rfl
        · refine ⟨.inr rfl, fun j => if j = i then false else g j, true, fun j hj => if_neg (by omega), ?_⟩
          simp only [setParts, if_true, Bool.false_eq_true, if_false]; rfl

theorem runs_deleteExtra {α : Type} {p : Prog α} {c i : Nat} {m m' : Store} {x : α}
    (h : RunsA big (deleteExtraP s k c i p) m x m') (g : Nat → Bool) :
    ∃ f, (∀ j < i, f j = g j) ∧ RunsA big p (deleteExtra f s k c i m) x m' := by
  induction c generalizing i m g with
  | zero => exact ⟨g, fun _ _ => rfl, h⟩
  | succ c ih =>
    cases h with
    | call h1 h2 =>
      rename_i m1
      have : m1 = m ∨ m1 = m.put s (extKey k (i - 1)) none := by
        rcases h1 with ⟨-, h1⟩ | ⟨-, h1⟩
        · exact .inr h1
        · exact h1
      rcases this with rfl | rfl
      · obtain ⟨f, hf, h4⟩ := ih h2 (fun j => if j = i then false else g j)
        refine ⟨f, fun j hj => (hf j (by omega)).trans (if_neg (by omega)), ?_⟩
        simpa only [deleteExtra, (hf i (by omega)).trans (if_pos rfl), Bool.false_eq_true, if_false] using h4
      · obtain ⟨f, hf, h4⟩ := ih h2 (fun j => if j = i then true else g j)
        refine ⟨f, fun j hj => (hf j (by omega)).trans (if_neg (by omega)), ?_⟩
        simpa only [deleteExtra, (hf i (by omega)).trans (if_pos rfl), if_true] using h4

/-- A result as `Except`. -/
def result : Option Err → Except Err Unit
  | none => .ok ()
  | some e => .error e

theorem runs_set {max : Nat} (hbig : ∀ b : Bytes, b.length ≤ max → ¬big b) {b : Bytes} {m m' : Store} {x : Option Err}
    {parts : Str → Nat} (h : RunsA big (setP max (parts (mapKey s k)) s k b) m x m') :
    ∃ g f late, MaxSize.set max g f late ⟨m, parts⟩ s k b =
      (⟨m', if x = none then setCount parts (mapKey s k) (if total max b = 1 then 0 else total max b) else parts⟩, result x) := by
  unfold setP at h
  split at h
  · rename_i ht
    cases h
    refine ⟨fun _ => true, fun _ => true, false, ?_⟩
    simp only [MaxSize.set, if_pos ht]; rfl
  · rename_i ht
    obtain ⟨g, -, h1⟩ := runs_deleteExtra h (fun _ => true)
    obtain ⟨h2, f, late, -, h3⟩ := runs_setParts hbig h1 (fun _ => true)
    refine ⟨g, f, late, ?_⟩
    simp only [MaxSize.set, if_neg ht, h3]
    rcases h2 with rfl | rfl <;> rfl

theorem runs_deleteParts {c i : Nat} {m m' : Store} {x : Option Err}
    (h : RunsA big (deletePartsP s k c i) m x m') (g : Nat → Bool) :
    (x = none ∨ x = some .store) ∧
      ∃ f late, (∀ j ≤ i, f j = g j) ∧ deleteParts f late s k c i m = (m', x.isNone) := by
  induction c generalizing i m g with
  | zero => cases h; exact ⟨.inl rfl, g, false, fun _ _ => rfl, rfl⟩
  | succ c ih =>
    cases h with
    | call h1 h2 =>
      rcases h1 with ⟨rfl, rfl⟩ | ⟨rfl, h1⟩
      · obtain ⟨h3, f, late, hf, h4⟩ := ih h2 (fun j => if j = i + 1 then true else g j)
        refine ⟨h3, f, late, fun j hj => (hf j (by omega)).trans (if_neg (by omega)), ?_⟩
        simp only [deleteParts, (hf (i + 1) (by omega)).trans (if_pos rfl), if_true]
        exact h4
      · cases h2
        rcases h1 with rfl | rfl
        · refine ⟨.inr rfl, fun j => if j = i + 1 then false else g j, false, fun j hj => if_neg (by omega), ?_⟩
          simp only [deleteParts, if_true, Bool.false_eq_true, if_false]; rfl
        · refine ⟨.inr rfl, fun j => if j = i + 1 then false else g j, true, fun j hj => if_neg (by omega), ?_⟩
          simp only [deleteParts, if_true, Bool.false_eq_true, if_false]; rfl

theorem runs_delete {m m' : Store} {x : Option Err} {fin : Bool} {parts : Str → Nat}
    (h : RunsA big (deleteP (parts (mapKey s k)) s k) m (x, fin) m') :
    ∃ f late, MaxSize.delete f late ⟨m, parts⟩ s k =
      (⟨m', if fin then setCount parts (mapKey s k) 0 else parts⟩, result x) := by
  have hrem : ∀ n m, RunsA big ((deletePartsP s k n 0).map fun r => (r, r.isNone)) m (x, fin) m' →
      ∃ f late, f 0 = true ∧ deleteParts f late s k n 0 m = (m', x.isNone) ∧ fin = x.isNone ∧ (x = none ∨ x = some .store) := by
    intro n m hr
    obtain ⟨a, h1, h2⟩ := runs_map hr
    simp only [Prod.mk.injEq] at h2
    obtain ⟨h3, f, late, hf, h4⟩ := runs_deleteParts h1 (fun _ => true)
    exact ⟨f, late, hf 0 (Nat.le_refl 0), by rw [h4, h2.1], by rw [h2.2, h2.1], by rw [h2.1]; exact h3⟩
  unfold deleteP at h
  dsimp only at h
  split at h
  · rename_i h0
    cases h with
    | call h1 h2 =>
      obtain ⟨rfl, rfl | ⟨hn, rfl⟩ | ⟨b, hb, rfl⟩⟩ := h1
      · cases h2; refine ⟨fun _ => false, false, ?_⟩; simp only [MaxSize.delete, h0, if_true]; rfl
      · cases h2; refine ⟨fun _ => true, false, ?_⟩; simp only [MaxSize.delete, h0, if_true, hn]; rfl
      · dsimp only at h2
        cases hu : uvarint b with
        | none =>
          rw [hu] at h2
          obtain ⟨f, late, hf, h3, rfl, h4⟩ := hrem _ _ h2
          refine ⟨f, late, ?_⟩
          simp only [MaxSize.delete, h0, if_true, hf, hb, hu, h3]
          rcases h4 with rfl | rfl <;> rfl
        | some y =>
          rw [hu] at h2
          obtain ⟨f, late, hf, h3, rfl, h4⟩ := hrem _ _ h2
          refine ⟨f, late, ?_⟩
          simp only [MaxSize.delete, h0, if_true, hf, hb, hu, h3]
          rcases h4 with rfl | rfl <;> rfl
  · rename_i h0
    obtain ⟨f, late, hf, h3, rfl, h4⟩ := hrem _ _ h
    refine ⟨f, late, ?_⟩
    simp only [MaxSize.delete, if_neg h0, h3]
    rcases h4 with rfl | rfl <;> rfl

/-- A deletion of a key either removes its header or changes nothing. -/
theorem delete_own {K : Str → Prop} (hK : Spec.MaxSize.Separate K) {f : Nat → Bool} {late : Bool} {st : MaxSize.State} (hk : K k) :
    (MaxSize.delete f late st s k).1.store s k = none ∨ (MaxSize.delete f late st s k).1.store = st.store := by
  have hparts : ∀ n, 0 < n → (deleteParts f late s k n 0 st.store).1 s k = none ∨ (deleteParts f late s k n 0 st.store).1 = st.store := by
    intro n hn
    cases n with
    | zero => omega
    | succ n =>
      unfold deleteParts
      have hp : (partKey k 0) = k := rfl
      split
      · left
        rw [deleteParts_other]
        · rw [hp, put_same]
        · intro j h1 h2 ⟨_, h3⟩
          have := (partKey_inj hK hk hk (i := 0) (j := j) (hp.trans h3)).2
          omega
      · dsimp only
        split
        · left; rw [hp, put_same]
        · right; rfl
  have fin : ∀ n, 0 < n → ∀ p : Str → Nat,
      (if (deleteParts f late s k n 0 st.store).2 = true then
        (({ store := (deleteParts f late s k n 0 st.store).1, parts := p } : MaxSize.State), (Except.ok () : Except Err Unit))
        else ({ st with store := (deleteParts f late s k n 0 st.store).1 }, Except.error Err.store)).1.store s k = none ∨
      (if (deleteParts f late s k n 0 st.store).2 = true then
        (({ store := (deleteParts f late s k n 0 st.store).1, parts := p } : MaxSize.State), (Except.ok () : Except Err Unit))
        else ({ st with store := (deleteParts f late s k n 0 st.store).1 }, Except.error Err.store)).1.store = st.store := by
    intro n hn p
    split <;> exact hparts n hn
  unfold MaxSize.delete
  dsimp only
  split
  · split
    · split
      · right; rfl
      · split
        · exact fin _ (by omega) _
        · exact fin _ (by omega) _
    · right; rfl
  · exact fin _ (by omega) _

theorem within_getParts {Q : Str → Str → Prop} (hQ : ∀ i, Q s (partKey k i)) (c i : Nat) (acc : Bytes) :
    Within Q (getPartsP s k c i acc) := by
  induction c generalizing i acc with
  | zero => trivial
  | succ c ih =>
    refine ⟨hQ (i + 1), fun r => ?_⟩
    cases r with
    | blob b => exact ih _ _
    | done => trivial
    | err e => trivial

theorem within_get {Q : Str → Str → Prop} (hQ : ∀ i, Q s (partKey k i)) : Within Q (getP s k) := by
  refine ⟨hQ 0, fun r => ?_⟩
  cases r with
  | blob b =>
    dsimp only
    cases uvarint b with
    | none => trivial
    | some y =>
      dsimp only
      split
      · trivial
      · exact within_map (within_getParts hQ _ _ _)
  | done => trivial
  | err e => trivial

theorem within_setParts {Q : Str → Str → Prop} (hQ : ∀ i, Q s (partKey k i)) (max c i : Nat) (b2 : Bytes) :
    Within Q (setPartsP max s k c i b2) := by
  induction c generalizing i b2 with
  | zero => trivial
  | succ c ih =>
    refine ⟨hQ i, fun r => ?_⟩
    cases r with
    | blob b => exact ih _ _
    | done => exact ih _ _
    | err e => trivial

theorem within_deleteExtra {α : Type} {p : Prog α} {Q : Str → Str → Prop} (hQ : ∀ i, Q s (partKey k i)) (hp : Within Q p) (c i : Nat) :
    Within Q (deleteExtraP s k c i p) := by
  induction c generalizing i with
  | zero => exact hp
  | succ c ih => exact ⟨hQ (i - 1 + 1), fun r => ih _⟩

theorem within_set {Q : Str → Str → Prop} (hQ : ∀ i, Q s (partKey k i)) (max old : Nat) (b : Bytes) :
    Within Q (setP max old s k b) := by
  unfold setP
  split
  · trivial
  · exact within_deleteExtra hQ (within_setParts hQ _ _ _ _) _ _

theorem within_deleteParts {Q : Str → Str → Prop} (hQ : ∀ i, Q s (partKey k i)) (c i : Nat) :
    Within Q (deletePartsP s k c i) := by
  induction c generalizing i with
  | zero => trivial
  | succ c ih =>
    refine ⟨hQ i, fun r => ?_⟩
    cases r with
    | blob b => exact ih _
    | done => exact ih _
    | err e => trivial

theorem within_delete {Q : Str → Str → Prop} (hQ : ∀ i, Q s (partKey k i)) (old : Nat) : Within Q (deleteP old s k) := by
  have hrem : ∀ n, Within Q ((deletePartsP s k n 0).map fun r => (r, r.isNone)) := fun n => within_map (within_deleteParts hQ _ _)
  unfold deleteP
  dsimp only
  split
  · refine ⟨hQ 0, fun r => ?_⟩
    cases r with
    | blob b =>
      dsimp only
      cases uvarint b with
      | none => exact hrem 1
      | some y => exact hrem _
    | done => trivial
    | err e => trivial
  · exact hrem _

end

/-- What the result of a call with the state `st` means for the model in `Model/MaxSize`. -/
def StepsLike (max : Nat) (st : MaxSize.State) (c : Call) (r : Ret) (st' : MaxSize.State) : Prop :=
  match c with
  | .get s k => ∃ f x, MaxSize.get f st s k = (st', x) ∧ r = (match x with | .ok b => .blob b | .error e => .err e)
  | .set s k b => ∃ g f late x, MaxSize.set max g f late st s k b = (st', result x) ∧
      r = (match x with | none => .done | some e => .err e)
  | .delete s k => ∃ f late x, MaxSize.delete f late st s k = (st', result x) ∧
      r = (match x with | none => .done | some e => .err e)

section
variable {volatile : Bool} {P Q : Str → Str → Prop} {L : Layer} {R : L.State → Store → Prop} {big : Bytes → Prop} {max : Nat}
open MaxSize (Rep Holds partKey)

/-- The layer does what `Model/MaxSize` does on a map. -/
theorem maxSize_steps (h : Sim volatile Q L R big) (hbig : ∀ b : Bytes, b.length ≤ max → ¬big b)
    {st st' : L.State} {p p' : Str → Nat} {c : Call} {r : Ret} {m : Store} (hR : R st m) (hQ : ∀ i, Q c.inSet (partKey c.key i))
    (hcall : (maxSize max L).call (st, p) c r (st', p')) : ∃ m', R st' m' ∧ StepsLike max ⟨m, p⟩ c r ⟨m', p'⟩ := by
  cases c with
  | get s k =>
    obtain ⟨o, x, h1, h2, h3⟩ := hcall
    obtain ⟨m', h4, h5⟩ := runs_atomic h h1 hR (within_get hQ)
    obtain ⟨rfl, f, h6⟩ := runs_get h4 p
    refine ⟨m', h5, f, x, ?_, h2⟩
    rw [h6]
    dsimp only at h3
    rw [h3]
    cases o <;> rfl
  | set s k b =>
    obtain ⟨x, h1, h2, h3⟩ := hcall
    obtain ⟨m', h4, h5⟩ := runs_atomic h h1 hR (within_set hQ _ _ _)
    obtain ⟨g, f, late, h6⟩ := runs_set hbig h4
    refine ⟨m', h5, g, f, late, x, ?_, h2⟩
    rw [h6]
    dsimp only at h3
    rw [h3]
  | delete s k =>
    obtain ⟨x, fin, h1, h2, h3⟩ := hcall
    obtain ⟨m', h4, h5⟩ := runs_atomic h h1 hR (within_delete hQ _)
    obtain ⟨f, late, h6⟩ := runs_delete h4
    refine ⟨m', h5, f, late, x, ?_, h2⟩
    rw [h6]
    dsimp only at h3
    rw [h3]

/-- The key has one of the possible values. -/
def Stored (max : Nat) (st : MaxSize.State) (s k : Str) : Known → Prop
  | none => True
  | some l => ∃ x ∈ l, Rep max st s k (.is x)

theorem stored_sub {st : MaxSize.State} {s k : Str} {v w : Known} (h : Sub v w) (hs : Stored max st s k v) : Stored max st s k w := by
  cases w with
  | none => trivial
  | some l' =>
    cases v with
    | none => exact h.elim
    | some l => obtain ⟨x, h1, h2⟩ := hs; exact ⟨x, h _ h1, h2⟩

theorem stored_same {st st' : MaxSize.State} {s k : Str} {v : Known} (h : MaxSize.SameParts st st' s k)
    (hs : Stored max st s k v) : Stored max st' s k v := by
  cases v with
  | none => trivial
  | some l => obtain ⟨x, h1, h2⟩ := hs; exact ⟨x, h1, MaxSize.rep_same h h2⟩

theorem steps_answer (hm : 3 ≤ max) {st st' : MaxSize.State} {s k : Str} {r : Ret} {v : Known}
    (h : StepsLike max st (.get s k) r st') (hs : Stored max st s k v) : Answers v r := by
  cases v with
  | none => trivial
  | some l =>
    obtain ⟨x, h1, h2⟩ := hs
    obtain ⟨f, y, h3, rfl⟩ := h
    have := MaxSize.get_rep hm h2 f
    rw [h3] at this
    cases x with
    | none =>
      rcases this with rfl | rfl
      · exact .inr (.inl ⟨rfl, h1⟩)
      · exact .inr (.inr rfl)
    | some b =>
      rcases this with rfl | rfl
      · exact .inl ⟨b, rfl, h1⟩
      · exact .inr (.inr rfl)

theorem steps_stored (hm : 3 ≤ max) {K : Str → Prop} (hK : Spec.MaxSize.Separate K) {st st' : MaxSize.State} {s k : Str} {c : Call}
    {r : Ret} {v : Known} (hk : K k) (hc : K c.key) (h : StepsLike max st c r st') (hs : Stored max st s k v) :
    Stored max st' s k (after ⟨volatile, true⟩ s k v (.call c r)) := by
  by_cases he : c.inSet = s ∧ c.key = k
  · cases c with
    | get s' k' =>
      obtain ⟨rfl, rfl⟩ := he
      obtain ⟨f, y, h3, rfl⟩ := h
      have hst : st'.store = st.store := by
        have := MaxSize.get_store f st s' k'
        rw [h3] at this; exact this
      have hs' : Stored max st' s' k' v := stored_same (fun i => by rw [hst]) hs
      simp only [after, Call.inSet, Call.key, and_self, if_true]
      cases v with
      | none =>
        cases y with
        | ok b => trivial
        | error e => cases e <;> trivial
      | some l =>
        obtain ⟨x, h1, h2⟩ := hs'
        have h2' : Rep max st s' k' (.is x) := MaxSize.rep_same (fun i => by rw [hst]) h2
        have := MaxSize.get_rep hm h2' f
        rw [h3] at this
        cases x with
        | none =>
          rcases this with rfl | rfl
          · exact ⟨none, List.mem_cons_self, h2⟩
          · exact ⟨none, h1, h2⟩
        | some b =>
          rcases this with rfl | rfl
          · exact ⟨some b, List.mem_cons_self, h2⟩
          · exact ⟨some b, h1, h2⟩
    | set s' k' b =>
      obtain ⟨rfl, rfl⟩ := he
      obtain ⟨g, f, late, x, h3, rfl⟩ := h
      cases x with
      | none =>
        have := MaxSize.set_holds hK hk (max := max) (g := g) (f := f) (late := late) (st := st) (s := s') (k := k') (b := b) (by rw [h3]; rfl)
        rw [h3] at this
        simp only [after, Call.inSet, Call.key, and_self, if_true]
        exact ⟨some b, List.mem_cons_self, this⟩
      | some e =>
        cases e with
        | tooBig =>
          have := MaxSize.set_tooBig (max := max) (g := g) (f := f) (late := late) (st := st) (s := s') (k := k') (b := b) (by rw [h3]; rfl)
          rw [h3] at this
          simp only [after, Call.inSet, Call.key, and_self, if_true]
          dsimp only at this
          rw [this]; exact hs
        | _ => simp only [after, Call.inSet, Call.key, and_self, if_true]; trivial
    | delete s' k' =>
      obtain ⟨rfl, rfl⟩ := he
      obtain ⟨f, late, x, h3, rfl⟩ := h
      have hd := delete_own hK (f := f) (late := late) (st := st) (s := s') (k := k') hk
      rw [h3] at hd
      have ha : ∀ r, after ⟨volatile, true⟩ s' k' v (.call (.delete s' k') r) = v.map (none :: ·) := by
        intro r
        cases r <;> simp only [after, Call.inSet, Call.key, and_self, if_true]
      show Stored max st' s' k' (after ⟨volatile, true⟩ s' k' v _)
      rw [ha]
      cases v with
      | none => trivial
      | some l =>
        rcases hd with hd | hd
        · exact ⟨none, List.mem_cons_self, hd⟩
        · obtain ⟨y, h1, h2⟩ := hs
          exact ⟨y, List.mem_cons_of_mem _ h1, MaxSize.rep_same (fun i => by rw [hd]) h2⟩
  · have e : after ⟨volatile, true⟩ s k v (.call c r) = v := by simp only [after, if_neg he]
    rw [e]
    have other : ∀ i j, ¬(s = c.inSet ∧ partKey k i = partKey c.key j) := by
      intro i j ⟨h1, h2⟩
      exact he ⟨h1.symm, (MaxSize.partKey_inj hK hk hc h2).1.symm⟩
    refine stored_same (fun i => ?_) hs
    cases c with
    | get s' k' =>
      obtain ⟨f, y, h3, rfl⟩ := h
      have := MaxSize.get_store f st s' k'
      rw [h3] at this; rw [this]
    | set s' k' b =>
      obtain ⟨g, f, late, x, h3, rfl⟩ := h
      have := MaxSize.set_store_other (max := max) (g := g) (f := f) (late := late) (st := st) (b := b) (other i)
      rw [show MaxSize.set max g f late st (Call.set s' k' b).inSet (Call.set s' k' b).key b = _ from h3] at this
      exact this
    | delete s' k' =>
      obtain ⟨f, late, x, h3, rfl⟩ := h
      have := MaxSize.delete_store_other (f := f) (late := late) (st := st) (other i)
      rw [show MaxSize.delete f late st (Call.delete s' k').inSet (Call.delete s' k').key = _ from h3] at this
      exact this

theorem setParts_size (hbig : ∀ b : Bytes, b.length ≤ max → ¬big b)
    (hsize : ∀ {st s k b r st'}, Q s k → L.call st (.set s k b) r st' → (r = .err .tooBig ↔ big b)) {s k : Str}
    (hQ : ∀ i, Q s (partKey k i)) {c i : Nat} {b2 : Bytes} {st st' : L.State} {x : Option Err}
    (h : Runs L (setPartsP max s k c i b2) st x st') : x ≠ some .tooBig := by
  induction c generalizing i b2 st with
  | zero => cases h; simp
  | succ c ih =>
    cases h with
    | call h1 h2 =>
      rename_i r s1
      have hne : r ≠ .err .tooBig := fun hr => hbig _ (by simp only [List.length_take]; omega) ((hsize (hQ i) h1).1 hr)
      cases r with
      | blob b => exact ih h2
      | done => exact ih h2
      | err e => cases h2; intro he; apply hne; rw [Option.some.inj he]

theorem deleteExtra_runs {α : Type} {p : Prog α} {s k : Str} {c i : Nat} {st st' : L.State} {x : α}
    (h : Runs L (deleteExtraP s k c i p) st x st') : ∃ st1, Runs L p st1 x st' := by
  induction c generalizing i st with
  | zero => exact ⟨st, h⟩
  | succ c ih => cases h with | call h1 h2 => exact ih h2

theorem set_size (hbig : ∀ b : Bytes, b.length ≤ max → ¬big b)
    (hsize : ∀ {st s k b r st'}, Q s k → L.call st (.set s k b) r st' → (r = .err .tooBig ↔ big b)) {s k : Str}
    (hQ : ∀ i, Q s (partKey k i)) {old : Nat} {b : Bytes} {st st' : L.State} {x : Option Err}
    (h : Runs L (setP max old s k b) st x st') : x = some .tooBig ↔ 65535 ≤ MaxSize.total max b := by
  unfold setP at h
  split at h
  · rename_i ht; cases h; exact ⟨fun _ => ht, fun _ => rfl⟩
  · rename_i ht
    obtain ⟨st1, h1⟩ := deleteExtra_runs h
    exact ⟨fun hx => absurd hx (setParts_size hbig hsize hQ h1), fun hx => absurd hx ht⟩

/-- What is kept on top of a store that behaves like a map. -/
def SizeInv (max : Nat) (R : L.State → Store → Prop) (s k : Str) (st : L.State × (Str → Nat)) (v : Known) : Prop :=
  ∃ m, R st.1 m ∧ Stored max ⟨m, st.2⟩ s k v

theorem keeps_maxSize (h : Sim volatile Q L R big)
    (hsize : ∀ {st s k b r st'}, Q s k → L.call st (.set s k b) r st' → (r = .err .tooBig ↔ big b)) (hm : 3 ≤ max) (hbig : ∀ b : Bytes, b.length ≤ max → ¬big b)
    {K : Str → Prop} (hK : Spec.MaxSize.Separate K) (hP : ∀ s k, P s k → K k) (hQ : ∀ s k, P s k → ∀ i, Q s (partKey k i)) :
    Keeps ⟨volatile, true⟩ P (maxSize max L) (SizeInv max R) (fun b => 65535 ≤ MaxSize.total max b) where
  mono := fun hs ⟨m, h1, h2⟩ => ⟨m, h1, stored_sub hs h2⟩
  init := fun _ => ⟨_, h.init, none, List.mem_cons_self, rfl⟩
  restart := by
    rintro s k st st' v hk ⟨m, h1, h2⟩ ⟨hr, -⟩
    refine ⟨_, h.restart h1 hr, ?_⟩
    cases volatile
    · exact stored_same (fun i => rfl) h2
    · exact ⟨none, List.mem_cons_self, rfl⟩
  call := by
    rintro s k ⟨st, p⟩ ⟨st', p'⟩ v c r hk hc ⟨m, h1, h2⟩ hcall
    obtain ⟨m', h3, h4⟩ := maxSize_steps h hbig h1 (hQ _ _ hc) hcall
    exact ⟨m', h3, steps_stored hm hK (hP _ _ hk) (hP _ _ hc) h4 h2⟩
  answer := by
    rintro s k ⟨st, p⟩ ⟨st', p'⟩ v r hk ⟨m, h1, h2⟩ hcall
    obtain ⟨m', h3, h4⟩ := maxSize_steps (c := .get s k) h hbig h1 (hQ _ _ hk) hcall
    exact steps_answer hm h4 h2
  size := by
    rintro ⟨st, p⟩ s k b r ⟨st', p'⟩ hk ⟨x, h1, rfl, -⟩
    rw [← set_size hbig hsize (hQ s k hk) h1]
    cases x <;> simp

end

end RankDB.Layers

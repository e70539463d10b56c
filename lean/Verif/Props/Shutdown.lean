import Verif.Spec.Shutdown
/-
C81: the server lets in a limited number of updates, and stops without losing what it has acknowledged.
-/
namespace RankDB.Props
open Shutdown Spec

variable {α : Type}

theorem run_snoc (c : Shutdown.Config) (w : World α) (es : List (Event α)) (e : Event α) :
    run c w (es ++ [e]) = (run c w es).bind fun w => step c w e := by
  induction es generalizing w with
  | nil => simp [run]
  | cons x es ih =>
    simp only [List.cons_append, run]
    cases step c w x with
    | none => rfl
    | some w => exact ih w

theorem run_append (c : Shutdown.Config) (w : World α) (es fs : List (Event α)) :
    run c w (es ++ fs) = (run c w es).bind fun w => run c w fs := by
  induction es generalizing w with
  | nil => simp [run]
  | cons x es ih =>
    simp only [List.cons_append, run]
    cases step c w x with
    | none => rfl
    | some w => exact ih w

/-- What holds at first and is kept by every event holds always. -/
theorem run_keeps {c : Shutdown.Config} {P : World α → Prop} {Q : Event α → Prop} (hs : ∀ w e w', Q e → P w → step c w e = some w' → P w')
    (es : List (Event α)) (w w' : World α) (hq : ∀ e ∈ es, Q e) (h0 : P w) (h : run c w es = some w') : P w' := by
  induction es generalizing w with
  | nil => simp only [run, Option.some.injEq] at h; exact h ▸ h0
  | cons e es ih =>
    simp only [run] at h
    cases hw : step c w e with
    | none => rw [hw] at h; cases h
    | some w1 =>
      rw [hw] at h
      exact ih w1 (fun x hx => hq x (List.mem_cons_of_mem _ hx)) (hs _ _ _ (hq e List.mem_cons_self) h0 hw) h

/-- The cases of a step in the handling of a request. -/
inductive Moved (c : Shutdown.Config) (w : World α) (r : Req α) : Move → Effect α → Prop
  | enterUpdate : r.stage = .entering → w.phase = .serving → r.update = true →
      Moved c w r .lock { req := { r with stage := .gate }, free := w.free }
  | enter : r.stage = .entering → w.phase = .serving → r.update = false →
      Moved c w r .lock { req := { r with stage := .working r.plan }, free := w.free }
  | turned : r.stage = .entering → w.phase ≠ .serving →
      Moved c w r .lock { req := { r with stage := .gone, answer := some .restarting }, free := w.free }
  | unlimited : r.stage = .gate → c.limit = none → Moved c w r .take { req := { r with stage := .working r.plan }, free := w.free }
  | token (n : Nat) : r.stage = .gate → c.limit = some n → 0 < w.free →
      Moved c w r .take { req := { r with stage := .working r.plan }, free := w.free - 1 }
  | cancel : r.stage = .gate → c.limit.isSome = true →
      Moved c w r .cancel { req := { r with stage := .leaving, answer := some .cancelled }, free := w.free }
  | refuse : r.stage = .gate → c.limit.isSome = true → w.announced = true →
      Moved c w r .refuse { req := { r with stage := .leaving, answer := some .restarting }, free := w.free }
  | change (a : α) (todo : List α) : r.stage = .working (a :: todo) →
      Moved c w r .change { req := { r with stage := .working todo }, free := w.free, change := some a }
  | answer : r.stage = .working [] → Moved c w r .answer { req := { r with stage := .returning, answer := some .ok }, free := w.free }
  | fail (todo : List α) : r.stage = .working todo →
      Moved c w r .fail { req := { r with stage := .returning, answer := some .failed }, free := w.free }
  | abandon (todo : List α) : r.stage = .working todo →
      Moved c w r .abandon { req := { r with stage := .returning, answer := some .cancelled }, free := w.free, left := some todo }
  | release : r.stage = .returning →
      Moved c w r .release { req := { r with stage := .leaving }, free := if r.update && c.limit.isSome then w.free + 1 else w.free }
  | unlock : r.stage = .leaving → Moved c w r .unlock { req := { r with stage := .gone }, free := w.free }

theorem moved_of_move {c : Shutdown.Config} {w : World α} {r : Req α} {m : Move} {f : Effect α} (h : move c w r m = some f) :
    Moved c w r m f := by
  unfold move at h
  split at h
  case h_1 hs =>
    split at h
    · rename_i hp
      simp only [Option.some.injEq] at h
      subst h
      by_cases hu : r.update = true
      · rw [if_pos hu]; exact .enterUpdate hs hp hu
      · rw [if_neg hu]; exact .enter hs hp (by simpa using hu)
    · rename_i hp
      simp only [Option.some.injEq] at h
      subst h
      exact .turned hs hp
  case h_2 hs =>
    split at h
    · rename_i hl
      simp only [Option.some.injEq] at h
      subst h
      exact .unlimited hs hl
    · rename_i n hl
      split at h
      · rename_i hf
        simp only [Option.some.injEq] at h
        subst h
        exact .token n hs hl hf
      · cases h
  case h_3 hs =>
    split at h
    · rename_i hf
      simp only [Option.some.injEq] at h
      subst h
      exact .cancel hs hf
    · cases h
  case h_4 hs =>
    split at h
    · rename_i hf
      simp only [Option.some.injEq] at h
      subst h
      rw [Bool.and_eq_true] at hf
      exact .refuse hs hf.1 hf.2
    · cases h
  case h_5 hs => simp only [Option.some.injEq] at h; subst h; exact .change _ _ hs
  case h_6 hs => simp only [Option.some.injEq] at h; subst h; exact .answer hs
  case h_7 hs => simp only [Option.some.injEq] at h; subst h; exact .fail _ hs
  case h_8 hs => simp only [Option.some.injEq] at h; subst h; exact .abandon _ hs
  case h_9 hs => simp only [Option.some.injEq] at h; subst h; exact .release hs
  case h_10 hs => simp only [Option.some.injEq] at h; subst h; exact .unlock hs
  case h_11 => cases h

/-- The cases of an event. -/
inductive Stepped (c : Shutdown.Config) (w : World α) : Event α → World α → Prop
  | arrive (u : Bool) (p : List α) :
      Stepped c w (.arrive u p) { w with reqs := w.reqs ++ [{ update := u, plan := if u then p else [] }] }
  | move (i : Nat) (m : Move) (r : Req α) (f : Effect α) : w.reqs[i]? = some r → Moved c w r m f → Stepped c w (.move i m) (put w i f)
  | late (i : Nat) (a : α) (todo : List α) (rest : List (Nat × List α)) : w.adrift = (i, a :: todo) :: rest →
      Stepped c w .late { w with made := w.made ++ [(i, a)], adrift := (i, todo) :: rest }
  | lateEnds (i : Nat) (rest : List (Nat × List α)) : w.adrift = (i, []) :: rest → Stepped c w .late { w with adrift := rest }
  | tick : w.phase = .serving ∨ w.phase = .draining ∨ w.phase = .jobs → Stepped c w .tick { w with saved := some w.made }
  | signal : w.phase = .serving → Stepped c w .signal { w with phase := .draining }
  | announce : w.phase = .draining → w.announced = false → Stepped c w .announce { w with announced := true }
  | drained : w.phase = .draining → w.announced = true → (∀ r ∈ w.reqs, r.locked = false) →
      Stepped c w .advance { w with phase := .jobs }
  | jobs : w.phase = .jobs → Stepped c w .advance { w with phase := .saving }
  | saved : w.phase = .saving → Stepped c w .advance { w with phase := .closing, saved := some w.made }
  | closed : w.phase = .closing → Stepped c w .advance { w with phase := .ended }
  | timeout : w.phase ≠ .serving → Stepped c w .timeout { w with phase := w.phase.next }

theorem stepped_of_step {c : Shutdown.Config} {w w' : World α} {e : Event α} (h : step c w e = some w') :
    w.phase ≠ .ended ∧ Stepped c w e w' := by
  unfold step at h
  split at h
  · cases h
  · rename_i hp
    refine ⟨hp, ?_⟩
    cases e with
    | arrive u p => simp only [Option.some.injEq] at h; subst h; exact .arrive u p
    | move i m =>
      dsimp only at h
      split at h
      · rename_i r hr
        obtain ⟨f, hf, rfl⟩ := Option.map_eq_some_iff.1 h
        exact .move i m r f hr (moved_of_move hf)
      · cases h
    | late =>
      dsimp only at h
      split at h
      · rename_i hd; simp only [Option.some.injEq] at h; subst h; exact .late _ _ _ _ hd
      · rename_i hd; simp only [Option.some.injEq] at h; subst h; exact .lateEnds _ _ hd
      · cases h
    | tick =>
      dsimp only at h
      split at h
      · rename_i hd; simp only [Option.some.injEq] at h; subst h; exact .tick (.inl hd)
      · rename_i hd; simp only [Option.some.injEq] at h; subst h; exact .tick (.inr (.inl hd))
      · rename_i hd; simp only [Option.some.injEq] at h; subst h; exact .tick (.inr (.inr hd))
      · cases h
    | signal =>
      dsimp only at h
      split at h
      · rename_i hd; simp only [Option.some.injEq] at h; subst h; exact .signal hd
      · cases h
    | announce =>
      dsimp only at h
      split at h
      · rename_i hd
        simp only [Option.some.injEq] at h
        subst h
        simp only [Bool.and_eq_true, decide_eq_true_eq, Bool.not_eq_true'] at hd
        exact .announce hd.1 hd.2
      · cases h
    | advance =>
      dsimp only [advance] at h
      split at h
      · cases h
      · cases h
      · rename_i hd
        split at h
        · rename_i hl
          simp only [Option.some.injEq] at h
          subst h
          simp only [Bool.and_eq_true, List.all_eq_true, Bool.not_eq_true'] at hl
          exact .drained hd hl.1 hl.2
        · cases h
      · rename_i hd; simp only [Option.some.injEq] at h; subst h; exact .saved hd
      · rename_i hd; simp only [Option.some.injEq] at h; subst h; exact .jobs hd
      · rename_i hd; simp only [Option.some.injEq] at h; subst h; exact .closed hd
    | timeout =>
      dsimp only at h
      split at h
      · cases h
      · rename_i hd; simp only [Option.some.injEq] at h; subst h; exact .timeout hd

/-! ### The limit -/

theorem count_set (p : Req α → Bool) (l : List (Req α)) (i : Nat) (r r' : Req α) (h : l[i]? = some r) :
    (l.set i r').countP p + (if p r then 1 else 0) = l.countP p + (if p r' then 1 else 0) := by
  induction l generalizing i with
  | nil => simp at h
  | cons x l ih =>
    cases i with
    | zero =>
      simp only [List.getElem?_cons_zero, Option.some.injEq] at h
      subst h
      simp only [List.set_cons_zero, List.countP_cons]
      omega
    | succ i =>
      simp only [List.getElem?_cons_succ] at h
      simp only [List.set_cons_succ, List.countP_cons]
      have := ih i h
      omega

theorem get_set (l : List (Req α)) (i j : Nat) (r x : Req α) (h : (l.set i r)[j]? = some x) :
    (i = j ∧ x = r) ∨ (i ≠ j ∧ l[j]? = some x) := by
  rw [List.getElem?_set] at h
  split at h
  · split at h
    · simp only [Option.some.injEq] at h; exact .inl ⟨by assumption, h.symm⟩
    · cases h
  · exact .inr ⟨by assumption, h⟩

/-- Tokens are neither lost nor made; only updates wait for one. -/
def TokensKept (n : Nat) (w : World α) : Prop :=
  w.free + w.reqs.countP Req.admitted = n ∧ ∀ (i : Nat) (r : Req α), w.reqs[i]? = some r → r.stage = .gate → r.update = true

theorem tokens_step {c : Shutdown.Config} {n : Nat} (hc : c.limit = some n) (w : World α) (e : Event α) (w' : World α) (h : TokensKept n w)
    (hs : step c w e = some w') : TokensKept n w' := by
  obtain ⟨-, hs⟩ := stepped_of_step hs
  unfold TokensKept at h ⊢
  obtain ⟨h, hg⟩ := h
  cases hs with
  | move i m r f hr hm =>
    have hcnt := count_set Req.admitted w.reqs i r f.req hr
    have hgr := hg i r hr
    refine ⟨?_, ?_⟩
    · simp only [put]
      cases hm <;> simp_all [Req.admitted] <;> (try cases hu : r.update) <;> simp_all <;> omega
    · intro j r' hr' hst
      rcases get_set _ _ _ _ _ hr' with ⟨-, rfl⟩ | ⟨-, hj⟩
      · cases hm <;> simp_all
      · exact hg j r' hj hst
  | arrive u p =>
    refine ⟨by simpa [Req.admitted] using h, fun i r hr hst => ?_⟩
    dsimp only at hr
    by_cases hi : i < w.reqs.length
    · rw [List.getElem?_append_left hi] at hr
      exact hg i r hr hst
    · rw [List.getElem?_append_right (by omega)] at hr
      cases hk : i - w.reqs.length with
      | zero => rw [hk] at hr; simp only [List.getElem?_cons_zero, Option.some.injEq] at hr; subst hr; cases hst
      | succ k => rw [hk] at hr; simp at hr
  | _ => exact ⟨h, hg⟩

/-- At any time at most `MaxUpdates` updates are handled, and the other tokens are free: none is ever lost, also if
handlers fail, are cancelled or refused. -/
theorem C81_limit (c : Shutdown.Config) (n : Nat) (hc : c.limit = some n) (es : List (Event α)) (w : World α)
    (h : run c (start c) es = some w) :
    (w.reqs.filter Req.admitted).length ≤ n ∧ w.free = n - (w.reqs.filter Req.admitted).length := by
  have := run_keeps (P := TokensKept n) (Q := fun _ => True) (fun w e w' _ => tokens_step hc w e w') es (start c) w (by simp)
    (by simp [TokensKept, start, hc]) h
  have := this.1
  rw [List.countP_eq_length_filter] at this
  omega

/-! ### Nobody gets in after the signal -/

theorem serving_step {c : Shutdown.Config} {w w' : World α} {e : Event α} (h : step c w e = some w') (hp : w.phase ≠ .serving) :
    w'.phase ≠ .serving := by
  obtain ⟨-, hs⟩ := stepped_of_step h
  cases hs with
  | timeout => cases hw : w.phase <;> simp_all [Phase.next]
  | _ => simp_all [put]

/-- The requests in `w'` that hold a lock held it in `w` already; the others have not got an answer, or "Server
restarting", or the one they had. -/
def NobodyIn (w w' : World α) : Prop :=
  ∀ (i : Nat) (r' : Req α), w'.reqs[i]? = some r' →
    (∃ r, w.reqs[i]? = some r ∧ r.locked = true) ∨
    (r'.locked = false ∧ (r'.answer = none ∨ r'.answer = some .restarting ∨ ∃ r, w.reqs[i]? = some r ∧ r.answer = r'.answer))

theorem nobody_refl (w : World α) : NobodyIn w w := by
  intro i r hr
  cases hl : r.locked with
  | true => exact .inl ⟨r, hr, hl⟩
  | false => exact .inr ⟨rfl, .inr (.inr ⟨r, hr, rfl⟩)⟩

theorem nobody_step {c : Shutdown.Config} {w0 w w' : World α} {e : Event α} (h : step c w e = some w') (hp : w.phase ≠ .serving)
    (hn : NobodyIn w0 w) : NobodyIn w0 w' := by
  obtain ⟨-, hs⟩ := stepped_of_step h
  cases hs with
  | arrive u p =>
    intro i r' hr'
    dsimp only at hr'
    by_cases hi : i < w.reqs.length
    · rw [List.getElem?_append_left hi] at hr'
      exact hn i r' hr'
    · rw [List.getElem?_append_right (by omega)] at hr'
      cases hk : i - w.reqs.length with
      | zero =>
        rw [hk] at hr'
        simp only [List.getElem?_cons_zero, Option.some.injEq] at hr'
        subst hr'
        exact .inr ⟨rfl, .inl rfl⟩
      | succ k => rw [hk] at hr'; simp at hr'
  | move i m r f hr hm =>
    intro j r' hr'
    rcases get_set _ _ _ _ _ hr' with ⟨rfl, rfl⟩ | ⟨-, hj⟩
    · rcases hn i r hr with hl | ⟨hl, ha⟩
      · exact .inl hl
      · have hst : r.stage = .entering ∨ r.stage = .gone := by
          unfold Req.locked at hl
          cases hst : r.stage <;> simp_all
        cases hm <;> simp_all [Req.locked]
    · exact hn j r' hj
  | _ => exact hn

/-- Once a shutdown was requested no request is let in: whoever holds a lock later held it before; every other request is
answered "Server restarting" or not at all, unless it was answered before. -/
theorem C81_nobody_enters (c : Shutdown.Config) (w w' : World α) (es : List (Event α)) (hp : w.phase ≠ .serving)
    (h : run c w es = some w') (i : Nat) (r' : Req α) (hr : w'.reqs[i]? = some r') :
    (∃ r, w.reqs[i]? = some r ∧ r.locked = true) ∨
    (r'.locked = false ∧ (r'.answer = none ∨ r'.answer = some .restarting ∨ ∃ r, w.reqs[i]? = some r ∧ r.answer = r'.answer)) :=
  (run_keeps (P := fun x => x.phase ≠ .serving ∧ NobodyIn w x) (Q := fun _ => True)
    (fun _ _ _ _ hx hs => ⟨serving_step hs hx.1, nobody_step hs hx.1 hx.2⟩) es w w' (by simp) ⟨hp, nobody_refl w⟩ h).2 i r' hr

/-! ### Answers -/

theorem changesBy_append (i : Nat) (a b : List (Nat × α)) : changesBy i (a ++ b) = changesBy i a ++ changesBy i b := by
  simp [changesBy]

theorem changesBy_self (i : Nat) (a : α) : changesBy i [(i, a)] = [a] := by simp [changesBy]

theorem changesBy_other {i j : Nat} (h : i ≠ j) (a : α) : changesBy j [(i, a)] = [] := by simp [changesBy, h]

/-- What is known about a request. -/
def Tracked (made : List (Nat × α)) (i : Nat) (r : Req α) : Prop :=
  (r.update = false → r.plan = []) ∧
  match r.stage with
  | .entering => r.answer = none ∧ changesBy i made = []
  | .gate => r.answer = none ∧ changesBy i made = []
  | .working todo => r.answer = none ∧ changesBy i made ++ todo = r.plan
  | _ => r.answer ≠ none ∧ (r.answer = some .ok → changesBy i made = r.plan) ∧ (r.answer = some .restarting → changesBy i made = [])

/-- What is known about the server. -/
structure Sound (w : World α) : Prop where
  reqs : ∀ i r, w.reqs[i]? = some r → Tracked w.made i r
  adrift : ∀ x ∈ w.adrift, ∃ r, w.reqs[x.1]? = some r ∧ r.answer = some .cancelled
  made : ∀ x ∈ w.made, x.1 < w.reqs.length

theorem changesBy_none {i : Nat} {l : List (Nat × α)} (h : ∀ x ∈ l, x.1 ≠ i) : changesBy i l = [] := by
  unfold changesBy
  rw [List.filter_eq_nil_iff.2 (by simpa using fun a b hab => h (a, b) hab)]
  rfl

theorem set_length (l : List (Req α)) (i : Nat) (r : Req α) : (l.set i r).length = l.length := List.length_set

theorem sound_step {c : Shutdown.Config} {w w' : World α} {e : Event α} (h : step c w e = some w') (hw : Sound w) : Sound w' := by
  obtain ⟨-, hs⟩ := stepped_of_step h
  obtain ⟨h1, h2, h3⟩ := hw
  cases hs with
  | arrive u p =>
    refine ⟨?_, ?_, ?_⟩
    · intro i r hr
      dsimp only at hr
      by_cases hi : i < w.reqs.length
      · rw [List.getElem?_append_left hi] at hr
        exact h1 i r hr
      · rw [List.getElem?_append_right (by omega)] at hr
        cases hk : i - w.reqs.length with
        | zero =>
          rw [hk] at hr
          simp only [List.getElem?_cons_zero, Option.some.injEq] at hr
          subst hr
          refine ⟨by dsimp only; intro hu; rw [hu]; rfl, rfl, changesBy_none fun x hx => ?_⟩
          have := h3 x hx
          omega
        | succ k => rw [hk] at hr; simp at hr
    · intro x hx
      obtain ⟨r, hr, ha⟩ := h2 x hx
      refine ⟨r, ?_, ha⟩
      dsimp only
      rw [List.getElem?_append_left]
      · exact hr
      · exact (List.getElem?_eq_some_iff.1 hr).1
    · intro x hx
      have := h3 x hx
      simp only [List.length_append, List.length_cons, List.length_nil]
      omega
  | move i m r f hr hm =>
    have hi := (List.getElem?_eq_some_iff.1 hr).1
    have hold := h1 i r hr
    have hd : ∀ x ∈ w.adrift, x.1 = i → r.answer = some .cancelled := by
      intro x hx hxi
      obtain ⟨r', hr', ha⟩ := h2 x hx
      rw [hxi, hr] at hr'
      cases hr'
      exact ha
    refine ⟨?_, ?_, ?_⟩
    · intro j r' hr'
      rcases get_set _ _ _ _ _ hr' with ⟨rfl, rfl⟩ | ⟨hne, hj⟩
      · obtain ⟨hp, hst⟩ := hold
        refine ⟨?_, ?_⟩
        · cases hm <;> exact hp
        · cases hm <;> simp_all [put, changesBy_append, changesBy_self]
      · have hold' := h1 j r' hj
        have : changesBy j (put w i f).made = changesBy j w.made := by
          simp only [put, changesBy_append]
          cases f.change with
          | none => simp [changesBy]
          | some a => simp only [Option.toList_some, List.map_cons, List.map_nil]; rw [changesBy_other hne]; simp
        unfold Tracked at hold' ⊢
        rw [this]
        exact hold'
    · intro x hx
      simp only [put, List.mem_append] at hx
      rcases hx with hx | hx
      · by_cases hxi : x.1 = i
        · have ha := hd x hx hxi
          refine ⟨f.req, ?_, ?_⟩
          · simp only [put, hxi]; rw [List.getElem?_set_self hi]
          · cases hm <;> simp_all [Tracked]
        · obtain ⟨r', hr', ha⟩ := h2 x hx
          refine ⟨r', ?_, ha⟩
          simp only [put]
          rw [List.getElem?_set_ne (fun h => hxi h.symm)]
          exact hr'
      · refine ⟨f.req, ?_, ?_⟩
        · have : x.1 = i := by cases hl : f.left <;> simp_all
          simp only [put, this]; rw [List.getElem?_set_self hi]
        · cases hm <;> simp_all
    · intro x hx
      simp only [put, List.mem_append, List.length_set] at hx ⊢
      rcases hx with hx | hx
      · exact h3 x hx
      · cases hc : f.change <;> simp_all
  | late i a todo rest hl =>
    obtain ⟨r, hr, ha⟩ := h2 (i, a :: todo) (by rw [hl]; exact List.mem_cons_self)
    refine ⟨?_, ?_, ?_⟩
    · intro j r' hr'
      have hold := h1 j r' hr'
      by_cases hij : i = j
      · subst hij
        dsimp only at hr hr'
        rw [hr] at hr'
        cases hr'
        unfold Tracked at hold ⊢
        refine ⟨hold.1, ?_⟩
        have h' := hold.2
        cases hst : r.stage <;> rw [hst] at h' <;> simp_all
      · unfold Tracked at hold ⊢
        rw [changesBy_append, changesBy_other hij, List.append_nil]
        exact hold
    · intro x hx
      rcases List.mem_cons.1 hx with rfl | hx
      · exact ⟨r, hr, ha⟩
      · exact h2 x (by rw [hl]; exact List.mem_cons_of_mem _ hx)
    · intro x hx
      rcases List.mem_append.1 hx with hx | hx
      · exact h3 x hx
      · rw [List.mem_singleton] at hx
        subst hx
        exact (List.getElem?_eq_some_iff.1 hr).1
  | lateEnds i rest hl => exact ⟨h1, fun x hx => h2 x (by rw [hl]; exact List.mem_cons_of_mem _ hx), h3⟩
  | _ => exact ⟨h1, h2, h3⟩

theorem sound_start (c : Shutdown.Config) : Sound (start c : World α) := by
  refine ⟨by simp [start], by simp [start], by simp [start]⟩

theorem sound_run {c : Shutdown.Config} {es : List (Event α)} {w : World α} (h : run c (start c) es = some w) : Sound w :=
  run_keeps (P := Sound) (Q := fun _ => True) (fun _ _ _ _ hx hs => sound_step hs hx) es _ w (by simp) (sound_start c) h

/-- A request that was answered as done has made all its changes, once and in order; one that was told that the server
restarts has made none. -/
theorem C81_answers (c : Shutdown.Config) (es : List (Event α)) (w : World α) (h : run c (start c) es = some w) (i : Nat) (r : Req α)
    (hr : w.reqs[i]? = some r) :
    (r.answer = some .ok → changesBy i w.made = r.plan) ∧ (r.answer = some .restarting → changesBy i w.made = []) := by
  obtain ⟨-, ht⟩ := (sound_run h).reqs i r hr
  cases hst : r.stage <;> rw [hst] at ht <;> simp_all

/-! ### What is saved -/

/-- A shutdown in time has let all requests finish. -/
structure Quiet (w : World α) : Prop where
  adrift : w.adrift = []
  locks : w.phase ≠ .serving → w.phase ≠ .draining → ∀ (i : Nat) (r : Req α), w.reqs[i]? = some r → r.locked = false
  saved : w.phase = .closing ∨ w.phase = .ended → w.saved = some w.made
  cancelled : ∀ (i : Nat) (r : Req α), w.reqs[i]? = some r → r.answer = some .cancelled → changesBy i w.made = []

theorem quiet_step {c : Shutdown.Config} {w w' : World α} {e : Event α} (he : e ≠ .timeout) (he' : ∀ i, e ≠ .move i .abandon)
    (h : step c w e = some w') (hs : Sound w) (hq : Quiet w) : Quiet w' := by
  obtain ⟨hend, hst⟩ := stepped_of_step h
  obtain ⟨h1, h2, h3, h4⟩ := hq
  cases hst with
  | timeout => exact absurd rfl he
  | arrive u p =>
    have key : ∀ (i : Nat) (r : Req α), (w.reqs ++ [{ update := u, plan := if u then p else [] }])[i]? = some r →
        w.reqs[i]? = some r ∨ (r.answer = none ∧ r.locked = false) := by
      intro i r hr
      by_cases hi : i < w.reqs.length
      · rw [List.getElem?_append_left hi] at hr
        exact .inl hr
      · rw [List.getElem?_append_right (by omega)] at hr
        cases hk : i - w.reqs.length with
        | zero => rw [hk] at hr; simp only [List.getElem?_cons_zero, Option.some.injEq] at hr; subst hr; exact .inr ⟨rfl, rfl⟩
        | succ k => rw [hk] at hr; simp at hr
    refine ⟨h1, fun hp hp' i r hr => ?_, h3, fun i r hr ha => ?_⟩
    · rcases key i r hr with hr | hr
      · exact h2 hp hp' i r hr
      · exact hr.2
    · rcases key i r hr with hr | hr
      · exact h4 i r hr ha
      · rw [hr.1] at ha; cases ha
  | move i m r f hr hm =>
    have ht := hs.reqs i r hr
    have hlk := fun a b => h2 a b i r hr
    have hc4 := h4 i r hr
    have hne : m ≠ .abandon := fun hx => he' i (by rw [hx])
    have hsame : ∀ (j : Nat) (r' : Req α), i ≠ j → changesBy j (put w i f).made = changesBy j w.made := by
      intro j r' hij
      simp only [put, changesBy_append]
      cases f.change with
      | none => simp [changesBy]
      | some a => simp only [Option.toList_some, List.map_cons, List.map_nil]; rw [changesBy_other hij]; simp
    refine ⟨?_, ?_, ?_, ?_⟩
    · cases hm <;> simp_all [put]
    · intro hp hp' j r' hr'
      rcases get_set _ _ _ _ _ hr' with ⟨-, rfl⟩ | ⟨-, hj⟩
      · have := hlk hp hp'
        cases hm <;> simp_all [Req.locked, put]
      · exact h2 hp hp' j r' hj
    · intro hp
      have hp1 : w.phase ≠ .serving := by rintro hx; simp [put, hx] at hp
      have hp2 : w.phase ≠ .draining := by rintro hx; simp [put, hx] at hp
      have := hlk hp1 hp2
      have h3' := h3 hp
      cases hm <;> simp_all [Req.locked, put]
    · intro j r' hr' ha
      rcases get_set _ _ _ _ _ hr' with ⟨rfl, rfl⟩ | ⟨hij, hj⟩
      · cases hm <;> simp_all [put, Tracked]
      · rw [hsame j r' hij]
        exact h4 j r' hj ha
  | late i a todo rest hl => rw [h1] at hl; cases hl
  | lateEnds i rest hl => rw [h1] at hl; cases hl
  | tick hp => exact ⟨h1, h2, fun _ => rfl, h4⟩
  | signal hp => exact ⟨h1, by simp, by simp, h4⟩
  | announce hp ha => exact ⟨h1, h2, h3, h4⟩
  | drained hp ha hl => exact ⟨h1, fun _ _ i r hr => hl r (List.mem_of_getElem? hr), by simp, h4⟩
  | jobs hp => exact ⟨h1, fun _ _ => h2 (by simp [hp]) (by simp [hp]), by simp, h4⟩
  | saved hp => exact ⟨h1, fun _ _ => h2 (by simp [hp]) (by simp [hp]), fun _ => rfl, h4⟩
  | closed hp => exact ⟨h1, fun _ _ => h2 (by simp [hp]) (by simp [hp]), fun _ => h3 (.inl hp), h4⟩

theorem quiet_run {c : Shutdown.Config} {es : List (Event α)} {w : World α} (ht : InTime es) (hp : Patient es)
    (h : run c (start c) es = some w) : Quiet w :=
  (run_keeps (P := fun w => Sound w ∧ Quiet w) (Q := fun e => e ≠ .timeout ∧ ∀ i, e ≠ .move i .abandon)
    (fun _ _ _ he hx hs => ⟨sound_step hs hx.1, quiet_step he.1 he.2 hs hx.1 hx.2⟩) es _ w
    (fun e he => ⟨fun hx => ht (hx ▸ he), fun i hx => hp i (hx ▸ he)⟩)
    ⟨sound_start c, ⟨rfl, by simp [start], by simp [start], by simp [start]⟩⟩ h).2

/-- If no stage runs into its timeout and no client abandons a request for many lists, then when the stores are closed
nobody holds a lock, and the catalogue that was saved is the one in memory, then and later: it has all changes of all
requests that were ever answered as done, and none of those that were told that the server restarts or that they were
cancelled. -/
theorem C81_stop_partial (c : Shutdown.Config) (es : List (Event α)) (w : World α) (ht : InTime es) (hp : Patient es)
    (h : run c (start c) es = some w) (hw : w.phase = .closing ∨ w.phase = .ended) :
    w.saved = some w.made ∧ ∀ (i : Nat) (r : Req α), w.reqs[i]? = some r → r.locked = false ∧
      (r.answer = some .ok → changesBy i w.made = r.plan) ∧
      (r.answer = some .restarting ∨ r.answer = some .cancelled → changesBy i w.made = []) := by
  have hq := quiet_run ht hp h
  refine ⟨hq.saved hw, fun i r hr => ⟨hq.locks ?_ ?_ i r hr, (C81_answers c es w h i r hr).1, ?_⟩⟩
  · rcases hw with hw | hw <;> simp [hw]
  · rcases hw with hw | hw <;> simp [hw]
  · rintro (ha | ha)
    · exact (C81_answers c es w h i r hr).2 ha
    · exact hq.cancelled i r hr ha

/-- Everything that a handler does happens before the jobs are stopped: in the later stages no request makes a change. -/
theorem C81_changes_first (c : Shutdown.Config) (es fs : List (Event α)) (w w' : World α) (ht : InTime (es ++ fs)) (hp : Patient (es ++ fs))
    (h : run c (start c) es = some w) (hph : w.phase ≠ .serving ∧ w.phase ≠ .draining) (h' : run c w fs = some w') : w'.made = w.made := by
  have key : ∀ (gs : List (Event α)) (x : World α), (∀ e ∈ gs, e ≠ .timeout ∧ ∀ i, e ≠ .move i .abandon) → Sound x → Quiet x →
      x.phase ≠ .serving ∧ x.phase ≠ .draining → run c x gs = some w' → w'.made = x.made := by
    intro gs
    induction gs with
    | nil => intro x _ _ _ _ hx; simp only [run, Option.some.injEq] at hx; rw [hx]
    | cons e gs ih =>
      intro x he hs hq hx hr
      simp only [run] at hr
      cases hst : step c x e with
      | none => rw [hst] at hr; cases hr
      | some y =>
        rw [hst] at hr
        have hee := he e List.mem_cons_self
        have hph' : y.phase ≠ .serving ∧ y.phase ≠ .draining := by
          refine ⟨serving_step hst hx.1, ?_⟩
          obtain ⟨-, hss⟩ := stepped_of_step hst
          cases hss <;> simp_all [put]
        rw [ih y (fun e h => he e (List.mem_cons_of_mem _ h)) (sound_step hst hs) (quiet_step hee.1 hee.2 hst hs hq) hph' hr]
        obtain ⟨-, hss⟩ := stepped_of_step hst
        cases hss with
        | move i m r f hi hm =>
          have := hq.locks hx.1 hx.2 i r hi
          cases hm <;> simp_all [Req.locked, put]
        | late i a todo rest hl => rw [hq.adrift] at hl; cases hl
        | _ => rfl
  refine key fs w (fun e he => ⟨fun hx => ht (hx ▸ List.mem_append_right _ he), fun i hx => hp i (hx ▸ List.mem_append_right _ he)⟩)
    (sound_run h) (quiet_run (fun hm => ht (List.mem_append_left _ hm)) (fun i hm => hp i (List.mem_append_left _ hm)) h) hph h'

/-! ### The shutdown ends -/

/-- The steps that a request can still take. -/
def reqSteps (r : Req α) : Nat :=
  match r.stage with
  | .entering => 2 * r.plan.length + 8
  | .gate => 2 * r.plan.length + 7
  | .working todo => 2 * todo.length + 5
  | .returning => 2
  | .leaving => 1
  | .gone => 0

def phaseSteps : Phase → Nat
  | .serving => 5
  | .draining => 4
  | .jobs => 3
  | .saving => 2
  | .closing => 1
  | .ended => 0

/-- The steps that the server can still take if no request arrives and it does not save at intervals. -/
def worldSteps (w : World α) : Nat :=
  (w.reqs.map reqSteps).sum + phaseSteps w.phase + (!w.announced).toNat + (w.adrift.map fun x => x.2.length + 1).sum

theorem sum_set (l : List (Req α)) (i : Nat) (r r' : Req α) (h : l[i]? = some r) :
    ((l.set i r').map reqSteps).sum + reqSteps r = (l.map reqSteps).sum + reqSteps r' := by
  induction l generalizing i with
  | nil => simp at h
  | cons x l ih =>
    cases i with
    | zero =>
      simp only [List.getElem?_cons_zero, Option.some.injEq] at h
      subst h
      simp only [List.set_cons_zero, List.map_cons, List.sum_cons]
      omega
    | succ i =>
      simp only [List.getElem?_cons_succ] at h
      simp only [List.set_cons_succ, List.map_cons, List.sum_cons]
      have := ih i h
      omega

theorem steps_decrease {c : Shutdown.Config} {w w' : World α} {e : Event α} (he : (∀ u p, e ≠ .arrive u p) ∧ e ≠ .tick)
    (h : step c w e = some w') : worldSteps w' < worldSteps w := by
  obtain ⟨hend, hs⟩ := stepped_of_step h
  cases hs with
  | arrive u p => exact absurd rfl (he.1 u p)
  | tick => exact absurd rfl he.2
  | move i m r f hr hm =>
    have := sum_set w.reqs i r f.req hr
    unfold worldSteps
    simp only [put, List.map_append, List.sum_append]
    cases hm <;> simp_all [reqSteps] <;> omega
  | timeout hp => cases hph : w.phase <;> simp_all [worldSteps, Phase.next, phaseSteps]
  | _ => simp_all [worldSteps, phaseSteps] <;> omega

/-- Whatever is going on, without new requests only finitely many steps are left: nothing goes round in circles. -/
theorem C81_bounded (c : Shutdown.Config) (w : World α) :
    ∃ n, ∀ (es : List (Event α)) (w' : World α), Inner es → run c w es = some w' → es.length ≤ n := by
  refine ⟨worldSteps w, fun es => ?_⟩
  induction es generalizing w with
  | nil => intro w' _ _; exact Nat.zero_le _
  | cons e es ih =>
    intro w' hi h
    simp only [run] at h
    cases hw : step c w e with
    | none => rw [hw] at h; cases h
    | some w1 =>
      rw [hw] at h
      have h1 := ih w1 w' (fun e he => hi e (List.mem_cons_of_mem _ he)) h
      have h2 := steps_decrease (hi e List.mem_cons_self) hw
      simp only [List.length_cons]
      omega

/-- The events of a shutdown that goes well: no timeout, and no request fails or is cancelled. -/
def Smooth (e : Event α) : Prop :=
  (∀ u p, e ≠ .arrive u p) ∧ e ≠ .tick ∧ e ≠ .timeout ∧ ∀ i, e ≠ .move i .abandon ∧ e ≠ .move i .fail ∧ e ≠ .move i .cancel

theorem smooth_move (i : Nat) (m : Move) (h : m ≠ .abandon ∧ m ≠ .fail ∧ m ≠ .cancel) : Smooth (.move i m : Event α) := by
  refine ⟨by simp, by simp, by simp, fun j => ⟨?_, ?_, ?_⟩⟩ <;> intro hx <;> injection hx <;> simp_all

/-- A request that holds a lock can go on if a shutdown was announced. -/
theorem locked_moves (c : Shutdown.Config) (w : World α) (i : Nat) (r : Req α) (hr : w.reqs[i]? = some r) (hl : r.locked = true)
    (ha : w.announced = true) (hp : w.phase ≠ .ended) : ∃ e, Smooth e ∧ ∃ w', step c w e = some w' := by
  have key : ∀ m f, (m ≠ Move.abandon ∧ m ≠ .fail ∧ m ≠ .cancel) → move c w r m = some f → ∃ e, Smooth e ∧ ∃ w', step c w e = some w' := by
    intro m f hm hf
    refine ⟨.move i m, smooth_move i m hm, put w i f, ?_⟩
    unfold step
    rw [if_neg hp]
    simp only [hr, hf, Option.map_some]
  unfold Req.locked at hl
  cases hst : r.stage with
  | entering => rw [hst] at hl; cases hl
  | gone => rw [hst] at hl; cases hl
  | gate =>
    cases hc : c.limit with
    | none => exact key .take _ (by simp) (by simp only [move, hst, hc]; rfl)
    | some n => exact key .refuse _ (by simp) (by simp only [move, hst, hc, ha]; rfl)
  | working todo =>
    cases todo with
    | nil => exact key .answer _ (by simp) (by simp only [move, hst]; rfl)
    | cons a todo => exact key .change _ (by simp) (by simp only [move, hst]; rfl)
  | returning => exact key .release _ (by simp) (by simp only [move, hst]; rfl)
  | leaving => exact key .unlock _ (by simp) (by simp only [move, hst]; rfl)

/-- A shutdown never hangs: until the process has ended there is always something that can happen, without a timeout and
without that a request has to fail. Updates that wait for a token are refused. With `C81_bounded`, a shutdown ends. -/
theorem C81_never_hangs (c : Shutdown.Config) (w : World α) (hp : w.phase ≠ .serving) (hp' : w.phase ≠ .ended) :
    ∃ e, Smooth e ∧ ∃ w', step c w e = some w' := by
  have adv : ∀ w', advance w = some w' → ∃ e, Smooth e ∧ ∃ w', step c w e = some w' := by
    intro w' h
    refine ⟨.advance, ⟨by simp, by simp, by simp, by simp⟩, w', ?_⟩
    unfold step
    rw [if_neg hp']
    exact h
  cases hph : w.phase with
  | serving => exact absurd hph hp
  | ended => exact absurd hph hp'
  | jobs => exact adv { w with phase := .saving } (by simp [advance, hph])
  | saving => exact adv { w with phase := .closing, saved := some w.made } (by simp [advance, hph])
  | closing => exact adv { w with phase := .ended } (by simp [advance, hph])
  | draining =>
    cases ha : w.announced with
    | false =>
      refine ⟨.announce, ⟨by simp, by simp, by simp, by simp⟩, { w with announced := true }, ?_⟩
      unfold step
      rw [if_neg hp']
      simp [hph, ha]
    | true =>
      by_cases hl : ∃ (i : Nat) (r : Req α), w.reqs[i]? = some r ∧ r.locked = true
      · obtain ⟨i, r, hr, hl⟩ := hl
        exact locked_moves c w i r hr hl ha hp'
      · refine adv { w with phase := .jobs } ?_
        simp only [advance, hph, ha, Bool.true_and]
        rw [if_pos]
        rw [List.all_eq_true]
        intro r hr
        obtain ⟨i, hi⟩ := List.getElem?_of_mem hr
        cases hx : r.locked with
        | false => rfl
        | true => exact absurd ⟨i, r, hi, hx⟩ hl

/-- So from any moment a shutdown can end without a timeout. -/
theorem C81_can_end (c : Shutdown.Config) (w : World α) (hp : w.phase ≠ .serving) :
    ∃ es w', (∀ e ∈ es, Smooth e) ∧ run c w es = some w' ∧ w'.phase = .ended := by
  obtain ⟨n, hn⟩ : ∃ n, worldSteps w < n := ⟨_, Nat.lt_succ_self _⟩
  induction n generalizing w with
  | zero => omega
  | succ n ih =>
    by_cases hp' : w.phase = .ended
    · exact ⟨[], w, by simp, rfl, hp'⟩
    · obtain ⟨e, he, w1, hw1⟩ := C81_never_hangs c w hp hp'
      have hd := steps_decrease ⟨he.1, he.2.1⟩ hw1
      obtain ⟨es, w', h1, h2, h3⟩ := ih w1 (serving_step hw1 hp) (by omega)
      refine ⟨e :: es, w', ?_, ?_, h3⟩
      · intro x hx
        rcases List.mem_cons.1 hx with rfl | hx
        · exact he
        · exact h1 x hx
      · simp only [run, hw1]
        exact h2

/-- An update that waits while the server runs waits only for others that are handled: either there is a token for it, or
`MaxUpdates` updates have one, and each of them can go on. -/
theorem C81_waits_for_work (c : Shutdown.Config) (n : Nat) (hc : c.limit = some n) (es : List (Event α)) (w : World α)
    (h : run c (start c) es = some w) (hp : w.phase ≠ .ended) (i : Nat) (r : Req α) (hr : w.reqs[i]? = some r) (hg : r.stage = .gate) :
    (∃ w', step c w (.move i .take) = some w') ∨
    ((w.reqs.filter Req.admitted).length = n ∧
      ∀ (j : Nat) (x : Req α), w.reqs[j]? = some x → x.admitted = true → ∃ m w', m ∈ [Move.change, .answer, .release] ∧ step c w (.move j m) = some w') := by
  have hl := C81_limit c n hc es w h
  by_cases hf : 0 < w.free
  · refine .inl ⟨put w i { req := { r with stage := .working r.plan }, free := w.free - 1 }, ?_⟩
    unfold step
    rw [if_neg hp]
    simp only [hr, move, hg, hc, if_pos hf, Option.map_some]
  · refine .inr ⟨by omega, fun j x hx ha => ?_⟩
    have key : ∀ m f, m ∈ [Move.change, .answer, .release] → move c w x m = some f →
        ∃ m w', m ∈ [Move.change, .answer, .release] ∧ step c w (.move j m) = some w' := by
      intro m f hm hf
      refine ⟨m, put w j f, hm, ?_⟩
      unfold step
      rw [if_neg hp]
      simp only [hx, hf, Option.map_some]
    unfold Req.admitted at ha
    cases hst : x.stage with
    | working todo =>
      cases todo with
      | nil => exact key .answer _ (by simp) (by simp only [move, hst]; rfl)
      | cons a todo => exact key .change _ (by simp) (by simp only [move, hst]; rfl)
    | returning => exact key .release _ (by simp) (by simp only [move, hst]; rfl)
    | _ => simp [hst] at ha

/-! ### Where the claim is false -/

/-- One update with one change, let in. -/
def oneUpdate (a : α) : List (Event α) := [.arrive true [a], .move 0 .lock, .move 0 .take]

/-- If the handling of a request takes longer than `ShutdownRequestWait`, the catalogue is saved without it, and it is
answered as done nevertheless: its change is lost. -/
theorem C81_timeout_loses (c : Shutdown.Config) (hc : c.limit ≠ some 0) (a : α) :
    ∃ w, run c (start c) (oneUpdate a ++ [.signal, .announce, .timeout, .advance, .advance, .move 0 .change, .move 0 .answer, .advance]) = some w ∧
      w.phase = .ended ∧ (w.reqs[0]?.bind (·.answer)) = some .ok ∧ w.made = [(0, a)] ∧ w.saved = some [] := by
  obtain ⟨l⟩ := c
  cases l with
  | none => refine ⟨_, rfl, rfl, rfl, rfl, rfl⟩
  | some n =>
    cases n with
    | zero => exact absurd rfl hc
    | succ n => refine ⟨_, rfl, rfl, rfl, rfl, rfl⟩

/-- If a client cancels a request for many lists, the goroutines that were started for some of them go on without a lock
and without a token. They change lists after the catalogue was saved and while the stores are being closed, although no
stage ran into its timeout. -/
theorem C81_abandoned (c : Shutdown.Config) (hc : c.limit ≠ some 0) (a : α) :
    ∃ w, run c (start c) (oneUpdate a ++ [.move 0 .abandon, .move 0 .release, .move 0 .unlock, .signal, .announce, .advance, .advance,
        .advance, .late]) = some w ∧
      w.phase = .closing ∧ w.made = [(0, a)] ∧ w.saved = some [] := by
  obtain ⟨l⟩ := c
  cases l with
  | none => refine ⟨_, rfl, rfl, rfl, rfl⟩
  | some n =>
    cases n with
    | zero => exact absurd rfl hc
    | succ n => refine ⟨_, rfl, rfl, rfl, rfl⟩

/-- A run of a server with one token: request 0 is handled, request 1 waits, the server is told to stop, request 2 comes too
late. Request 0 is answered as done and is saved, the others are refused. -/
def stopTest : List (Event Nat) :=
  [.arrive true [10, 11], .move 0 .lock, .move 0 .take, .move 0 .change, .arrive true [20], .move 1 .lock, .tick, .signal,
   .arrive true [30], .move 2 .lock, .announce, .move 1 .refuse, .move 0 .change, .move 1 .unlock, .move 0 .answer, .move 0 .release,
   .move 0 .unlock, .advance, .advance, .advance, .advance]

example : (run ⟨some 1⟩ (start ⟨some 1⟩) stopTest).map (fun w => (w.phase, w.saved, w.reqs.map (·.answer), w.free)) =
    some (.ended, some [(0, 10), (0, 11)], [some .ok, some .restarting, some .restarting], 1) := rfl

example : InTime stopTest ∧ Patient stopTest := by
  refine ⟨fun h => ?_, fun i h => ?_⟩ <;> simp [stopTest] at h

/-- Request 1 cannot be handled before request 0 has returned its token. -/
example : run ⟨some 1⟩ (start ⟨some 1⟩) (stopTest.take 6 ++ [.move 1 .take]) = none := by decide +kernel

end RankDB.Props

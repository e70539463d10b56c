import Verif.Model.FanOut
/-
Property C50: fan-out and error collection, for any number of goroutines, every interleaving and every
moment of cancellation.
-/
namespace RankDB
namespace FanOut

/-- Whether a goroutine with this rest of its program has a token. -/
def holds : List Act → Bool
  | [] => false
  | .get :: _ => false
  | .put :: _ => true
  | _ :: p => holds p

theorem holds_of_wf {h : Bool} {p : List Act} (hw : wellFormed h p = true) : holds p = h := by
  induction p with
  | nil => simp [wellFormed] at hw; simp [holds, hw]
  | cons a p ih =>
    cases a <;> simp [wellFormed] at hw <;> simp [holds, hw]
    · exact ih hw.1
    · exact ih hw.1.1
    · exact ih hw.1

/-- Number of programs with a property. -/
abbrev cnt (q : List Act → Bool) (s : State) : Nat := s.workers.countP q

def resultsLeft (ws : List (List Act)) : Nat := (ws.map (List.count .result)).sum

def errorsLeft (ws : List (List Act)) : List Nat := ws.flatMap errorsOf

structure Inv (progs : List (List Act)) (s : State) : Prop where
  wf : ∀ p ∈ s.workers, ∃ h, wellFormed h p = true
  tokens : s.avail + s.workers.countP holds = s.tokens
  wg : s.wg = s.workers.countP (List.contains · .done)
  closed : s.closed = true → s.wg = 0
  results : s.results + resultsLeft s.workers ≤ s.resCap
  returned : ∀ r, s.main = .returned r → s.closed = true ∧ s.errBuf = []
  collecting : ∀ es, s.main = .collecting es → es ++ s.errBuf = s.sent
  retNil : s.main = .returned .nil → s.sent = []
  retErr : ∀ es, s.main = .returned (.errors es) → es = s.sent ∧ es ≠ []
  retCtx : s.main = .returned .ctxErr → s.cancelled = true
  flushing : s.main = .flushing → s.cancelled = true
  sent : (s.sent ++ errorsLeft s.workers).Perm (errorsLeft progs)

theorem noSend_of_closed {h : Bool} {p : List Act} (hw : wellFormed h p = true) (hd : p.contains .done = false) :
    errorsOf p = [] ∧ p.count .result = 0 := by
  induction p generalizing h with
  | nil => simp [errorsOf]
  | cons a p ih =>
    simp only [List.contains_cons, Bool.or_eq_false_iff] at hd
    cases a with
    | get =>
      simp only [wellFormed, Bool.and_eq_true] at hw
      obtain ⟨h1, h2⟩ := ih hw.2 hd.2
      exact ⟨by simpa [errorsOf] using h1, by rw [List.count_cons_of_ne (by simp)]; exact h2⟩
    | put =>
      simp only [wellFormed, Bool.and_eq_true] at hw
      obtain ⟨h1, h2⟩ := ih hw.2 hd.2
      exact ⟨by simpa [errorsOf] using h1, by rw [List.count_cons_of_ne (by simp)]; exact h2⟩
    | send e =>
      simp only [wellFormed, Bool.and_eq_true] at hw
      rw [hw.2] at hd; simp at hd
    | result =>
      simp only [wellFormed, Bool.and_eq_true] at hw
      rw [hw.1.2] at hd; simp at hd
    | done => simp at hd

theorem wf_tail {h : Bool} {a : Act} {p : List Act} (hw : wellFormed h (a :: p) = true) : ∃ h', wellFormed h' p = true := by
  cases a <;> simp [wellFormed] at hw
  · exact ⟨_, hw.2⟩
  · exact ⟨_, hw.2⟩
  · exact ⟨_, hw.1⟩
  · exact ⟨_, hw.1.1⟩
  · exact ⟨_, hw.1⟩

theorem wf_replace {pre post : List (List Act)} {a : Act} {p : List Act}
    (h : ∀ q ∈ pre ++ (a :: p) :: post, ∃ h, wellFormed h q = true) :
    ∀ q ∈ pre ++ p :: post, ∃ h, wellFormed h q = true := by
  intro q hq
  simp only [List.mem_append, List.mem_cons] at hq
  rcases hq with hq | rfl | hq
  · exact h q (by simp [hq])
  · obtain ⟨b, hb⟩ := h (a :: q) (by simp)
    exact wf_tail hb
  · exact h q (by simp [hq])

theorem countP_split (q : List Act → Bool) (pre post : List (List Act)) (p : List Act) :
    (pre ++ p :: post).countP q = pre.countP q + (if q p then 1 else 0) + post.countP q := by
  rw [List.countP_append, List.countP_cons]
  omega

theorem resultsLeft_split (pre post : List (List Act)) (p : List Act) :
    resultsLeft (pre ++ p :: post) = resultsLeft pre + p.count .result + resultsLeft post := by
  simp only [resultsLeft, List.map_append, List.map_cons, List.sum_append, List.sum_cons]
  omega

theorem errorsLeft_split (pre post : List (List Act)) (p : List Act) :
    errorsLeft (pre ++ p :: post) = errorsLeft pre ++ errorsOf p ++ errorsLeft post := by
  simp [errorsLeft, List.flatMap_append, List.flatMap_cons]

theorem sent_perm {pre post : List (List Act)} {p : List Act} {e : Nat} {sent : List Nat} {all : List Nat}
    (h : (sent ++ errorsLeft (pre ++ (.send e :: p) :: post)).Perm all) :
    (sent ++ [e] ++ errorsLeft (pre ++ p :: post)).Perm all := by
  refine List.Perm.trans ?_ h
  rw [errorsLeft_split, errorsLeft_split, List.append_assoc]
  refine List.Perm.append_left sent ?_
  have : errorsOf (.send e :: p) = e :: errorsOf p := rfl
  rw [this]
  simp only [List.append_assoc, List.cons_append, List.nil_append]
  exact List.perm_middle.symm

/-- The parts of the invariant about one goroutine moving on. -/
theorem inv_init {progs : List (List Act)} {tokens errCap resCap : Nat}
    (hw : ∀ p ∈ progs, wellFormed false p = true ∧ p.contains .done = true)
    (hr : resultsLeft progs ≤ resCap) : Inv progs (init progs tokens errCap resCap) := by
  refine ⟨fun p hp => ⟨false, (hw p hp).1⟩, ?_, ?_, ?_, ?_, ?_, ?_, ?_, ?_, ?_, ?_, ?_⟩
  · show tokens + progs.countP holds = tokens
    rw [List.countP_eq_zero.2]
    · rfl
    · intro p hp
      rw [holds_of_wf (hw p hp).1]; simp
  · show progs.length = _
    exact (List.countP_eq_length.2 fun p hp => (hw p hp).2).symm
  · intro h; simp [init] at h
  · show 0 + resultsLeft progs ≤ resCap
    omega
  · intro r h; simp [init] at h
  · intro es h; simp [init] at h; subst h; simp [init]
  · intro h; simp [init] at h
  · intro es h; simp [init] at h
  · intro h; simp [init] at h
  · intro h; simp [init] at h
  · simp [init]

theorem inv_step {progs : List (List Act)} {s s' : State} (hi : Inv progs s) (h : Step s s') : Inv progs s' := by
  obtain ⟨wf, tok, wg, cl, res, ret, col, rn, re, rc, fl, se⟩ := hi
  cases h with
  | get pre p post h ha =>
    rw [h] at wf tok wg res se
    rw [countP_split] at tok wg
    rw [resultsLeft_split] at res
    refine ⟨wf_replace wf, ?_, ?_, cl, ?_, ret, col, rn, re, rc, fl, ?_⟩
    · obtain ⟨b, hb⟩ := wf (.get :: p) (by simp)
      simp only [wellFormed, Bool.and_eq_true] at hb
      show s.avail - 1 + List.countP holds (pre ++ p :: post) = s.tokens
      rw [countP_split, if_pos (holds_of_wf hb.2)]
      rw [if_neg (by simp [holds])] at tok
      omega
    · show s.wg = List.countP _ (pre ++ p :: post)
      rw [wg, countP_split]
      simp
    · show s.results + resultsLeft (pre ++ p :: post) ≤ s.resCap
      rw [resultsLeft_split]
      rw [List.count_cons_of_ne (by simp)] at res
      exact res
    · show (s.sent ++ errorsLeft (pre ++ p :: post)).Perm _
      rw [errorsLeft_split] at se ⊢
      exact se
  | put pre p post h ha =>
    rw [h] at wf tok wg res se
    rw [countP_split] at tok wg
    rw [resultsLeft_split] at res
    refine ⟨wf_replace wf, ?_, ?_, cl, ?_, ret, col, rn, re, rc, fl, ?_⟩
    · obtain ⟨b, hb⟩ := wf (.put :: p) (by simp)
      simp only [wellFormed, Bool.and_eq_true] at hb
      show s.avail + 1 + List.countP holds (pre ++ p :: post) = s.tokens
      rw [countP_split, if_neg (by rw [holds_of_wf hb.2]; simp)]
      rw [if_pos (by simp [holds])] at tok
      omega
    · show s.wg = List.countP _ (pre ++ p :: post)
      rw [wg, countP_split]
      simp
    · show s.results + resultsLeft (pre ++ p :: post) ≤ s.resCap
      rw [resultsLeft_split]
      rw [List.count_cons_of_ne (by simp)] at res
      exact res
    · show (s.sent ++ errorsLeft (pre ++ p :: post)).Perm _
      rw [errorsLeft_split] at se ⊢
      exact se
  | result pre p post h ha =>
    rw [h] at wf tok wg res se
    rw [countP_split] at tok wg
    rw [resultsLeft_split] at res
    refine ⟨wf_replace wf, ?_, ?_, cl, ?_, ret, col, rn, re, rc, fl, ?_⟩
    · show s.avail + List.countP holds (pre ++ p :: post) = s.tokens
      rw [countP_split]
      exact tok
    · show s.wg = List.countP _ (pre ++ p :: post)
      rw [wg, countP_split]
      simp
    · show s.results + 1 + resultsLeft (pre ++ p :: post) ≤ s.resCap
      rw [resultsLeft_split]
      rw [List.count_cons_self] at res
      omega
    · show (s.sent ++ errorsLeft (pre ++ p :: post)).Perm _
      rw [errorsLeft_split] at se ⊢
      exact se
  | send pre p post e h ha =>
    rw [h] at wf tok wg res se
    rw [countP_split] at tok wg
    rw [resultsLeft_split] at res
    have hnc : s.closed = false := by
      apply Decidable.byContradiction
      intro hc
      have := cl (by simpa using hc)
      obtain ⟨b, hb⟩ := wf (.send e :: p) (by simp)
      simp only [wellFormed, Bool.and_eq_true] at hb
      rw [if_pos (by rw [List.contains_cons, hb.2]; simp)] at wg
      omega
    have hnr : ∀ r, s.main ≠ .returned r := fun r hr => by
      have := (ret r hr).1; rw [hnc] at this; simp at this
    refine ⟨wf_replace wf, ?_, ?_, cl, ?_, ?_, ?_, ?_, ?_, ?_, fl, ?_⟩
    · show s.avail + List.countP holds (pre ++ p :: post) = s.tokens
      rw [countP_split]
      exact tok
    · show s.wg = List.countP _ (pre ++ p :: post)
      rw [wg, countP_split]
      simp
    · show s.results + resultsLeft (pre ++ p :: post) ≤ s.resCap
      rw [resultsLeft_split]
      rw [List.count_cons_of_ne (by simp)] at res
      exact res
    · intro r hr; exact absurd hr (hnr r)
    · intro es hes
      show es ++ (s.errBuf ++ [e]) = s.sent ++ [e]
      rw [← List.append_assoc, col es hes]
    · intro hr; exact absurd hr (hnr _)
    · intro es hr; exact absurd hr (hnr _)
    · intro hr; exact absurd hr (hnr _)
    · exact sent_perm se
  | handover pre p post e m h ha hm =>
    rw [h] at wf tok wg res se
    rw [countP_split] at tok wg
    rw [resultsLeft_split] at res
    have hnr : ∀ r, m ≠ .returned r := by
      intro r hr
      subst hr
      cases hmm : s.main <;> rw [hmm] at hm <;> simp [Main.take] at hm
    refine ⟨wf_replace wf, ?_, ?_, cl, ?_, ?_, ?_, ?_, ?_, ?_, ?_, ?_⟩
    · show s.avail + List.countP holds (pre ++ p :: post) = s.tokens
      rw [countP_split]
      exact tok
    · show s.wg = List.countP _ (pre ++ p :: post)
      rw [wg, countP_split]
      simp
    · show s.results + resultsLeft (pre ++ p :: post) ≤ s.resCap
      rw [resultsLeft_split]
      rw [List.count_cons_of_ne (by simp)] at res
      exact res
    · intro r hr; exact absurd hr (hnr r)
    · intro es hes
      have hes : m = .collecting es := hes
      show es ++ s.errBuf = s.sent ++ [e]
      cases hmm : s.main with
      | collecting es0 =>
        rw [hmm] at hm
        simp only [Main.take, Option.some.injEq] at hm
        rw [hes] at hm
        injection hm with hm
        rw [← col es0 hmm, ha, ← hm]
        simp
      | flushing => rw [hmm, hes] at hm; simp [Main.take] at hm
      | returned r => rw [hmm] at hm; simp [Main.take] at hm
    · intro hr; exact absurd hr (hnr _)
    · intro es hr; exact absurd hr (hnr _)
    · intro hr; exact absurd hr (hnr _)
    · intro hf
      have hf : m = .flushing := hf
      cases hmm : s.main with
      | collecting es0 => rw [hmm, hf] at hm; simp [Main.take] at hm
      | flushing => exact fl hmm
      | returned r => rw [hmm] at hm; simp [Main.take] at hm
    · exact sent_perm se
  | done pre p post h =>
    rw [h] at wf tok wg res se
    rw [countP_split] at tok wg
    rw [resultsLeft_split] at res
    obtain ⟨b, hb⟩ := wf (.done :: p) (by simp)
    simp only [wellFormed, Bool.and_eq_true, List.all_eq_true] at hb
    have hno : p.contains Act.done = false := by
      apply Decidable.byContradiction
      intro hc
      have := hb.2 .done (by simpa using hc)
      simp at this
    rw [if_pos (by simp)] at wg
    refine ⟨wf_replace wf, ?_, ?_, ?_, ?_, ret, col, rn, re, rc, fl, ?_⟩
    · show s.avail + List.countP holds (pre ++ p :: post) = s.tokens
      rw [countP_split]
      exact tok
    · show s.wg - 1 = List.countP _ (pre ++ p :: post)
      rw [countP_split, if_neg (by simpa using hno)]
      omega
    · intro hc
      have := cl hc
      omega
    · show s.results + resultsLeft (pre ++ p :: post) ≤ s.resCap
      rw [resultsLeft_split]
      rw [List.count_cons_of_ne (by simp)] at res
      exact res
    · show (s.sent ++ errorsLeft (pre ++ p :: post)).Perm _
      rw [errorsLeft_split] at se ⊢
      exact se
  | close h hc =>
    exact ⟨wf, tok, wg, fun _ => h, res, fun r hr => ⟨rfl, (ret r hr).2⟩, col, rn, re, rc, fl, se⟩
  | recv e b m h hm =>
    have hnr : ∀ r, m ≠ .returned r := by
      intro r hr
      subst hr
      cases hmm : s.main <;> rw [hmm] at hm <;> simp [Main.take] at hm
    refine ⟨wf, tok, wg, cl, res, ?_, ?_, ?_, ?_, ?_, ?_, se⟩
    · intro r hr; exact absurd hr (hnr r)
    · intro es hes
      have hes : m = .collecting es := hes
      show es ++ b = s.sent
      cases hmm : s.main with
      | collecting es0 =>
        rw [hmm] at hm
        simp only [Main.take, Option.some.injEq] at hm
        rw [hes] at hm
        injection hm with hm
        rw [← col es0 hmm, h, ← hm]
        simp
      | flushing => rw [hmm, hes] at hm; simp [Main.take] at hm
      | returned r => rw [hmm] at hm; simp [Main.take] at hm
    · intro hr; exact absurd hr (hnr _)
    · intro es hr; exact absurd hr (hnr _)
    · intro hr; exact absurd hr (hnr _)
    · intro hf
      have hf : m = .flushing := hf
      cases hmm : s.main with
      | collecting es0 => rw [hmm, hf] at hm; simp [Main.take] at hm
      | flushing => exact fl hmm
      | returned r => rw [hmm] at hm; simp [Main.take] at hm
  | finish m h hc hm =>
    cases hmm : s.main with
    | collecting es0 =>
      rw [hmm] at hm
      simp only [Main.finish, Option.some.injEq] at hm
      subst hm
      have hs := col es0 hmm
      rw [h, List.append_nil] at hs
      refine ⟨wf, tok, wg, cl, res, fun r _ => ⟨hc, h⟩, by simp, ?_, ?_, ?_, by simp, se⟩
      · intro hr
        injection hr with hr
        split at hr
        · rename_i he; show s.sent = []; rw [← hs]; exact he
        · simp at hr
      · intro es hr
        injection hr with hr
        split at hr
        · simp at hr
        · rename_i he
          injection hr with hr
          subst hr
          exact ⟨hs, he⟩
      · intro hr
        injection hr with hr
        split at hr <;> simp at hr
    | flushing =>
      rw [hmm] at hm
      simp only [Main.finish, Option.some.injEq] at hm
      subst hm
      exact ⟨wf, tok, wg, cl, res, fun r _ => ⟨hc, h⟩, by simp, by simp, by simp, fun _ => fl hmm, by simp, se⟩
    | returned r => rw [hmm] at hm; simp [Main.finish] at hm
  | seeCancel es h hc =>
    refine ⟨wf, tok, wg, cl, res, ?_, ?_, ?_, ?_, ?_, fun _ => hc, se⟩ <;> simp

theorem inv_cancel {progs : List (List Act)} {s s' : State} (hi : Inv progs s) (h : Cancel s s') : Inv progs s' := by
  obtain ⟨wf, tok, wg, cl, res, ret, col, rn, re, rc, fl, se⟩ := hi
  cases h
  exact ⟨wf, tok, wg, cl, res, ret, col, rn, re, fun _ => rfl, fun _ => rfl, se⟩

theorem inv_exec {progs : List (List Act)} {s s' : State} {n : Nat} (hi : Inv progs s) (h : Exec n s s') :
    Inv progs s' := by
  induction h with
  | refl s => exact hi
  | step h hs ih => exact inv_step (ih hi) hs
  | cancel h hs ih => exact inv_cancel (ih hi) hs

def closeWork : Bool → Nat
  | true => 0
  | false => 1

def mainWork : Main → Nat
  | .collecting _ => 2
  | .flushing => 1
  | .returned _ => 0

/-- The amount of work left. -/
def work (s : State) : Nat :=
  2 * (s.workers.map List.length).sum + s.errBuf.length + closeWork s.closed + mainWork s.main

theorem work_step {s s' : State} (h : Step s s') : work s' < work s := by
  have hsum : ∀ (pre post : List (List Act)) (p : List Act),
      ((pre ++ p :: post).map List.length).sum = (pre.map List.length).sum + p.length + (post.map List.length).sum := by
    intro pre post p
    simp only [List.map_append, List.map_cons, List.sum_append, List.sum_cons]
    omega
  cases h with
  | get pre p post h ha | put pre p post h ha | result pre p post h ha | done pre p post h =>
    unfold work
    rw [h]
    simp only [State.at, hsum, List.length_cons]
    omega
  | send pre p post e h ha =>
    unfold work
    rw [h]
    simp only [State.at, hsum, List.length_cons, List.length_append, List.length_nil]
    omega
  | handover pre p post e m h ha hm =>
    unfold work
    rw [h]
    simp only [State.at, hsum, List.length_cons]
    cases hmm : s.main <;> rw [hmm] at hm <;> simp [Main.take] at hm <;> subst hm <;> simp only [mainWork] <;> omega
  | close h hc =>
    unfold work
    rw [hc]
    simp only [closeWork]
    omega
  | recv e b m h hm =>
    unfold work
    rw [h]
    simp only [List.length_cons]
    cases hmm : s.main <;> rw [hmm] at hm <;> simp [Main.take] at hm <;> subst hm <;> simp only [mainWork] <;> omega
  | finish m h hc hm =>
    unfold work
    cases hmm : s.main <;> rw [hmm] at hm <;> simp [Main.finish] at hm <;> subst hm <;> simp only [mainWork] <;> omega
  | seeCancel es h hc =>
    unfold work
    rw [h]
    simp only [mainWork]
    omega

theorem work_exec {s s' : State} {n : Nat} (h : Exec n s s') : n + work s' ≤ work s := by
  induction h with
  | refl s => omega
  | step h hs ih => have := work_step hs; omega
  | cancel h hs ih =>
    cases hs
    exact ih

/-- A goroutine that does not wait for a token can move, if the caller is there to take errors or there is
nothing left to send. -/
theorem worker_moves {progs : List (List Act)} {s : State} (hi : Inv progs s) {p : List Act} (hp : p ∈ s.workers)
    (hne : p ≠ []) (hg : p.head? ≠ some .get)
    (hm : (s.errBuf = [] ∧ ∀ r, s.main ≠ .returned r) ∨ p.contains .done = false) : ∃ s', Step s s' := by
  obtain ⟨pre, post, hsp⟩ := List.append_of_mem hp
  obtain ⟨b, hb⟩ := hi.wf p hp
  cases p with
  | nil => exact absurd rfl hne
  | cons a p =>
    cases a with
    | get => exact absurd rfl hg
    | put =>
      refine ⟨_, .put s pre p post hsp ?_⟩
      have := hi.tokens
      rw [hsp, countP_split, if_pos (by simp [holds])] at this
      omega
    | send e =>
      rcases hm with ⟨he, hr⟩ | hd
      · obtain ⟨m, hm⟩ : ∃ m, s.main.take e = some m := by
          cases hmm : s.main with
          | collecting es => exact ⟨_, rfl⟩
          | flushing => exact ⟨_, rfl⟩
          | returned r => exact absurd hmm (hr r)
        exact ⟨_, .handover s pre p post e m hsp he hm⟩
      · have := (noSend_of_closed hb hd).1
        simp [errorsOf] at this
    | result =>
      refine ⟨_, .result s pre p post hsp ?_⟩
      have := hi.results
      rw [hsp, resultsLeft_split, List.count_cons_self] at this
      omega
    | done => exact ⟨_, .done s pre p post hsp⟩

/-- Some goroutine can move if one is not at the end. -/
theorem some_worker_moves {progs : List (List Act)} {s : State} (hi : Inv progs s) (ht : 0 < s.tokens)
    {p : List Act} (hp : p ∈ s.workers) (hne : p ≠ [])
    (hm : (s.errBuf = [] ∧ ∀ r, s.main ≠ .returned r) ∨ ∀ p ∈ s.workers, p.contains .done = false) :
    ∃ s', Step s s' := by
  have hm' : ∀ p ∈ s.workers, (s.errBuf = [] ∧ ∀ r, s.main ≠ .returned r) ∨ p.contains .done = false :=
    fun p hp => hm.imp (fun h => h) (fun h => h p hp)
  by_cases hg : p.head? = some .get
  · cases p with
    | nil => simp at hg
    | cons a p =>
      simp only [List.head?_cons, Option.some.injEq] at hg
      subst hg
      by_cases ha : 0 < s.avail
      · obtain ⟨pre, post, hsp⟩ := List.append_of_mem hp
        exact ⟨_, .get s pre p post hsp ha⟩
      · have := hi.tokens
        obtain ⟨q, hq, hqh⟩ := List.countP_pos_iff.1 (show 0 < s.workers.countP holds by omega)
        refine worker_moves hi hq ?_ ?_ (hm' q hq)
        · rintro rfl; simp [holds] at hqh
        · intro hg
          cases q with
          | nil => simp at hg
          | cons a q => simp at hg; subst hg; simp [holds] at hqh
  · exact worker_moves hi hp hne hg (hm' p hp)

theorem progress {progs : List (List Act)} {s : State} (hi : Inv progs s) (ht : 0 < s.tokens) (hf : ¬ Final s) :
    ∃ s', Step s s' := by
  by_cases hr : ∃ r, s.main = .returned r
  · obtain ⟨r, hr⟩ := hr
    have hc := (hi.returned r hr).1
    have hwg := hi.closed hc
    rw [hi.wg, List.countP_eq_zero] at hwg
    have : ∃ p ∈ s.workers, p ≠ [] := by
      apply Decidable.byContradiction
      intro hn
      exact hf ⟨⟨r, hr⟩, fun p hp => Decidable.byContradiction fun h => hn ⟨p, hp, h⟩⟩
    obtain ⟨p, hp, hne⟩ := this
    exact some_worker_moves hi ht hp hne (Or.inr fun p hp => by simpa using hwg p hp)
  · have hr' : ∀ r, s.main ≠ .returned r := fun r h => hr ⟨r, h⟩
    cases hb : s.errBuf with
    | cons e b =>
      cases hmm : s.main with
      | collecting es => exact ⟨_, .recv s e b _ hb (by rw [hmm]; rfl)⟩
      | flushing => exact ⟨_, .recv s e b _ hb (by rw [hmm]; rfl)⟩
      | returned r => exact absurd hmm (hr' r)
    | nil =>
      cases hc : s.closed with
      | true =>
        cases hmm : s.main with
        | collecting es => exact ⟨_, .finish s _ hb hc (by rw [hmm]; rfl)⟩
        | flushing => exact ⟨_, .finish s _ hb hc (by rw [hmm]; rfl)⟩
        | returned r => exact absurd hmm (hr' r)
      | false =>
        by_cases hwg : s.wg = 0
        · exact ⟨_, .close s hwg hc⟩
        · rw [hi.wg] at hwg
          obtain ⟨p, hp, hd⟩ := List.countP_pos_iff.1 (show 0 < s.workers.countP (List.contains · .done) by omega)
          refine some_worker_moves hi ht hp ?_ (Or.inl ⟨hb, hr'⟩)
          rintro rfl; simp at hd

theorem tokens_exec {s s' : State} {n : Nat} (h : Exec n s s') : s'.tokens = s.tokens := by
  induction h with
  | refl s => rfl
  | step h hs ih => rw [← ih]; cases hs <;> rfl
  | cancel h hs ih => rw [← ih]; cases hs; rfl

end FanOut

namespace Props
open FanOut

/-- Goroutines as in the code: every program is well-formed and ends with `wg.Done`, the channel for results
has room for all of them, and the bucket has a token. -/
structure Started (progs : List (List Act)) (tokens resCap : Nat) : Prop where
  programs : ∀ p ∈ progs, wellFormed false p = true ∧ p.contains .done = true
  results : (progs.map (List.count .result)).sum ≤ resCap
  tokens : 0 < tokens

/-- What has been returned when `waitErr` is back: all goroutines are past `wg.Done`, and the result is nil
only if no goroutine reports an error, an error list is exactly the reported errors, and the error of the
context only if it was cancelled. -/
theorem C50_result (progs : List (List Act)) (tokens errCap resCap n : Nat) (hs : Started progs tokens resCap)
    (s : State) (r : Ret) (hx : Exec n (init progs tokens errCap resCap) s) (hr : s.main = .returned r) :
    (∀ p ∈ s.workers, Act.done ∉ p) ∧
    (r = .nil → ∀ p ∈ progs, errorsOf p = []) ∧
    (∀ es, r = .errors es → es ≠ [] ∧ es.Perm (progs.flatMap errorsOf)) ∧
    (r = .ctxErr → s.cancelled = true) := by
  have hi := inv_exec (inv_init hs.programs hs.results) hx
  have hc := (hi.returned r hr).1
  have hwg := hi.closed hc
  rw [hi.wg, List.countP_eq_zero] at hwg
  have hdone : ∀ p ∈ s.workers, p.contains Act.done = false := fun p hp => by simpa using hwg p hp
  have hleft : errorsLeft s.workers = [] := by
    unfold errorsLeft
    rw [List.flatMap_eq_nil_iff]
    intro p hp
    obtain ⟨b, hb⟩ := hi.wf p hp
    exact (noSend_of_closed hb (hdone p hp)).1
  have hperm := hi.sent
  rw [hleft, List.append_nil] at hperm
  refine ⟨fun p hp => by simpa using hdone p hp, ?_, ?_, ?_⟩
  · rintro rfl
    rw [hi.retNil hr] at hperm
    have := hperm.nil_eq
    exact List.flatMap_eq_nil_iff.1 this.symm
  · rintro es rfl
    obtain ⟨h1, h2⟩ := hi.retErr es hr
    exact ⟨h2, h1 ▸ hperm⟩
  · rintro rfl
    exact hi.retCtx hr

/-- As long as the context is not cancelled the result is nil exactly if no goroutine reports an error.
Missing for the full property: with a cancelled context the result may still be nil, see
`C50_nil_although_cancelled`. -/
theorem C50_nil_iff_partial (progs : List (List Act)) (tokens errCap resCap n : Nat) (hs : Started progs tokens resCap)
    (s : State) (r : Ret) (hx : Exec n (init progs tokens errCap resCap) s) (hr : s.main = .returned r)
    (hc : s.cancelled = false) : r = .nil ↔ ∀ p ∈ progs, errorsOf p = [] := by
  obtain ⟨_, h1, h2, h3⟩ := C50_result progs tokens errCap resCap n hs s r hx hr
  refine ⟨h1, fun h => ?_⟩
  cases r with
  | nil => rfl
  | ctxErr => have := h3 rfl; rw [hc] at this; simp at this
  | errors es =>
    obtain ⟨h4, h5⟩ := h2 es rfl
    rw [List.flatMap_eq_nil_iff.2 h] at h5
    exact absurd h5.eq_nil h4

/-- An error is never lost: with a reported error the result is never nil, cancelled or not. -/
theorem C50_error_not_lost (progs : List (List Act)) (tokens errCap resCap n : Nat) (hs : Started progs tokens resCap)
    (s : State) (r : Ret) (hx : Exec n (init progs tokens errCap resCap) s) (hr : s.main = .returned r)
    (he : ∃ p ∈ progs, errorsOf p ≠ []) : r ≠ .nil := by
  rintro rfl
  obtain ⟨p, hp, hne⟩ := he
  exact hne ((C50_result progs tokens errCap resCap n hs s _ hx hr).2.1 rfl p hp)

/-- No execution gets stuck: something can move until the caller is back and all goroutines have ended. -/
theorem C50_no_deadlock (progs : List (List Act)) (tokens errCap resCap n : Nat) (hs : Started progs tokens resCap)
    (s : State) (hx : Exec n (init progs tokens errCap resCap) s) (hf : ¬ Final s) : ∃ s', Step s s' := by
  have hi := inv_exec (inv_init hs.programs hs.results) hx
  exact progress hi (by rw [tokens_exec hx]; exact hs.tokens) hf

/-- No execution runs for ever: the number of steps is bounded by the size of the programs. -/
theorem C50_terminates (progs : List (List Act)) (tokens errCap resCap n : Nat) (s : State)
    (hx : Exec n (init progs tokens errCap resCap) s) : n ≤ 2 * (progs.map List.length).sum + 3 := by
  have := work_exec hx
  have h0 : work (init progs tokens errCap resCap) = 2 * (progs.map List.length).sum + 0 + 1 + 2 := rfl
  omega

/-- The result can be nil although the context was cancelled before: when the channel is closed and the
context is cancelled, `select` may choose either. -/
theorem C50_nil_although_cancelled : ∃ n s, Exec n (init [[.done]] 1 0 0) s ∧ s.cancelled = true ∧
    s.main = .returned .nil := by
  have h0 := Exec.refl (init [[.done]] 1 0 0)
  have h1 := h0.cancel (.mk _)
  have h2 := h1.step (.done _ [] [] [] rfl)
  have h3 := h2.step (.close _ rfl rfl)
  have h4 := h3.step (.finish _ (.returned .nil) rfl rfl rfl)
  exact ⟨_, _, h4, rfl, rfl⟩

/-- Non-vacuity: three goroutines as in `VerifyElements` with one token, two of them reporting errors. -/
example : Started [[.get, .send 1, .send 2, .put, .done], [.get, .result, .put, .done], [.get, .send 3, .done, .put]] 1 3 :=
  ⟨by decide +kernel, by decide +kernel, by decide⟩

end Props
end RankDB

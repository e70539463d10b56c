import Verif.Model.Release
/-
C87: taking a list out of memory, first part: the locks.
-/
namespace RankDB.Props
open RankDB.Release

namespace ReleaseProof

/-- The goroutine holds `segmentsLock`. -/
def hasSegments : Worker → Bool
  | .gotSegments | .inSecond | .clearScores | .clearIndex | .unlockSegments | .leaveCancelled | .giveSegments => true
  | _ => false

/-- The goroutine holds `mu`. -/
def hasMu : Worker → Bool
  | .inFirst | .inSecond | .clearScores | .clearIndex | .unlockSegments | .unlockLoading | .reset | .close | .leave
  | .leaveCancelled => true
  | _ => false

def callerMu : Caller → Bool
  | .inside | .unlockSegments | .unlockLoading | .leave => true
  | _ => false

/-- The caller has not cancelled yet. -/
def before : Caller → Bool
  | .waiting | .timeout | .inside => true
  | _ => false

/-- The caller has not given back `loadingLock`. -/
def beforeUnlock : Caller → Bool
  | .waiting | .timeout | .inside | .unlockSegments | .unlockLoading => true
  | _ => false

/-- The goroutine has noted that it holds `loadingLock`, and has not given it back. -/
def noted : Worker → Bool
  | .wantSegments | .gotSegments | .inSecond | .clearScores | .clearIndex | .unlockSegments | .unlockLoading
  | .leaveCancelled => true
  | _ => false

/-- The goroutine itself has to give back `loadingLock`. -/
def mine : Worker → Bool
  | .gotLoading | .inFirst | .giveLoading => true
  | _ => false

/-- The goroutine works; nobody can cancel it. -/
def works : Worker → Bool
  | .clearScores | .clearIndex | .unlockSegments | .unlockLoading | .reset | .close => true
  | _ => false

/-- The goroutine is past the work. -/
def past : Worker → Bool
  | .leave => true
  | _ => false

structure Inv (s : State) : Prop where
  fault : s.fault = false
  muW : hasMu s.worker = true ↔ s.mu = .worker
  muC : callerMu s.caller = true ↔ s.mu = .caller
  segs : s.segments = .us ↔ hasSegments s.worker = true
  loadUs : s.loading = .us ↔ mine s.worker = true ∨ (noted s.worker = true ∧ beforeUnlock s.caller = true)
  gotL : s.gotLoading = true → beforeUnlock s.caller = true → noted s.worker = true ∨ s.worker = .reset
  gotL' : noted s.worker = true → s.gotLoading = true
  gotS : s.gotSegments = true ↔ works s.worker = true ∧ s.worker ≠ .close
  early : s.cancelled = false → s.caller = .leave → False
  canc : before s.caller = true → s.cancelled = false
  canc' : before s.caller = false → s.cancelled = true ∨ s.done = true
  wk : works s.worker = true → s.cancelled = false
  lc : s.worker = .leaveCancelled ∨ s.worker = .giveSegments ∨ s.worker = .giveLoading → s.cancelled = true
  dn : s.done = true → s.worker = .leave ∨ s.worker = .ended
  ret : s.caller = .returned → s.cancelled = false → s.done = true
  lv : callerMu s.caller = true → s.caller ≠ .inside → s.cancelled = true
  both : s.worker ≠ .clearIndex → s.scores = s.index
  half : s.worker = .clearIndex → s.scores = false

end ReleaseProof
open ReleaseProof

theorem release_start (a b : Holder) (x : Bool) (ha : a ≠ .us) (hb : b ≠ .us) : Inv (start a b x) := by
  constructor <;> simp_all [start, hasMu, callerMu, hasSegments, mine, noted, works, before, beforeUnlock]

theorem release_worker {s t : State} (h : Inv s) (hs : stepWorker s = some t) : Inv t := by
  obtain ⟨lo, se, sc, ix, mu, gl, gs, ca, dn, w, c, f⟩ := s
  obtain ⟨h1, h2, h3, h4, h5, h6, h7, h8, h9, h10, h11, h12, h13, h14, h15, h16, h17, h18⟩ := h
  dsimp only at *
  cases w <;> simp only [stepWorker] at hs <;> (try split at hs) <;> simp only [Option.some.injEq, reduceCtorEq] at hs <;>
    subst hs <;> cases c <;>
    simp_all [hasMu, callerMu, hasSegments, mine, noted, works, before, beforeUnlock] <;>
    constructor <;> simp_all [hasMu, callerMu, hasSegments, mine, noted, works, before, beforeUnlock]

theorem release_caller {late : Bool} {s t : State} (h : Inv s) (hs : stepCaller late s = some t) : Inv t := by
  obtain ⟨lo, se, sc, ix, mu, gl, gs, ca, dn, w, c, f⟩ := s
  obtain ⟨h1, h2, h3, h4, h5, h6, h7, h8, h9, h10, h11, h12, h13, h14, h15, h16, h17, h18⟩ := h
  dsimp only at *
  cases c <;> simp only [stepCaller] at hs <;> (repeat' split at hs) <;> simp only [Option.some.injEq, reduceCtorEq] at hs <;>
    subst hs <;> cases w <;>
    simp_all [hasMu, callerMu, hasSegments, mine, noted, works, before, beforeUnlock] <;>
    constructor <;> simp_all [hasMu, callerMu, hasSegments, mine, noted, works, before, beforeUnlock]

theorem release_others {s t : State} (h : Inv s) (hs : Others s t) : Inv t := by
  obtain ⟨h1, h2, h3, h4, h5, h6, h7, h8, h9, h10, h11, h12, h13, h14, h15, h16, h17, h18⟩ := h
  cases hs <;> constructor <;> first | (simp_all; done) | (intro hw; simp_all [hasSegments])

theorem release_run {s t : State} {n : Nat} (h : Run s n t) (hi : Inv s) : Inv t := by
  induction h with
  | refl => exact hi
  | own _ hs ih =>
    cases hs with
    | worker hw => exact release_worker ih hw
    | caller late hc => exact release_caller ih hc
  | others _ hs ih => exact release_others ih hs

/-- A call of `ReleaseSegments` on a list that any other calls use at the same time, whenever its minute is over:
- it never gives back a lock that it does not hold,
- it takes the tables out of memory only while it holds both locks, and never after it has returned,
- whoever else holds `segmentsLock`, or takes it, finds both tables or none,
- in the end it holds no lock. -/
theorem C87_release_locks (a b : Holder) (loaded : Bool) (ha : a ≠ .us) (hb : b ≠ .us) (n : Nat) (t : State)
    (h : Run (start a b loaded) n t) :
    t.fault = false ∧
    (∀ u, Own t u → u.scores ≠ t.scores ∨ u.index ≠ t.index →
      t.loading = .us ∧ t.segments = .us ∧ t.caller ≠ .returned ∧ u.scores = false) ∧
    (t.segments ≠ .us → t.scores = t.index) ∧
    (t.worker = .ended → t.caller = .returned → t.loading ≠ .us ∧ t.segments ≠ .us) := by
  have hi := release_run h (release_start a b loaded ha hb)
  refine ⟨hi.fault, ?_, ?_, ?_⟩
  · intro u hu hne
    obtain ⟨lo, se, sc, ix, mu, gl, gs, ca, dn, w, c, f⟩ := t
    obtain ⟨h1, h2, h3, h4, h5, h6, h7, h8, h9, h10, h11, h12, h13, h14, h15, h16, h17, h18⟩ := hi
    cases hu with
    | worker hs =>
      dsimp only at *
      cases w <;> simp only [stepWorker] at hs <;> (try split at hs) <;> simp only [Option.some.injEq, reduceCtorEq] at hs <;>
        subst hs <;> simp at hne <;> cases c <;>
        simp_all [hasMu, callerMu, hasSegments, mine, noted, works, before, beforeUnlock]
    | caller late hs =>
      dsimp only at *
      cases c <;> simp only [stepCaller] at hs <;> (repeat' split at hs) <;> simp only [Option.some.injEq, reduceCtorEq] at hs <;>
        subst hs <;> simp at hne
  · intro hs
    apply hi.both
    intro hw
    exact hs (hi.segs.2 (by rw [hw]; rfl))
  · intro hw hc
    constructor
    · intro hl
      have := hi.loadUs.1 hl
      rw [hw, hc] at this
      simp [mine, noted] at this
    · intro hs
      have := hi.segs.1 hs
      rw [hw] at this
      simp [hasSegments] at this

/-- The steps that are left. -/
def releaseLeft (s : State) : Nat :=
  (match s.worker with
    | .wantLoading => 13 | .gotLoading => 12 | .inFirst => 11 | .wantSegments => 10 | .gotSegments => 9 | .inSecond => 8
    | .clearScores => 7 | .clearIndex => 6 | .unlockSegments => 5 | .unlockLoading => 4 | .reset => 3 | .close => 2
    | .leave => 1 | .leaveCancelled => 2 | .giveSegments => 1 | .giveLoading => 1 | .ended => 0) +
  (match s.caller with
    | .waiting => 6 | .timeout => 5 | .inside => 4 | .unlockSegments => 3 | .unlockLoading => 2 | .leave => 1 | .returned => 0)

theorem releaseLeft_own {s t : State} (h : Own s t) : releaseLeft t + 1 ≤ releaseLeft s := by
  cases h with
  | worker h =>
    obtain ⟨lo, se, sc, ix, mu, gl, gs, ca, dn, w, c, f⟩ := s
    cases w <;> simp only [stepWorker] at h <;> (try split at h) <;> simp only [Option.some.injEq, reduceCtorEq] at h <;>
      subst h <;> simp [releaseLeft] <;> omega
  | caller late h =>
    obtain ⟨lo, se, sc, ix, mu, gl, gs, ca, dn, w, c, f⟩ := s
    cases c <;> simp only [stepCaller] at h <;> (repeat' split at h) <;> simp only [Option.some.injEq, reduceCtorEq] at h <;>
      subst h <;> simp [releaseLeft]

/-- The call returns: it makes at most 19 steps, and until it has returned it can make one. What is left afterwards
goes on too, unless it waits for a lock that others hold, and then it holds none itself. -/
theorem C87_release_returns (a b : Holder) (loaded : Bool) (ha : a ≠ .us) (hb : b ≠ .us) (n : Nat) (t : State)
    (h : Run (start a b loaded) n t) :
    n ≤ 19 ∧
    (t.caller ≠ .returned → ∃ u, Own t u) ∧
    (t.caller = .returned → t.worker ≠ .ended → (∃ u, Own t u) ∨
      (t.loading ≠ .us ∧ t.segments ≠ .us ∧ (t.loading = .others ∨ t.segments = .others))) := by
  have hi := release_run h (release_start a b loaded ha hb)
  refine ⟨?_, ?_, ?_⟩
  · have : n + releaseLeft t ≤ releaseLeft (start a b loaded) := by
      clear hi
      generalize hst : start a b loaded = s at h
      induction h with
      | refl => omega
      | own _ hs ih => have := releaseLeft_own hs; have := ih; omega
      | others _ hs ih =>
        have := ih
        cases hs <;> simpa [releaseLeft] using this
    have h0 : releaseLeft (start a b loaded) = 19 := rfl
    omega
  · intro hc
    obtain ⟨lo, se, sc, ix, mu, gl, gs, ca, dn, w, c, f⟩ := t
    obtain ⟨h1, h2, h3, h4, h5, h6, h7, h8, h9, h10, h11, h12, h13, h14, h15, h16, h17, h18⟩ := hi
    dsimp only at *
    cases c with
    | waiting => exact ⟨_, .caller true rfl⟩
    | timeout =>
      cases mu with
      | free => exact ⟨_, .caller true rfl⟩
      | caller => simp [callerMu] at h3
      | worker =>
        have := h2.2 rfl
        cases w <;> simp [hasMu] at this <;>
          first
            | exact ⟨_, .worker rfl⟩
            | (cases ca <;> exact ⟨_, .worker rfl⟩)
    | inside => cases ca <;> exact ⟨_, .caller true rfl⟩
    | unlockSegments => cases gs <;> exact ⟨_, .caller true rfl⟩
    | unlockLoading => cases gl <;> exact ⟨_, .caller true rfl⟩
    | leave => exact ⟨_, .caller true rfl⟩
    | returned => exact absurd rfl hc
  · intro hc hw
    obtain ⟨lo, se, sc, ix, mu, gl, gs, ca, dn, w, c, f⟩ := t
    obtain ⟨h1, h2, h3, h4, h5, h6, h7, h8, h9, h10, h11, h12, h13, h14, h15, h16, h17, h18⟩ := hi
    dsimp only at *
    subst hc
    have hmu : mu = .free ∨ mu = .worker := by cases mu <;> simp_all [callerMu]
    cases w with
    | wantLoading =>
      cases lo with
      | free => exact .inl ⟨_, .worker rfl⟩
      | us => simp [mine, noted] at h5
      | others =>
        refine .inr ⟨by simp, ?_, .inl rfl⟩
        intro hs; have := h4.1 hs; simp [hasSegments] at this
    | gotLoading =>
      have : mu = .free := by rcases hmu with h | h; exact h; have := h2.2 h; simp [hasMu] at this
      subst this; exact .inl ⟨_, .worker rfl⟩
    | inFirst => cases ca <;> exact .inl ⟨_, .worker rfl⟩
    | wantSegments =>
      cases se with
      | free => exact .inl ⟨_, .worker rfl⟩
      | us => simp [hasSegments] at h4
      | others =>
        refine .inr ⟨?_, by simp, .inr rfl⟩
        intro hs; have := h5.1 hs; simp [mine, beforeUnlock] at this
    | gotSegments =>
      have : mu = .free := by rcases hmu with h | h; exact h; have := h2.2 h; simp [hasMu] at this
      subst this; exact .inl ⟨_, .worker rfl⟩
    | inSecond => cases ca <;> exact .inl ⟨_, .worker rfl⟩
    | ended => exact absurd rfl hw
    | _ => exact .inl ⟨_, .worker rfl⟩

/-- A schedule in which the minute is over while the goroutine waits for `segmentsLock`: the caller gives back
`loadingLock`, and the goroutine gives back `segmentsLock` when it gets it. -/
example : ∃ t, Run (start .free .others true) 14 t ∧ t.caller = .returned ∧ t.worker = .ended ∧ t.cancelled = true ∧
    t.scores = true ∧ t.loading = .free ∧ t.segments = .free :=
  ⟨_, (.own (.own (.own (.own (.own (.others (.own (.own (.own (.own (.own (.own (.own (.own (.own (.refl _) (.worker rfl))
    (.worker rfl)) (.worker rfl)) (.caller true rfl)) (.caller true rfl)) (.caller true rfl)) (.caller true rfl)) (.caller true rfl)) (.caller true rfl)) (.giveSegments rfl)) (.worker rfl)) (.worker rfl)) (.worker rfl)) (.worker rfl)) (.worker rfl)), by decide⟩

/-- A schedule in which it has the locks in time. -/
example : ∃ t, Run (start .free .free true) 14 t ∧ t.caller = .returned ∧ t.worker = .ended ∧ t.scores = false ∧
    t.loading = .free ∧ t.segments = .free :=
  ⟨_, .own (.own (.own (.own (.own (.own (.own (.own (.own (.own (.own (.own (.own (.own (.refl _)
    (.worker rfl)) (.worker rfl)) (.worker rfl)) (.worker rfl)) (.worker rfl)) (.worker rfl)) (.worker rfl)) (.worker rfl))
    (.worker rfl)) (.worker rfl)) (.worker rfl)) (.worker rfl)) (.worker rfl)) (.caller false rfl), by decide⟩

end RankDB.Props

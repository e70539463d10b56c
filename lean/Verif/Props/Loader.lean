import Verif.Proofs.Loader
/-
C97: calls that load a segment at the same time.
-/
namespace RankDB.Props
open Loader (Label Call Pc Res Outcome)
open Spec.Loader (lastSaved NoPanic NoFailedSave NoFailedRead Inner callCount)

theorem load_sound {cached : Bool} {cell : Option (List Element)} {ls : List Label} {σ : Loader.State}
    (h : Loader.execs cached (Loader.start cell) ls = some σ) : Loader.Sound σ :=
  Loader.execs_ind (Q := fun _ σ => Loader.Sound σ) (Loader.start_sound cell) (fun _ _ _ _ hq hs => Loader.step_sound hq hs) h

theorem load_cell {cached : Bool} {cell : Option (List Element)} {ls : List Label} {σ : Loader.State}
    (h : Loader.execs cached (Loader.start cell) ls = some σ) : σ.cell = lastSaved cell ls :=
  Loader.execs_ind (Q := fun ls σ => σ.cell = lastSaved cell ls) rfl
    (fun ls σ l σ' hq hs => by rw [Loader.lastSaved_append, ← hq]; exact Loader.step_cell hs) h

theorem load_fresh {cached : Bool} {cell : Option (List Element)} {ls : List Label} {σ : Loader.State}
    (h : Loader.execs cached (Loader.start cell) ls = some σ) (hp : NoPanic ls) (hf : NoFailedSave ls) : Loader.Fresh cached σ := by
  have := Loader.execs_ind (cached := cached) (σ0 := Loader.start cell)
    (Q := fun ls σ => Loader.Sound σ ∧ (NoPanic ls → NoFailedSave ls → Loader.Fresh cached σ))
    ⟨Loader.start_sound cell, fun _ _ => Loader.start_fresh cached cell⟩ ?_ h
  · exact this.2 hp hf
  · intro ls σ l σ' hq hs
    refine ⟨Loader.step_sound hq.1 hs, fun h1 h2 => ?_⟩
    refine Loader.step_fresh hq.1 (hq.2 (fun t hm => h1 t (List.mem_append_left _ hm)) fun t v b hm => h2 t v b (List.mem_append_left _ hm)) hs ?_ ?_
    · intro t he
      exact h1 t (by rw [he]; simp)
    · intro t v b he
      exact h2 t v b (by rw [he]; simp)

/-- C97. Whoever loaded the segment, a call that is given elements is given the ones that were saved last, and this
stays so for as long as it has the lock. -/
theorem C97_content (cached : Bool) (cell : Option (List Element)) (ls : List Label) (σ : Loader.State)
    (h : Loader.execs cached (Loader.start cell) ls = some σ) (hp : NoPanic ls) (hf : NoFailedSave ls)
    (t : Nat) (w : Bool) (v : List Element) (hx : σ.calls[t]? = some ⟨w, .use v⟩) : lastSaved cell ls = some v := by
  rw [← load_cell h]
  exact ((load_fresh h hp hf).calls t _ hx).2

/-- No two calls read the segment from the storage at the same time. -/
theorem C97_one_load (cached : Bool) (cell : Option (List Element)) (ls : List Label) (σ : Loader.State)
    (h : Loader.execs cached (Loader.start cell) ls = some σ) (t u : Nat) (w w' : Bool) (c d : Nat)
    (ht : σ.calls[t]? = some ⟨w, .loading c⟩) (hu : σ.calls[u]? = some ⟨w', .loading d⟩) : t = u :=
  (load_sound h).one t u _ _ c d ht hu rfl rfl

/-- A write has the segment for itself. -/
theorem C97_exclusive (cached : Bool) (cell : Option (List Element)) (ls : List Label) (σ : Loader.State)
    (h : Loader.execs cached (Loader.start cell) ls = some σ) (t u : Nat) (v v' : List Element) (w : Bool)
    (ht : σ.calls[t]? = some ⟨true, .use v⟩) (hu : σ.calls[u]? = some ⟨w, .use v'⟩) : t = u :=
  (load_sound h).excl t u _ _ ht hu rfl rfl rfl

/-- A call fails only if the segment was missing or invalid from the start and until then, or if reading it failed for some call. -/
theorem C97_error (cached : Bool) (cell : Option (List Element)) (ls : List Label) (σ : Loader.State)
    (h : Loader.execs cached (Loader.start cell) ls = some σ) (t : Nat) (w : Bool) (e : Loader.Err)
    (hx : σ.calls[t]? = some ⟨w, .done (some e)⟩) :
    (e = .stored ∧ cell = none) ∨ ∃ u, e = .call u ∧ Label.fetch u .error ∈ ls := by
  have := Loader.execs_ind (cached := cached) (σ0 := Loader.start cell)
    (Q := fun ls σ => (σ.cell = none → cell = none) ∧
      Loader.Blamed (fun e => (e = .stored ∧ cell = none) ∨ ∃ u, e = .call u ∧ Label.fetch u .error ∈ ls) σ)
    ⟨id, Loader.start_blamed _ cell⟩ ?_ h
  · exact this.2.done t w e hx
  · intro ls σ l σ' hq hs
    refine ⟨?_, ?_⟩
    · intro hn
      rw [Loader.step_cell hs] at hn
      apply hq.1
      cases l with
      | save t v ok b =>
        cases ok with
        | true => cases hn
        | false => exact hn
      | _ => exact hn
    · refine Loader.step_blamed (Loader.blamed_mono ?_ hq.2) hs ?_ ?_
      · intro e he
        rcases he with he | ⟨u, h1, h2⟩
        · exact .inl he
        · exact .inr ⟨u, h1, List.mem_append_left _ h2⟩
      · intro t ht
        exact .inr ⟨t, rfl, by rw [ht]; simp⟩
      · exact fun hn => .inl ⟨rfl, hq.1 hn⟩

/-- A stored segment is always found if nothing fails. -/
theorem C97_no_error (cached : Bool) (v0 : List Element) (ls : List Label) (σ : Loader.State)
    (h : Loader.execs cached (Loader.start (some v0)) ls = some σ) (hr : NoFailedRead ls) (t : Nat) (w : Bool) (e : Loader.Err) :
    σ.calls[t]? ≠ some ⟨w, .done (some e)⟩ := by
  intro hx
  rcases C97_error cached _ ls σ h t w e hx with ⟨-, hc⟩ | ⟨u, -, hu⟩
  · cases hc
  · exact hr u hu

/-- A write that fails, fails for its own reasons: another call's failure does not make it fail. (For reads this is
wrong, see `C97_foreign_error`.) -/
theorem C97_writer_error_partial (cached : Bool) (cell : Option (List Element)) (ls : List Label) (σ : Loader.State)
    (h : Loader.execs cached (Loader.start cell) ls = some σ) (t u : Nat)
    (hx : σ.calls[t]? = some ⟨true, .done (some (.call u))⟩) : u = t := by
  have := Loader.execs_ind (cached := cached) (σ0 := Loader.start cell) (Q := fun _ σ => Loader.Sound σ ∧ Loader.Own σ)
    ⟨Loader.start_sound cell, by intro t x h; simp [Loader.start] at h⟩
    (fun _ _ _ _ hq hs => ⟨Loader.step_sound hq.1 hs, Loader.step_own hq.1 hq.2 hs⟩) h
  exact this.2 t _ hx rfl u rfl

/-- As long as a call is not done, some call can go on; if the only thing left to do is to give someone the lock, then
nobody has it and anyone who waits for it can have it. -/
theorem C97_no_deadlock (cached : Bool) (cell : Option (List Element)) (ls : List Label) (σ : Loader.State)
    (h : Loader.execs cached (Loader.start cell) ls = some σ) (hp : NoPanic ls) (t : Nat) (x : Call)
    (hx : σ.calls[t]? = some x) (hd : ∀ e, x.pc ≠ .done e) :
    (∃ l, Inner l = true ∧ (∀ u, l ≠ .acquire u) ∧ (Loader.exec cached σ l).isSome = true) ∨
      (x.pc = .want ∧ (∀ y ∈ σ.calls, y.pc.holds = false) ∧
        ∀ (u : Nat) (w : Bool), σ.calls[u]? = some ⟨w, .want⟩ → (Loader.exec cached σ (.acquire u)).isSome = true) := by
  have hs := load_sound h
  have hwell : ∀ y ∈ σ.calls, y.pc.well := by
    have := Loader.execs_ind (cached := cached) (σ0 := Loader.start cell) (Q := fun ls σ => NoPanic ls → ∀ (u : Nat) (y : Call), σ.calls[u]? = some y → y.pc.well)
      (by intro _ u y hy; simp [Loader.start] at hy) ?_ h hp
    · intro y hy
      obtain ⟨u, hu⟩ := List.mem_iff_getElem?.1 hy
      exact this u y hu
    · intro ls σ l σ' hq hs hp
      have hq := hq fun t hm => hp t (List.mem_append_left _ hm)
      have key : ∀ {u : Nat} {w : Bool} {q : Pc}, q.well → ∀ (a : Nat) (y : Call), (σ.calls.set u ⟨w, q⟩)[a]? = some y → y.pc.well := by
        intro u w q hw a y hy
        rcases Loader.get_set hy with ⟨-, rfl⟩ | ⟨-, hy⟩
        · exact hw
        · exact hq a y hy
      cases hs with
      | call w =>
        intro a y hy
        rcases Loader.get_append hy with rfl | hy
        · trivial
        · exact hq a y hy
      | panic hpc => exact absurd (List.mem_append_right _ (List.mem_singleton.2 rfl)) (hp _)
      | die hpc => exact (hq _ _ hpc).elim
      | evict => exact hq
      | _ => exact key trivial
  by_cases hh : ∃ y ∈ σ.calls, y.pc.holds = true
  · obtain ⟨y, hy, hyh⟩ := hh
    obtain ⟨u, hu⟩ := List.mem_iff_getElem?.1 hy
    refine .inl (Loader.holder_enabled hs hu hyh ?_)
    intro he
    have := hwell y hy
    rw [he] at this
    exact this
  · have hn : ∀ y ∈ σ.calls, y.pc.holds = false := by
      intro y hy
      cases hy2 : y.pc.holds with
      | false => rfl
      | true => exact absurd ⟨y, hy, hy2⟩ hh
    refine .inr ⟨?_, hn, fun u w hu => Loader.want_enabled hn hu⟩
    have := hn x (List.mem_of_getElem? hx)
    cases hpc : x.pc <;> rw [hpc] at this <;> first | rfl | cases this | skip
    rename_i e
    exact absurd hpc (hd e)

/-- Every call takes at most seven steps, so all calls end. -/
theorem C97_ends (cached : Bool) (cell : Option (List Element)) (ls : List Label) (σ : Loader.State)
    (h : Loader.execs cached (Loader.start cell) ls = some σ) : ls.countP Inner ≤ 7 * callCount ls := by
  have := Loader.execs_ind (cached := cached) (σ0 := Loader.start cell)
    (Q := fun ls σ => Loader.total σ.calls + ls.countP Inner ≤ 7 * callCount ls) (Nat.le_refl 0) ?_ h
  · omega
  · intro ls σ l σ' hq hs
    have h1 := Loader.step_total hs
    have h2 : callCount (ls ++ [l]) = callCount ls + callCount [l] := by
      unfold callCount
      rw [List.countP_append]
    rw [List.countP_append, List.countP_singleton, h2]
    omega

/-! ### Where it fails -/

def loadElem : Element := ⟨50, 7, [], 0, 1⟩

/-- Two reads load the segment together; the first one's request is cancelled. -/
def cancelled : List Label :=
  [.call false, .call false, .acquire 0, .acquire 1, .look 0, .look 1, .enter 0, .enter 1, .fetch 0 .error, .close 0,
   .wake 1, .deliver 0, .deliver 1]

/-- A read fails because another request, which was loading the segment, was cancelled. -/
theorem C97_foreign_error : ∃ σ, Loader.execs true (Loader.start (some [loadElem])) cancelled = some σ ∧
    (∀ o, Label.fetch 1 o ∉ cancelled) ∧ σ.calls[1]? = some ⟨false, .done (some (.call 0))⟩ := by
  refine ⟨_, rfl, ?_, ?_⟩
  · intro o
    cases o <;> decide
  · decide

/-- Two reads load the segment together; the first one panics. -/
def panics : List Label :=
  [.call false, .call false, .acquire 0, .acquire 1, .look 0, .look 1, .enter 0, .enter 1, .fetch 0 .panic, .close 0,
   .wake 1, .deliver 1, .leave 1, .call false, .acquire 2, .look 2, .call true]

/-- If the call that loads the segment panics, the calls that wait for it get an empty segment without an error, and
put it into the cache, from where later calls get it. -/
theorem C97_panic_empty : ∃ σ, Loader.execs true (Loader.start (some [loadElem])) panics = some σ ∧
    NoFailedSave panics ∧ NoFailedRead panics ∧ σ.calls[2]? = some ⟨false, .use []⟩ ∧
    lastSaved (some [loadElem]) panics = some [loadElem] := by
  refine ⟨_, rfl, ?_, ?_, ?_, ?_⟩
  · intro t v b
    simp [panics]
  · intro t
    simp [panics]
  · decide
  · decide

/-- And the segment stays locked: a write waits forever, whatever happens. -/
theorem C97_panic_stuck : ∃ σ, Loader.execs true (Loader.start (some [loadElem])) panics = some σ ∧
    ∀ ls' σ', Loader.execs true σ ls' = some σ' → σ'.calls[3]? = some ⟨true, .want⟩ := by
  refine ⟨_, rfl, ?_⟩
  intro ls' σ' h
  exact (Loader.execs_ind (Q := fun _ σ => Loader.Stuck 0 3 false σ) ⟨by decide, by decide⟩
    (fun _ _ _ _ hq hs => Loader.step_stuck hq hs) h).want

/-! ### Example: two reads share one load; a write changes the segment; a read after that sees the change -/

def sharing : List Label :=
  [.call false, .call false, .call true, .acquire 0, .acquire 1, .look 0, .look 1, .enter 1, .enter 0, .fetch 1 .stored, .close 1,
   .deliver 1, .wake 0, .deliver 0, .leave 0, .leave 1, .acquire 2, .look 2, .save 2 [loadElem, loadElem] true false, .evict,
   .call false, .acquire 3, .look 3, .enter 3, .fetch 3 .stored, .close 3, .deliver 3]

example : ((Loader.execs true (Loader.start (some [loadElem])) sharing).map (·.calls)) =
    some [⟨false, .done none⟩, ⟨false, .done none⟩, ⟨true, .done none⟩, ⟨false, .use [loadElem, loadElem]⟩] := by decide

example : NoPanic sharing ∧ NoFailedSave sharing ∧ NoFailedRead sharing ∧ sharing.countP Inner = 22 ∧ callCount sharing = 4 ∧
    lastSaved (some [loadElem]) sharing = some [loadElem, loadElem] := by
  refine ⟨?_, ?_, ?_, by decide, by decide, by decide⟩
  · intro t; simp [sharing]
  · intro t v b; simp [sharing]
  · intro t; simp [sharing]

/-- Both reads have the elements while the write waits. -/
example : ((Loader.execs false (Loader.start (some [loadElem])) (sharing.take 14)).map (·.calls)) =
    some [⟨false, .use [loadElem]⟩, ⟨false, .use [loadElem]⟩, ⟨true, .want⟩] ∧
    ((Loader.execs false (Loader.start (some [loadElem])) (sharing.take 14 ++ [.acquire 2])).isSome = false) := by decide

/-- A write whose own read fails. -/
example : ((Loader.execs true (Loader.start (some [loadElem])) [.call true, .acquire 0, .look 0, .enter 0, .fetch 0 .error, .close 0, .deliver 0]).map (·.calls)) =
    some [⟨true, .done (some (.call 0))⟩] := by decide

/-- A segment that is missing. -/
example : ((Loader.execs true (Loader.start none) [.call false, .acquire 0, .look 0, .enter 0, .fetch 0 .stored, .close 0, .deliver 0]).map (·.calls)) =
    some [⟨false, .done (some .stored)⟩] := by decide

end RankDB.Props

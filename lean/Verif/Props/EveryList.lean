import Verif.Model.EveryList
/-
Bulk operations on lists (C59).
-/
namespace RankDB
namespace EveryList

/-- The lists whose entry is still to be made. -/
def pending (s : State) : List Str := (s.running.filter fun p => p.2 == .run).map (·.1)

/-- The goroutines that hold a token. -/
def holding (s : State) : Nat := s.running.countP fun p => p.2 == .run || p.2 == .release

/-- The lists with an entry. -/
def entered (r : Results) : List Str := r.success.map (·.1) ++ r.errors.map (·.1)

structure Inv (limit : Nat) (out : Str → Outcome) (lists : List Str) (s : State) : Prop where
  all : (s.todo ++ pending s ++ entered s.results).Perm lists
  success : ∀ k v, (k, v) ∈ s.results.success → out k = .ok v
  errors : ∀ k m, (k, m) ∈ s.results.errors → (out k = .missing ∧ m = .notFound) ∨
    (∃ x, out k = .error x ∧ m = .error x) ∨ (∃ x, out k = .panic x ∧ m = .panic x)
  wg : s.wg = s.todo.length + s.running.length
  tokens : limit > 0 → s.avail + holding s = limit
  start : s.main = .start → s.todo ≠ []
  wait : s.main = .wait → s.todo = []
  returned : ∀ r, s.main = .returned (some r) → r = s.results ∧ s.wg = 0
  none : s.main = .returned none → s.cancelled = true

theorem put_new {α : Type} {k : Str} {v : α} {m : List (Str × α)} (h : k ∉ m.map (·.1)) : put k v m = (k, v) :: m := by
  unfold put
  rw [List.filter_eq_self.2]
  intro x hx
  simp only [bne_iff_ne, ne_eq]
  intro he
  exact h (List.mem_map.2 ⟨x, hx, he⟩)

theorem record_entered {r : Results} {id : Str} (h : id ∉ entered r) (o : Outcome) :
    (entered (r.record id o)).Perm (id :: entered r) := by
  unfold entered at *
  rw [List.mem_append] at h
  have h1 : id ∉ r.success.map (·.1) := fun hx => h (Or.inl hx)
  have h2 : id ∉ r.errors.map (·.1) := fun hx => h (Or.inr hx)
  cases o <;> simp only [Results.record, put_new h1, put_new h2, List.map_cons, List.cons_append]
  · exact List.perm_middle
  · exact .refl _
  · exact List.perm_middle
  · exact List.perm_middle

theorem inv_init (limit : Nat) (out : Str → Outcome) (lists : List Str) : Inv limit out lists (init lists limit) := by
  refine ⟨?_, ?_, ?_, ?_, ?_, ?_, ?_, ?_, ?_⟩ <;> simp [init, pending, entered, holding]

theorem inv_step {limit : Nat} {out : Str → Outcome} {lists : List Str} (hnd : lists.Nodup) {s s' : State}
    (h : Inv limit out lists s) (hs : Step limit out s s') : Inv limit out lists s' := by
  cases hs with
  | cancelled id rest hm ht hc =>
    exact ⟨h.all, h.success, h.errors, h.wg, h.tokens, by simp, by simp, by simp, fun _ => hc⟩
  | go id rest hm ht hc =>
    exact ⟨h.all, h.success, h.errors, h.wg, h.tokens, fun _ => by simp [ht], by simp, by simp, by simp⟩
  | start id rest hm ht ha =>
    refine ⟨?_, h.success, h.errors, ?_, ?_, by simp, by simp, by simp, by simp⟩
    · have := h.all
      rw [ht] at this
      refine List.Perm.trans ?_ this
      simp only [pending, List.filter_append, List.map_append, List.filter_cons, List.filter_nil]
      simp only [beq_self_eq_true, if_true, List.map_cons, List.map_nil, List.cons_append]
      refine List.Perm.trans ?_ (List.perm_middle (l₁ := rest ++ pending s) (a := id) (l₂ := entered s.results) |>.trans (.refl _))
      simp [pending]
    · have := h.wg
      rw [ht] at this
      dsimp only
      rw [this, List.length_append]
      simp only [List.length_cons, List.length_nil]
      omega
    · intro hl
      have h1 := h.tokens hl
      have h2 := ha hl
      have h3 : holding { s with main := .check, todo := rest, running := s.running ++ [(id, .run)]
                                 avail := if limit > 0 then s.avail - 1 else s.avail } = holding s + 1 := by
        simp [holding, List.countP_append]
      rw [h3]
      dsimp only
      rw [if_pos hl]
      omega
  | allStarted hm ht =>
    exact ⟨h.all, h.success, h.errors, h.wg, h.tokens, by simp, fun _ => ht, by simp, by simp⟩
  | «return» hm hw =>
    refine ⟨h.all, h.success, h.errors, h.wg, h.tokens, by simp, by simp, ?_, by simp⟩
    intro r hr
    simp only [Main.returned.injEq, Option.some.injEq] at hr
    exact ⟨hr.symm, hw⟩
  | record pre id post hr =>
    have hpend : pending s = (pre.filter fun p => p.2 == .run).map (·.1) ++ id :: (post.filter fun p => p.2 == .run).map (·.1) := by
      simp [pending, hr]
    have hid : id ∉ entered s.results := by
      have := (h.all.nodup_iff).2 hnd
      rw [List.nodup_append] at this
      intro hx
      exact this.2.2 id (by rw [hpend]; simp) id hx rfl
    refine ⟨?_, ?_, ?_, ?_, ?_, h.start, h.wait, ?_, h.none⟩
    · refine List.Perm.trans ?_ h.all
      have hp' : pending { s with running := pre ++ (id, .release) :: post, results := s.results.record id (out id) } =
          (pre.filter fun p => p.2 == .run).map (·.1) ++ (post.filter fun p => p.2 == .run).map (·.1) := by
        simp [pending, List.filter_append]
      rw [hp', hpend]
      refine List.Perm.trans (List.Perm.append_left _ (record_entered hid (out id))) ?_
      dsimp only
      simp only [List.append_assoc]
      refine List.Perm.append_left _ (List.Perm.append_left _ ?_)
      simp only [List.cons_append]
      exact List.perm_middle
    · intro k v hk
      cases ho : out id <;> simp only [ho, Results.record] at hk
      · exact h.success k v hk
      · rw [put_new (fun hx => hid (List.mem_append.2 (Or.inl hx)))] at hk
        rcases List.mem_cons.1 hk with hk | hk
        · simp only [Prod.mk.injEq] at hk; rw [hk.1, hk.2, ho]
        · exact h.success k v hk
      · exact h.success k v hk
      · exact h.success k v hk
    · intro k m hk
      cases ho : out id <;> simp only [ho, Results.record] at hk
      case ok => exact h.errors k m hk
      all_goals
        rw [put_new (fun hx => hid (List.mem_append.2 (Or.inr hx)))] at hk
        rcases List.mem_cons.1 hk with hk | hk
        · simp only [Prod.mk.injEq] at hk
          rw [hk.1, hk.2, ho]; simp
        · exact h.errors k m hk
    · have := h.wg
      rw [hr] at this
      simpa using this
    · intro hl
      have h1 := h.tokens hl
      have h2 : holding s = holding { s with running := pre ++ (id, .release) :: post, results := s.results.record id (out id) } := by
        simp [holding, hr, List.countP_append]
      rw [← h2]; exact h1
    · intro r hm
      have := h.returned r hm
      have hw := h.wg
      rw [hr] at hw
      simp only [List.length_append, List.length_cons] at hw
      omega
  | release pre id post hr ha =>
    refine ⟨?_, h.success, h.errors, ?_, ?_, h.start, h.wait, h.returned, h.none⟩
    · have hp' : pending { s with running := pre ++ (id, .done) :: post, avail := if limit > 0 then s.avail + 1 else s.avail } =
          pending s := by
        simp [pending, hr, List.filter_append]
      rw [hp']; exact h.all
    · have := h.wg
      rw [hr] at this
      simpa using this
    · intro hl
      have h1 := h.tokens hl
      have h2 : holding s = holding { s with running := pre ++ (id, .done) :: post, avail := if limit > 0 then s.avail + 1 else s.avail } + 1 := by
        simp [holding, hr, List.countP_append]
        omega
      have h3 : (if limit > 0 then s.avail + 1 else s.avail) = s.avail + 1 := if_pos hl
      dsimp only at *
      omega
  | done pre id post hr =>
    refine ⟨?_, h.success, h.errors, ?_, ?_, h.start, h.wait, ?_, h.none⟩
    · have hp' : pending { s with running := pre ++ post, wg := s.wg - 1 } = pending s := by
        simp [pending, hr, List.filter_append]
      rw [hp']; exact h.all
    · have := h.wg
      rw [hr] at this
      dsimp only
      rw [this]
      simp only [List.length_append, List.length_cons]
      omega
    · intro hl
      have h1 := h.tokens hl
      have h2 : holding { s with running := pre ++ post, wg := s.wg - 1 } = holding s := by
        simp [holding, hr, List.countP_append]
      rw [h2]; exact h1
    · intro r hm
      have := h.returned r hm
      exact ⟨this.1, by dsimp only; omega⟩

theorem inv_exec {limit : Nat} {out : Str → Outcome} {lists : List Str} (hnd : lists.Nodup) {n : Nat} {s s' : State}
    (h : Inv limit out lists s) (hx : Exec limit out n s s') : Inv limit out lists s' := by
  induction hx with
  | refl => exact h
  | step _ hs ih => exact inv_step hnd (ih h) hs
  | cancel _ ih =>
    have ih := ih h
    exact ⟨ih.all, ih.success, ih.errors, ih.wg, ih.tokens, ih.start, ih.wait, ih.returned, fun _ => rfl⟩

def phaseWork : Phase → Nat
  | .run => 3
  | .release => 2
  | .done => 1

def mainWork : Main → Nat
  | .check => 2
  | .start => 1
  | .wait => 1
  | .returned _ => 0

/-- What remains to be done. -/
def work (s : State) : Nat := 5 * s.todo.length + (s.running.map fun p => phaseWork p.2).sum + mainWork s.main

theorem work_step {limit : Nat} {out : Str → Outcome} {s s' : State} (hs : Step limit out s s') : work s' < work s := by
  cases hs with
  | cancelled id rest hm ht hc => unfold work; dsimp only; rw [hm]; simp [mainWork]
  | go id rest hm ht hc => unfold work; dsimp only; rw [hm]; simp [mainWork]
  | start id rest hm ht ha =>
    unfold work; dsimp only; rw [hm, ht]
    simp [mainWork, phaseWork]; omega
  | allStarted hm ht => unfold work; dsimp only; rw [hm]; simp [mainWork]
  | «return» hm hw => unfold work; dsimp only; rw [hm]; simp [mainWork]
  | record pre id post hr => unfold work; dsimp only; rw [hr]; simp [phaseWork]
  | release pre id post hr ha => unfold work; dsimp only; rw [hr]; simp [phaseWork]
  | done pre id post hr => unfold work; dsimp only; rw [hr]; simp [phaseWork]

theorem work_exec {limit : Nat} {out : Str → Outcome} {n : Nat} {s s' : State} (hx : Exec limit out n s s') :
    n + work s' ≤ work s := by
  induction hx with
  | refl => omega
  | step _ hs ih => have := work_step hs; omega
  | cancel _ ih => exact ih

theorem running_step {limit : Nat} {out : Str → Outcome} {lists : List Str} {s : State} (h : Inv limit out lists s)
    (hr : s.running ≠ []) : ∃ s', Step limit out s s' := by
  match hr' : s.running, hr with
  | (id, ph) :: rest, _ =>
    cases ph with
    | run => exact ⟨_, .record s [] id rest hr'⟩
    | release =>
      refine ⟨_, .release s [] id rest hr' ?_⟩
      intro hl
      have h1 := h.tokens hl
      have h2 : 0 < holding s := by
        unfold holding
        rw [hr', List.countP_cons_of_pos (by simp)]
        omega
      omega
    | done => exact ⟨_, .done s [] id rest hr'⟩

theorem progress {limit : Nat} {out : Str → Outcome} {lists : List Str} {s : State} (h : Inv limit out lists s)
    (hf : ¬ Final s) : ∃ s', Step limit out s s' := by
  by_cases hr : s.running = []
  · cases hm : s.main with
    | check =>
      cases ht : s.todo with
      | nil => exact ⟨_, .allStarted s hm ht⟩
      | cons id rest =>
        cases hc : s.cancelled with
        | true => exact ⟨_, .cancelled s id rest hm ht hc⟩
        | false => exact ⟨_, .go s id rest hm ht hc⟩
    | start =>
      cases ht : s.todo with
      | nil => exact absurd ht (h.start hm)
      | cons id rest =>
        refine ⟨_, .start s id rest hm ht ?_⟩
        intro hl
        have := h.tokens hl
        unfold holding at this
        rw [hr] at this
        simp at this
        omega
    | wait =>
      refine ⟨_, .return s hm ?_⟩
      rw [h.wg, h.wait hm, hr]; rfl
    | returned r => exact absurd ⟨⟨r, hm⟩, hr⟩ hf
  · exact running_step h hr

end EveryList

namespace Props
open EveryList

/-! ### C59 Bulk operations -/

/-- If the context is not cancelled, every list is reported exactly once, and what is reported for a list
depends only on what happened with that list.
Partial: if the context is cancelled before all goroutines are started, nothing is reported although the
operation was applied to some lists (`C59_cancelled`). -/
theorem C59_report_partial (limit : Nat) (out : Str → Outcome) (lists : List Str) (hnd : lists.Nodup) (n : Nat)
    (s : State) (hx : Exec limit out n (init lists limit) s) (r : Results) (hr : s.main = .returned (some r)) :
    (r.success.map (·.1) ++ r.errors.map (·.1)).Perm lists ∧
    (∀ k v, (k, v) ∈ r.success ↔ k ∈ lists ∧ out k = .ok v) ∧
    (∀ k m, (k, m) ∈ r.errors ↔ k ∈ lists ∧ ((out k = .missing ∧ m = .notFound) ∨
      (∃ x, out k = .error x ∧ m = .error x) ∨ (∃ x, out k = .panic x ∧ m = .panic x))) := by
  have hi := inv_exec hnd (inv_init limit out lists) hx
  obtain ⟨h1, h2⟩ := hi.returned r hr
  have hw := hi.wg
  have ht : s.todo = [] := List.length_eq_zero_iff.1 (by omega)
  have hrun : s.running = [] := List.length_eq_zero_iff.1 (by omega)
  have hall := hi.all
  rw [ht, show pending s = [] by simp [pending, hrun], ← h1] at hall
  simp only [List.nil_append] at hall
  have hall' : (r.success.map (·.1) ++ r.errors.map (·.1)).Perm lists := hall
  have hsu := hi.success
  have her := hi.errors
  rw [← h1] at hsu her
  refine ⟨hall', ?_, ?_⟩
  · intro k v
    constructor
    · intro hk
      exact ⟨hall'.mem_iff.1 (List.mem_append.2 (Or.inl (List.mem_map.2 ⟨_, hk, rfl⟩))), hsu k v hk⟩
    · rintro ⟨hk, ho⟩
      rcases List.mem_append.1 (hall'.mem_iff.2 hk) with hk | hk
      · obtain ⟨⟨k', v'⟩, hm, rfl⟩ := List.mem_map.1 hk
        have := hsu _ _ hm
        simp only [] at ho
        rw [this] at ho
        simp only [Outcome.ok.injEq] at ho
        subst ho; exact hm
      · obtain ⟨⟨k', m⟩, hm, rfl⟩ := List.mem_map.1 hk
        have := her _ _ hm
        simp only [] at ho
        rw [ho] at this
        simp at this
  · intro k m
    constructor
    · intro hk
      exact ⟨hall'.mem_iff.1 (List.mem_append.2 (Or.inr (List.mem_map.2 ⟨_, hk, rfl⟩))), her k m hk⟩
    · rintro ⟨hk, ho⟩
      rcases List.mem_append.1 (hall'.mem_iff.2 hk) with hk | hk
      · obtain ⟨⟨k', v'⟩, hm, rfl⟩ := List.mem_map.1 hk
        have := hsu _ _ hm
        simp only [] at ho
        rw [this] at ho
        simp at ho
      · obtain ⟨⟨k', m'⟩, hm, rfl⟩ := List.mem_map.1 hk
        have := her _ _ hm
        simp only [] at ho
        suffices m' = m by rw [← this]; exact hm
        rcases ho with ⟨a, b⟩ | ⟨x, a, b⟩ | ⟨x, a, b⟩ <;> rw [a] at this <;> simp at this <;> rw [this, b]

/-- Without cancellation the caller gets results. -/
theorem C59_returns_results (limit : Nat) (out : Str → Outcome) (lists : List Str) (hnd : lists.Nodup) (n : Nat)
    (s : State) (hx : Exec limit out n (init lists limit) s) (r : Option Results) (hr : s.main = .returned r)
    (hc : s.cancelled = false) : r ≠ none := by
  rintro rfl
  have := (inv_exec hnd (inv_init limit out lists) hx).none hr
  rw [hc] at this; simp at this

/-- No execution gets stuck, whatever panics. -/
theorem C59_no_deadlock (limit : Nat) (out : Str → Outcome) (lists : List Str) (hnd : lists.Nodup) (n : Nat)
    (s : State) (hx : Exec limit out n (init lists limit) s) (hf : ¬ Final s) : ∃ s', Step limit out s s' :=
  progress (inv_exec hnd (inv_init limit out lists) hx) hf

/-- Every execution ends. -/
theorem C59_terminates (limit : Nat) (out : Str → Outcome) (lists : List Str) (n : Nat) (s : State)
    (hx : Exec limit out n (init lists limit) s) : n ≤ 5 * lists.length + 2 := by
  have := work_exec hx
  have h0 : work (init lists limit) = 5 * lists.length + 0 + 2 := rfl
  omega

/-- The operation runs on at most `limit` lists at a time. -/
theorem C59_limit (limit : Nat) (out : Str → Outcome) (lists : List Str) (hnd : lists.Nodup) (n : Nat)
    (s : State) (hx : Exec limit out n (init lists limit) s) (hl : 0 < limit) :
    (s.running.filter fun p => p.2 == .run).length ≤ limit := by
  have h1 := (inv_exec hnd (inv_init limit out lists) hx).tokens hl
  have h2 : (s.running.filter fun p => p.2 == .run).length ≤ holding s := by
    rw [← List.countP_eq_length_filter]
    unfold holding
    apply List.countP_mono_left
    intro x _ hx'
    simp [hx']
  omega

/-- After a cancellation the caller may get no results at all, although the operation has changed a list. -/
theorem C59_cancelled : ∃ n s, Exec 1 (fun _ => .ok 7) n (init [[1], [2]] 1) s ∧ Final s ∧
    s.main = .returned none ∧ s.results.success = [([1], 7)] := by
  have h0 := Exec.refl (limit := 1) (out := fun _ => .ok 7) (init [[1], [2]] 1)
  have h1 := h0.step (.go _ [1] [[2]] rfl rfl rfl)
  have h2 := h1.step (.start _ [1] [[2]] rfl rfl (by decide))
  have h3 := h2.step (.record _ [] [1] [] rfl)
  have h4 := h3.cancel
  have h5 := h4.step (.cancelled _ [2] [] rfl rfl rfl)
  have h6 := h5.step (.release _ [] [1] [] rfl (by decide))
  have h7 := h6.step (.done _ [] [1] [] rfl)
  exact ⟨_, _, h7, ⟨⟨none, rfl⟩, rfl⟩, rfl, rfl⟩

/-- Two lists at a time, one missing, one panicking, one working. -/
example : ∃ n s r, Exec 2 (fun k => if k = [1] then .missing else if k = [2] then .panic 3 else .ok 7) n
    (init [[1], [2], [3]] 2) s ∧ ([[1], [2], [3]] : List Str).Nodup ∧ s.main = .returned (some r) ∧
    r.success = [([3], 7)] ∧ r.errors = [([1], .notFound), ([2], .panic 3)] := by
  have h0 := Exec.refl (limit := 2) (out := fun k => if k = [1] then .missing else if k = [2] then .panic 3 else .ok 7)
    (init [[1], [2], [3]] 2)
  have h1 := h0.step (.go _ [1] [[2], [3]] rfl rfl rfl)
  have h2 := h1.step (.start _ [1] [[2], [3]] rfl rfl (by decide))
  have h3 := h2.step (.go _ [2] [[3]] rfl rfl rfl)
  have h4 := h3.step (.start _ [2] [[3]] rfl rfl (by decide))
  have h5 := h4.step (.record _ [([1], .run)] [2] [] rfl)
  have h6 := h5.step (.release _ [([1], .run)] [2] [] rfl (by decide))
  have h7 := h6.step (.go _ [3] [] rfl rfl rfl)
  have h8 := h7.step (.start _ [3] [] rfl rfl (by decide))
  have h9 := h8.step (.allStarted _ rfl rfl)
  have h10 := h9.step (.record _ [] [1] [([2], .done), ([3], .run)] rfl)
  have h11 := h10.step (.record _ [([1], .release), ([2], .done)] [3] [] rfl)
  have h12 := h11.step (.release _ [] [1] [([2], .done), ([3], .release)] rfl (by decide))
  have h13 := h12.step (.release _ [([1], .done), ([2], .done)] [3] [] rfl (by decide))
  have h14 := h13.step (.done _ [] [1] [([2], .done), ([3], .done)] rfl)
  have h15 := h14.step (.done _ [] [2] [([3], .done)] rfl)
  have h16 := h15.step (.done _ [] [3] [] rfl)
  have h17 := h16.step (.return _ rfl rfl)
  exact ⟨_, _, _, h17, by decide, rfl, by decide, by decide⟩

end Props
end RankDB

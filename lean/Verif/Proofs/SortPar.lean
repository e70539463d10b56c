import Verif.Model.SortPar
namespace RankDB.SortPar
open Elements

theorem getElem?_mergePairs : ∀ (l : List (List Element)) (j : Nat),
    (mergePairs l)[j]? = match l[2 * j]?, l[2 * j + 1]? with
      | some a, some b => some (merge 0 true a b)
      | some a, none => some a
      | none, _ => none
  | [], j => by simp [mergePairs]
  | [a], 0 => by simp [mergePairs]
  | [a], j + 1 => by simp [mergePairs]
  | a :: b :: rest, 0 => by simp [mergePairs, mergePairs.mergeAlloc']
  | a :: b :: rest, j + 1 => by
    have h := getElem?_mergePairs rest j
    have e1 : 2 * (j + 1) = 2 * j + 1 + 1 := by omega
    simp only [mergePairs, List.getElem?_cons_succ, h, e1]

/-- The slots while the pieces `S` are merged. -/
structure Inv (S : List (List Element)) (st : St) : Prop where
  len : st.split.length = S.length
  le : st.i ≤ st.next
  rest : ∀ j, st.i ≤ j → st.split[j]? = S[j]?
  pend : ∀ x ∈ st.running, x.1 < st.i ∧ S[2 * x.1]? = some x.2.1 ∧ S[2 * x.1 + 1]? = some x.2.2
  done : ∀ j, j < st.i → (∃ x ∈ st.running, x.1 = j) ∨ st.split[j]? = (mergePairs S)[j]?
  short : st.ended = true → st.i = 0 ∧ st.running = []

theorem inv_start (S : List (List Element)) : Inv S (start S) :=
  ⟨rfl, Nat.zero_le _, fun _ _ => rfl, nofun, fun _ h => absurd h (Nat.not_lt_zero _), fun _ => ⟨rfl, rfl⟩⟩

/-- One step: nothing fails, and either the round goes on or the next one begins. -/
theorem inv_step {S : List (List Element)} {st : St} (h : Inv S st) (w : Who) :
    ∃ st', step st w = some st' ∧
      (Inv S st' ∨ (2 ≤ S.length ∧ Inv (mergePairs S) st')) := by
  cases w with
  | caller =>
    by_cases he : st.ended = true
    · exact ⟨st, by simp only [step, if_pos he], .inl h⟩
    · have he' := he
      simp only [St.ended, decide_eq_true_eq] at he'
      by_cases hi : st.i < st.next
      · have hi2 : st.i < (st.split.length + 1) / 2 := hi
        by_cases h2 : 2 * st.i + 1 ≥ st.split.length
        · have hlt : 2 * st.i < st.split.length := by omega
          have ha : st.split[2 * st.i]? = some st.split[2 * st.i] := List.getElem?_eq_getElem hlt
          refine ⟨{ st with split := st.split.set st.i st.split[2 * st.i], i := st.i + 1 }, ?_, .inl ?_⟩
          · simp only [step, if_neg he, if_pos hi, if_pos h2, ha, if_pos (show st.i < st.split.length by omega)]
          · have hS := h.rest (2 * st.i) (by omega)
            have hS' := h.rest (2 * st.i + 1) (by omega)
            refine ⟨by simpa using h.len, ?_, ?_, ?_, ?_, ?_⟩
            · show st.i + 1 ≤ ((st.split.set _ _).length + 1) / 2
              rw [List.length_set]; exact hi2
            · intro j hj
              show (st.split.set _ _)[j]? = _
              have hj : st.i + 1 ≤ j := hj
              rw [List.getElem?_set_ne (by omega)]
              exact h.rest j (by omega)
            · intro x hx
              have := h.pend x hx
              exact ⟨Nat.lt_succ_of_lt this.1, this.2⟩
            · intro j hj
              have hj : j < st.i + 1 := hj
              by_cases hji : j = st.i
              · subst hji
                refine .inr ?_
                show (st.split.set _ _)[st.i]? = _
                rw [List.getElem?_set_self (by omega), getElem?_mergePairs, ← hS, ← hS', ha,
                  List.getElem?_eq_none (by omega)]
              · rcases h.done j (by omega) with hx | hx
                · exact .inl hx
                · refine .inr ?_
                  show (st.split.set _ _)[j]? = _
                  rw [List.getElem?_set_ne (by omega)]; exact hx
            · intro hend
              simp only [St.ended, List.length_set, decide_eq_true_eq] at hend
              omega
        · have hlt : 2 * st.i + 1 < st.split.length := by omega
          have ha : st.split[2 * st.i]? = some st.split[2 * st.i] := List.getElem?_eq_getElem (by omega)
          have hb : st.split[2 * st.i + 1]? = some st.split[2 * st.i + 1] := List.getElem?_eq_getElem hlt
          refine ⟨{ st with running := st.running ++ [(st.i, st.split[2 * st.i], st.split[2 * st.i + 1])], i := st.i + 1 },
            ?_, .inl ?_⟩
          · simp only [step, if_neg he, if_pos hi, if_neg h2, ha, hb]
          · refine ⟨h.len, hi2, fun j hj => h.rest j (Nat.le_of_succ_le hj), ?_, ?_, fun hend => absurd hend he⟩
            · intro x hx
              rcases List.mem_append.1 hx with hx | hx
              · have := h.pend x hx
                exact ⟨Nat.lt_succ_of_lt this.1, this.2⟩
              · rw [List.mem_singleton] at hx
                subst hx
                exact ⟨Nat.lt_succ_self _, by rw [← h.rest _ (by omega)]; exact ha,
                  by rw [← h.rest _ (by omega)]; exact hb⟩
            · intro j hj
              have hj : j < st.i + 1 := hj
              by_cases hji : j = st.i
              · exact .inl ⟨_, List.mem_append_right _ (List.mem_singleton.2 rfl), hji.symm⟩
              · rcases h.done j (by omega) with ⟨x, hx, he⟩ | hx
                · exact .inl ⟨x, List.mem_append_left _ hx, he⟩
                · exact .inr hx
      · by_cases hr : st.running.isEmpty = true
        · refine ⟨⟨st.split.take st.next, 0, []⟩, ?_, .inr ⟨by have := h.len; omega, ?_⟩⟩
          · simp only [step, if_neg he, if_neg hi, if_pos hr]
          · have hnext : st.next = (st.split.length + 1) / 2 := rfl
            have heq : st.split.take st.next = mergePairs S := by
              apply List.ext_getElem?
              intro j
              by_cases hj : j < st.next
              · rw [List.getElem?_take_of_lt hj]
                rcases h.done j (by omega) with ⟨x, hx, -⟩ | hx
                · rw [List.isEmpty_iff.1 hr] at hx; cases hx
                · exact hx
              · rw [List.getElem?_eq_none (by rw [List.length_take]; omega),
                  List.getElem?_eq_none (by rw [mergePairs_length, ← h.len]; omega)]
            rw [heq]
            exact inv_start _
        · exact ⟨st, by simp only [step, if_neg he, if_neg hi, if_neg hr], .inl h⟩
  | merger k =>
    cases hk : st.running[k]? with
    | none => exact ⟨st, by simp only [step, hk], .inl h⟩
    | some x =>
      obtain ⟨j, a, b⟩ := x
      have hm := List.mem_of_getElem? hk
      obtain ⟨hji, ha, hb⟩ := h.pend _ hm
      have hjl : j < st.split.length := by
        have := h.le; unfold St.next at this; dsimp only at hji; omega
      refine ⟨{ st with split := st.split.set j (merge 0 true a b), running := st.running.eraseIdx k }, ?_, .inl ?_⟩
      · simp only [step, hk, if_pos hjl]
      · refine ⟨by simpa using h.len, ?_, ?_, ?_, ?_, ?_⟩
        · show st.i ≤ ((st.split.set _ _).length + 1) / 2
          rw [List.length_set]; exact h.le
        · intro m hm'
          show (st.split.set _ _)[m]? = _
          have hm' : st.i ≤ m := hm'
          dsimp only at hji
          rw [List.getElem?_set_ne (by omega)]
          exact h.rest m hm'
        · intro y hy
          exact h.pend y (List.mem_of_mem_eraseIdx hy)
        · intro m hm'
          by_cases hmj : m = j
          · subst hmj
            refine .inr ?_
            show (st.split.set _ _)[m]? = _
            dsimp only at ha hb
            rw [List.getElem?_set_self hjl, getElem?_mergePairs, ha, hb]
          · rcases h.done m hm' with ⟨y, hy, he⟩ | hx
            · refine .inl ⟨y, ?_, he⟩
              obtain ⟨n, hn⟩ := List.mem_iff_getElem?.1 hy
              refine List.mem_eraseIdx_iff_getElem?.2 ⟨n, ?_, hn⟩
              rintro rfl
              rw [hn] at hk
              cases hk
              exact hmj he.symm
            · refine .inr ?_
              show (st.split.set _ _)[m]? = _
              rw [List.getElem?_set_ne (fun he => hmj he.symm)]; exact hx
        · intro hend
          have hend' : st.ended = true := by
            simpa only [St.ended, List.length_set] using hend
          rw [(h.short hend').2] at hk
          simp at hk

theorem mergeAll_fuel : ∀ (n : Nat) (S : List (List Element)), S.length ≤ n → mergeAll n S = mergeAll S.length S
  | 0, S, h => by rw [List.length_eq_zero_iff.1 (Nat.le_zero.1 h)]; rfl
  | n + 1, S, h => by
    cases S with
    | nil => rfl
    | cons a S =>
      show (if _ then _ else _) = if _ then _ else _
      by_cases h1 : (a :: S).length ≤ 1
      · rw [if_pos h1, if_pos h1]
      · rw [if_neg h1, if_neg h1]
        have hl := mergePairs_length (a :: S)
        simp only [List.length_cons] at h h1 hl
        rw [mergeAll_fuel n _ (by omega), mergeAll_fuel S.length _ (by omega)]
termination_by n => n
decreasing_by all_goals simp_all; try omega

theorem mergeAll_round {S : List (List Element)} (h : 2 ≤ S.length) :
    mergeAll (mergePairs S).length (mergePairs S) = mergeAll S.length S := by
  have hl := mergePairs_length S
  obtain ⟨n, hn⟩ : ∃ n, S.length = n + 1 := ⟨S.length - 1, by omega⟩
  rw [hn]
  show _ = if _ then _ else _
  rw [if_neg (by omega), mergeAll_fuel n _ (by omega)]

/-- Any number of steps: nothing fails, and the merged pieces are those of one goroutine. -/
theorem inv_run : ∀ (ws : List Who) {S : List (List Element)} {st : St}, Inv S st →
    ∃ st' S', run st ws = some st' ∧ Inv S' st' ∧ mergeAll S'.length S' = mergeAll S.length S
  | [], S, st, h => ⟨st, S, rfl, h, rfl⟩
  | w :: ws, S, st, h => by
    obtain ⟨st1, e1, h1⟩ := inv_step h w
    rcases h1 with h1 | ⟨h2, h1⟩
    · obtain ⟨st', S', e, hi, hm⟩ := inv_run ws h1
      exact ⟨st', S', by simp only [run, e1, e], hi, hm⟩
    · obtain ⟨st', S', e, hi, hm⟩ := inv_run ws h1
      exact ⟨st', S', by simp only [run, e1, e], hi, hm.trans (mergeAll_round h2)⟩

theorem inv_ended {S : List (List Element)} {st : St} (h : Inv S st) (he : st.ended = true) :
    st.split = mergeAll S.length S := by
  have hz := (h.short he).1
  have hS : st.split = S := by
    apply List.ext_getElem?
    intro j
    exact h.rest j (by omega)
  simp only [St.ended, decide_eq_true_eq] at he
  rw [hS] at he ⊢
  match S, he with
  | [], _ => rfl
  | [a], _ => rfl

/-- A step that does something. -/
def Moves (st' st : St) : Prop := ∃ w, step st w = some st' ∧ st' ≠ st

def weight (st : St) : Nat := 2 * (st.next - st.i) + st.running.length

theorem moves_down {st st' : St} (m : Moves st' st) :
    st'.split.length < st.split.length ∨ (st'.split.length = st.split.length ∧ weight st' < weight st) := by
  obtain ⟨w, e, hne⟩ := m
  cases w with
  | caller =>
    by_cases he : st.ended = true
    · simp only [step, if_pos he, Option.some.injEq] at e
      exact absurd e.symm hne
    · have he' := he
      simp only [St.ended, decide_eq_true_eq] at he'
      by_cases hi : st.i < st.next
      · by_cases h2 : 2 * st.i + 1 ≥ st.split.length
        · simp only [step, if_neg he, if_pos hi, if_pos h2] at e
          split at e
          · split at e
            · cases e
              refine .inr ⟨by simp, ?_⟩
              simp only [weight, St.next, List.length_set] at hi ⊢
              omega
            · cases e
          · cases e
        · simp only [step, if_neg he, if_pos hi, if_neg h2] at e
          split at e
          · cases e
            refine .inr ⟨rfl, ?_⟩
            simp only [weight, St.next, List.length_append, List.length_singleton] at hi ⊢
            omega
          · cases e
      · by_cases hr : st.running.isEmpty = true
        · simp only [step, if_neg he, if_neg hi, if_pos hr] at e
          cases e
          left
          simp only [List.length_take, St.next]
          omega
        · simp only [step, if_neg he, if_neg hi, if_neg hr, Option.some.injEq] at e
          exact absurd e.symm hne
  | merger k =>
    cases hk : st.running[k]? with
    | none =>
      simp only [step, hk, Option.some.injEq] at e
      exact absurd e.symm hne
    | some x =>
      obtain ⟨j, a, b⟩ := x
      simp only [step, hk] at e
      split at e
      · cases e
        refine .inr ⟨by simp, ?_⟩
        have hlt : k < st.running.length := (List.getElem?_eq_some_iff.1 hk).1
        simp only [weight, St.next, List.length_set, List.length_eraseIdx_of_lt hlt]
        omega
      · cases e

theorem moves_acc : ∀ (n m : Nat) {S : List (List Element)} {st : St}, Inv S st → st.split.length ≤ n → weight st ≤ m →
    Acc Moves st := by
  intro n
  induction n with
  | zero =>
    intro m S st h hn _
    refine ⟨_, fun st' hm => ?_⟩
    obtain ⟨w, e, hne⟩ := hm
    have he : st.ended = true := by simp only [St.ended, decide_eq_true_eq]; omega
    cases w with
    | caller =>
      simp only [step, if_pos he, Option.some.injEq] at e
      exact absurd e.symm hne
    | merger k =>
      have := (h.short he).2
      simp only [step, this, List.getElem?_nil, Option.some.injEq] at e
      exact absurd e.symm hne
  | succ n ihn =>
    intro m
    induction m with
    | zero =>
      intro S st h hn hw
      refine ⟨_, fun st' hm => ?_⟩
      have hd := moves_down hm
      obtain ⟨w, e, -⟩ := hm
      obtain ⟨st1, e1, h1⟩ := inv_step h w
      rw [e] at e1; cases e1
      rcases hd with hd | ⟨_, hd⟩
      · rcases h1 with h1 | ⟨-, h1⟩ <;> exact ihn _ h1 (by omega) (Nat.le_refl _)
      · omega
    | succ m ihm =>
      intro S st h hn hw
      refine ⟨_, fun st' hm => ?_⟩
      have hd := moves_down hm
      obtain ⟨w, e, -⟩ := hm
      obtain ⟨st1, e1, h1⟩ := inv_step h w
      rw [e] at e1; cases e1
      rcases hd with hd | ⟨hd1, hd⟩
      · rcases h1 with h1 | ⟨-, h1⟩ <;> exact ihn _ h1 (by omega) (Nat.le_refl _)
      · rcases h1 with h1 | ⟨-, h1⟩ <;> exact ihm h1 (by omega) (by omega)

/-- Somebody can go on until the end. -/
theorem can_move {S : List (List Element)} {st : St} (h : Inv S st) (he : st.ended = false) :
    ∃ st', Moves st' st := by
  have hstep : ∀ w st', step st w = some st' → (st'.split.length < st.split.length ∨ st'.i ≠ st.i ∨
      st'.running.length < st.running.length) → Moves st' st := by
    intro w st' e hd
    refine ⟨w, e, ?_⟩
    rintro rfl
    rcases hd with hd | hd | hd
    · exact Nat.lt_irrefl _ hd
    · exact hd rfl
    · exact Nat.lt_irrefl _ hd
  have he' : ¬ st.ended = true := by rw [he]; nofun
  have hlen : ¬ st.split.length ≤ 1 := by simpa only [St.ended, decide_eq_false_iff_not] using he
  obtain ⟨st', e, -⟩ := inv_step h .caller
  by_cases hi : st.i < st.next
  · refine ⟨st', hstep _ _ e (.inr (.inl ?_))⟩
    by_cases h2 : 2 * st.i + 1 ≥ st.split.length
    · simp only [step, if_neg he', if_pos hi, if_pos h2] at e
      split at e
      · split at e
        · cases e; exact Nat.succ_ne_self _
        · cases e
      · cases e
    · simp only [step, if_neg he', if_pos hi, if_neg h2] at e
      split at e
      · cases e; exact Nat.succ_ne_self _
      · cases e
  · cases hr : st.running with
    | nil =>
      refine ⟨st', hstep _ _ e (.inl ?_)⟩
      simp only [step, if_neg he', if_neg hi, hr, List.isEmpty_nil, if_true] at e
      cases e
      simp only [List.length_take, St.next]
      omega
    | cons x xs =>
      obtain ⟨st2, e2, -⟩ := inv_step h (.merger 0)
      refine ⟨st2, hstep _ _ e2 (.inr (.inr ?_))⟩
      obtain ⟨j, a, b⟩ := x
      simp only [step, hr, List.getElem?_cons_zero] at e2
      split at e2
      · cases e2
        simp [hr]
      · cases e2

theorem sortPieces_mono {f g : List Element → Option (List Element × Bool)}
    (h : ∀ l r, f l = some r → g l = some r) : ∀ (ss rs : List (List Element)),
    sortPieces f ss = some rs → sortPieces g ss = some rs
  | [], rs, e => e
  | s :: ss, rs, e => by
    simp only [sortPieces] at e ⊢
    cases hs : f s with
    | none => simp [hs] at e
    | some r =>
      cases hss : sortPieces f ss with
      | none => simp [hs, hss] at e
      | some rs' =>
        simp only [hs, hss, Option.some.injEq] at e
        simp only [h s r hs, sortPieces_mono h ss rs' hss, e]

theorem sort_mono : ∀ (n : Nat) (l : List Element) (r : List Element × Bool),
    sort n l = some r → sort (n + 1) l = some r
  | 0, l, r, h => by cases h
  | n + 1, l, r, h => by
    unfold sort at h ⊢
    split at h
    · rename_i hs; rw [if_pos hs]; exact h
    · rename_i hs
      rw [if_neg hs]
      split at h
      · rename_i hl; rw [if_pos hl]; exact h
      · rename_i hl
        rw [if_neg hl]
        cases hsp : splitSize l 2500 with
        | none => simp [hsp] at h
        | some split =>
          simp only [hsp] at h ⊢
          cases hp : sortPieces (sort n) split with
          | none => simp [hp] at h
          | some ps =>
            simp only [hp] at h
            rw [sortPieces_mono (sort_mono n) _ _ hp]
            exact h

theorem sort_le {n m : Nat} (h : n ≤ m) {l : List Element} {r : List Element × Bool} (e : sort n l = some r) :
    sort m l = some r := by
  induction h with
  | refl => exact e
  | step _ ih => exact sort_mono _ _ _ ih

mutual
theorem sorts_sort : ∀ {l : List Element} {r : List Element × Bool}, Sorts l r → ∃ fuel, sort fuel l = some r
  | _, _, .sorted h => ⟨1, by unfold sort; rw [if_pos h]⟩
  | _, _, .small h hl => ⟨1, by unfold sort; rw [if_neg (by rw [h]; nofun), if_pos hl]⟩
  | _, _, .big (pieces := pieces) (sched := sched) h hl hs ha hr he => by
    obtain ⟨n, hn⟩ := sortsAll_sort ha
    refine ⟨n + 1, ?_⟩
    unfold sort
    rw [if_neg (by rw [h]; nofun), if_neg (by omega)]
    simp only [hs, hn]
    obtain ⟨st', S', e, hi, hm⟩ := inv_run sched (inv_start pieces)
    rw [hr] at e; cases e
    rw [inv_ended hi he, hm]
theorem sortsAll_sort : ∀ {ss rs : List (List Element)}, SortsAll ss rs →
    ∃ fuel, sortPieces (sort fuel) ss = some rs
  | _, _, .nil => ⟨0, rfl⟩
  | _, _, .cons h hs => by
    obtain ⟨n, hn⟩ := sorts_sort h
    obtain ⟨m, hm⟩ := sortsAll_sort hs
    refine ⟨max n m, ?_⟩
    simp only [sortPieces, sort_le (Nat.le_max_left n m) hn,
      sortPieces_mono (fun _ _ e => sort_le (Nat.le_max_right n m) e) _ _ hm]
end

/-- A schedule that reaches the end. -/
theorem reaches_end {S : List (List Element)} {st : St} (h : Inv S st) :
    ∃ ws st', run st ws = some st' ∧ st'.ended = true := by
  have hacc := moves_acc _ _ h (Nat.le_refl _) (Nat.le_refl _)
  induction hacc generalizing S with
  | intro st _ ih =>
    cases he : st.ended with
    | true => exact ⟨[], st, rfl, he⟩
    | false =>
      obtain ⟨st1, hm⟩ := can_move h he
      have hm' := hm
      obtain ⟨w, e, -⟩ := hm
      obtain ⟨st2, e2, h2⟩ := inv_step h w
      rw [e] at e2; cases e2
      rcases h2 with h2 | ⟨-, h2⟩
      · obtain ⟨ws, st', er, he'⟩ := ih st1 hm' h2
        exact ⟨w :: ws, st', by simp only [run, e, er], he'⟩
      · obtain ⟨ws, st', er, he'⟩ := ih st1 hm' h2
        exact ⟨w :: ws, st', by simp only [run, e, er], he'⟩

theorem sort_sorts : ∀ (fuel : Nat) {l : List Element} {r : List Element × Bool}, sort fuel l = some r → Sorts l r
  | 0, _, _, h => by cases h
  | n + 1, l, r, h => by
    unfold sort at h
    split at h
    · rename_i hs; cases h; exact .sorted hs
    · rename_i hs
      have hs : isSorted l = false := by simpa using hs
      split at h
      · rename_i hl; cases h; exact .small hs hl
      · rename_i hl
        cases hsp : splitSize l 2500 with
        | none => simp [hsp] at h
        | some split =>
          simp only [hsp] at h
          cases hp : sortPieces (sort n) split with
          | none => simp [hp] at h
          | some ps =>
            simp only [hp, Option.some.injEq] at h
            have ha : ∀ ss rs, sortPieces (sort n) ss = some rs → SortsAll ss rs := by
              intro ss
              induction ss with
              | nil => intro rs e; cases e; exact .nil
              | cons s ss ih =>
                intro rs e
                simp only [sortPieces] at e
                split at e
                · rename_i r1 rs1 e1 e2
                  cases e
                  exact .cons (sort_sorts n e1) (ih _ e2)
                · cases e
            obtain ⟨ws, st, er, he⟩ := reaches_end (inv_start ps)
            obtain ⟨st', S', e, hi, hm⟩ := inv_run ws (inv_start ps)
            rw [er] at e; cases e
            have := Sorts.big hs (by omega) hsp (ha _ _ hp) er he
            rw [inv_ended hi he, hm, h] at this
            exact this

end RankDB.SortPar

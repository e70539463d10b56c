import Verif.Proofs.MaxSize
import Verif.Spec.MaxSteps
/-
Lemmas for C98.
-/
namespace RankDB.MaxSteps
open Wire
open RankDB.MaxSize (Store State Err Res Op mapKey extKey partKey setCount putUvarint uvarint total partKey_inj put_ne
  put_same getParts setParts deleteExtra deleteParts run final)
open Spec.MaxSteps
open Spec.MaxSize (Separate)

/-! ### Operations one after the other -/

def acts (st : State) (p : Prog) : List Fate → State × Prog
  | [] => (st, p)
  | f :: fs => acts (act st p f).1 (act st p f).2 fs

def allok (fs : List Fate) : Bool := fs.all (· == .ok)

theorem acts_done (st : State) (r : Res) (fs : List Fate) : acts st (.done r) fs = (st, .done r) := by
  induction fs with
  | nil => rfl
  | cons f fs ih => exact ih

theorem acts_append (st : State) (p : Prog) (fs gs : List Fate) :
    acts st p (fs ++ gs) = acts (acts st p fs).1 (acts st p fs).2 gs := by
  induction fs generalizing st p with
  | nil => rfl
  | cons f fs ih => exact ih _ _

theorem allok_append (fs gs : List Fate) : allok (fs ++ gs) = (allok fs && allok gs) := by
  simp [allok]

/-- With enough failures every call ends, and nothing more changes in the store. -/
theorem ends_failing (p : Prog) (st : State) :
    ∃ fs r, (acts st p fs).2 = .done r ∧ (acts st p fs).1.store = st.store := by
  induction p generalizing st with
  | done r => exact ⟨[], r, rfl, rfl⟩
  | read s k c ih =>
    obtain ⟨fs, r, h1, h2⟩ := ih none st
    exact ⟨.fail :: fs, r, h1, h2⟩
  | write s k v c ih =>
    obtain ⟨fs, r, h1, h2⟩ := ih false st
    exact ⟨.fail :: fs, r, h1, h2⟩
  | count m c ih =>
    obtain ⟨fs, r, h1, h2⟩ := ih (st.parts m) st
    exact ⟨.fail :: fs, r, h1, h2⟩
  | setCount m n p ih =>
    obtain ⟨fs, r, h1, h2⟩ := ih { st with parts := setCount st.parts m n }
    exact ⟨.fail :: fs, r, h1, h2⟩

/-! ### Atomic calls -/

theorem getParts_congr {f g : Nat → Bool} {s : Store} {set key : Str} (c i : Nat) (acc : Bytes)
    (h : ∀ j, i < j → f j = g j) : getParts f s set key c i acc = getParts g s set key c i acc := by
  induction c generalizing i acc with
  | zero => rfl
  | succ c ih =>
    simp only [getParts]
    rw [h (i + 1) (by omega)]
    split
    · split
      · rfl
      · exact ih _ _ fun j hj => h j (by omega)
    · rfl

theorem deleteExtra_congr {f g : Nat → Bool} {set key : Str} (c i : Nat) (s : Store)
    (h : ∀ j, i ≤ j → f j = g j) : deleteExtra f set key c i s = deleteExtra g set key c i s := by
  induction c generalizing i s with
  | zero => rfl
  | succ c ih =>
    simp only [deleteExtra]
    rw [h i (by omega)]
    exact ih _ _ fun j hj => h j (by omega)

theorem setParts_congr {max : Nat} {late : Bool} {f g : Nat → Bool} {set key : Str} (c i : Nat) (b2 : Bytes) (s : Store)
    (h : ∀ j, i ≤ j → f j = g j) : setParts max f late set key c i b2 s = setParts max g late set key c i b2 s := by
  induction c generalizing i b2 s with
  | zero => rfl
  | succ c ih =>
    simp only [setParts]
    rw [h i (by omega)]
    split
    · exact ih _ _ _ fun j hj => h j (by omega)
    · rfl

theorem deleteParts_congr {late : Bool} {f g : Nat → Bool} {set key : Str} (c i : Nat) (s : Store)
    (h : ∀ j, i < j → f j = g j) : deleteParts f late set key c i s = deleteParts g late set key c i s := by
  induction c generalizing i s with
  | zero => rfl
  | succ c ih =>
    simp only [deleteParts]
    rw [h (i + 1) (by omega)]
    split
    · exact ih _ _ fun j hj => h j (by omega)
    · rfl

theorem allok_cons (f : Fate) (fs : List Fate) : allok (f :: fs) = true ↔ f = .ok ∧ allok fs = true := by
  simp [allok]

theorem getLoop_atomic {set key : Str} (c i : Nat) (acc : Bytes) (st st' : State) (fs : List Fate) (r : Res)
    (h : acts st (getLoop set key c i acc) fs = (st', .done r)) :
    st' = st ∧ ∃ f : Nat → Bool, r = .blob (getParts f st.store set key c i acc) ∧ (allok fs = true → ∀ j, f j = true) := by
  induction c generalizing i acc fs with
  | zero =>
    simp only [getLoop, acts_done, Prod.mk.injEq, Prog.done.injEq] at h
    exact ⟨h.1.symm, fun _ => true, h.2.symm, fun _ _ => rfl⟩
  | succ c ih =>
    cases fs with
    | nil => simp [getLoop, acts] at h
    | cons f0 fs =>
      by_cases hf : f0 = .ok
      · subst hf
        simp only [getLoop, acts, act] at h
        cases hs : st.store set (extKey key i) with
        | none =>
          simp only [hs, if_true, acts_done, Prod.mk.injEq, Prog.done.injEq] at h
          refine ⟨h.1.symm, fun _ => true, ?_, fun _ _ => rfl⟩
          simp only [getParts, if_true, hs]
          exact h.2.symm
        | some b =>
          simp only [hs, if_true] at h
          obtain ⟨h1, f, h2, h3⟩ := ih _ _ _ h
          refine ⟨h1, fun j => if j = i + 1 then true else f j, ?_, ?_⟩
          · simp only [getParts, if_true, hs]
            rw [h2]
            congr 1
            apply getParts_congr
            intro j hj
            rw [if_neg (by omega)]
          · intro ha j
            dsimp only
            split
            · rfl
            · exact h3 ((allok_cons _ _).1 ha).2 j
      · simp only [getLoop, acts, act, if_neg hf, acts_done, Prod.mk.injEq, Prog.done.injEq] at h
        refine ⟨h.1.symm, fun _ => false, ?_, fun ha => absurd ((allok_cons _ _).1 ha).1 hf⟩
        simp only [getParts]
        exact h.2.symm

theorem extraLoop_atomic {set key : Str} (c i : Nat) (p : Prog) (st st' : State) (fs : List Fate) (r : Res)
    (h : acts st (extraLoop set key c i p) fs = (st', .done r)) :
    ∃ (g : Nat → Bool) (fs' : List Fate), acts { st with store := deleteExtra g set key c i st.store } p fs' = (st', .done r) ∧
      (allok fs = true → allok fs' = true ∧ ∀ j, g j = true) := by
  induction c generalizing i st fs with
  | zero => exact ⟨fun _ => true, fs, h, fun ha => ⟨ha, fun _ => rfl⟩⟩
  | succ c ih =>
    cases fs with
    | nil => simp [extraLoop, acts] at h
    | cons f0 fs =>
      simp only [extraLoop, acts, act] at h
      obtain ⟨g, fs', h1, h2⟩ := ih _ _ _ h
      refine ⟨fun j => if j = i then decide (f0 ≠ .fail) else g j, fs', ?_, ?_⟩
      · rw [← h1]
        congr 1
        simp only [deleteExtra, if_true]
        rw [deleteExtra_congr (f := fun j => if j = i then decide (f0 ≠ .fail) else g j) (g := g) c (i + 1) _ ?_]
        · by_cases hf : f0 = .fail
          · simp [hf]
          · simp [hf]
        · intro j hj
          rw [if_neg (by omega)]
      · intro ha
        obtain ⟨ha1, ha2⟩ := (allok_cons _ _).1 ha
        obtain ⟨h3, h4⟩ := h2 ha2
        refine ⟨h3, fun j => ?_⟩
        dsimp only
        split
        · rw [ha1]; rfl
        · exact h4 j

theorem setLoop_atomic {max : Nat} {set key : Str} {m : Str} {n : Nat} (c i : Nat) (b2 : Bytes) (st st' : State)
    (fs : List Fate) (r : Res)
    (h : acts st (setLoop max set key c i b2 (.setCount m n (.done (.unit (.ok ()))))) fs = (st', .done r)) :
    ∃ (f : Nat → Bool) (late : Bool), (allok fs = true → ∀ j, f j = true) ∧
      (st', r) = if (setParts max f late set key c i b2 st.store).2 = true then
          ({ store := (setParts max f late set key c i b2 st.store).1, parts := setCount st.parts m n }, .unit (.ok ()))
        else ({ st with store := (setParts max f late set key c i b2 st.store).1 }, .unit (.error .store)) := by
  induction c generalizing i b2 st fs with
  | zero =>
    refine ⟨fun _ => true, true, fun _ _ => rfl, ?_⟩
    simp only [setLoop, setParts, if_true] at h ⊢
    cases fs with
    | nil => simp [acts] at h
    | cons f0 fs =>
      simp only [acts, act, acts_done, Prod.mk.injEq, Prog.done.injEq] at h
      rw [← h.1, ← h.2]
  | succ c ih =>
    cases fs with
    | nil => simp [setLoop, acts] at h
    | cons f0 fs =>
      by_cases hf : f0 = .ok
      · subst hf
        simp only [setLoop, acts, act, decide_true] at h
        obtain ⟨f, late, h1, h2⟩ := ih _ _ _ _ h
        refine ⟨fun j => if j = i then true else f j, late, ?_, ?_⟩
        · intro ha j
          dsimp only
          split
          · rfl
          · exact h1 ((allok_cons _ _).1 ha).2 j
        · simp only [setParts, if_true]
          rw [setParts_congr (f := fun j => if j = i then true else f j) (g := f) c (i + 1) _ _ ?_]
          · simpa using h2
          · intro j hj
            rw [if_neg (by omega)]
      · refine ⟨fun _ => false, decide (f0 ≠ .fail), fun ha => absurd ((allok_cons _ _).1 ha).1 hf, ?_⟩
        simp only [setLoop, acts, act, decide_eq_false hf, acts_done, Prod.mk.injEq, Prog.done.injEq] at h
        simp only [setParts, ← h.1, ← h.2]
        by_cases hf' : f0 = .fail
        · simp [hf']
        · simp [hf']

theorem deleteLoop_atomic {set key : Str} (c i : Nat) (st st' : State)
    (fs : List Fate) (r : Res) (h : acts st (deleteLoop set key c i) fs = (st', .done r)) :
    ∃ (f : Nat → Bool) (late : Bool), (allok fs = true → ∀ j, f j = true) ∧
      (st', r) = if (deleteParts f late set key c i st.store).2 = true then
          ({ store := (deleteParts f late set key c i st.store).1, parts := setCount st.parts (mapKey set key) 0 }, .unit (.ok ()))
        else ({ st with store := (deleteParts f late set key c i st.store).1 }, .unit (.error .store)) := by
  induction c generalizing i st fs with
  | zero =>
    refine ⟨fun _ => true, true, fun _ _ => rfl, ?_⟩
    simp only [deleteLoop, deleteParts, if_true] at h ⊢
    cases fs with
    | nil => simp [acts] at h
    | cons f0 fs =>
      simp only [acts, act, acts_done, Prod.mk.injEq, Prog.done.injEq] at h
      rw [← h.1, ← h.2]
  | succ c ih =>
    cases fs with
    | nil => simp [deleteLoop, acts] at h
    | cons f0 fs =>
      by_cases hf : f0 = .ok
      · subst hf
        simp only [deleteLoop, acts, act, decide_true] at h
        obtain ⟨f, late, h1, h2⟩ := ih _ _ _ h
        refine ⟨fun j => if j = i + 1 then true else f j, late, ?_, ?_⟩
        · intro ha j
          dsimp only
          split
          · rfl
          · exact h1 ((allok_cons _ _).1 ha).2 j
        · simp only [deleteParts, if_true]
          rw [deleteParts_congr (f := fun j => if j = i + 1 then true else f j) (g := f) c (i + 1) _ ?_]
          · simpa using h2
          · intro j hj
            rw [if_neg (by omega)]
      · refine ⟨fun _ => false, decide (f0 ≠ .fail), fun ha => absurd ((allok_cons _ _).1 ha).1 hf, ?_⟩
        simp only [deleteLoop, acts, act, decide_eq_false hf, acts_done, Prod.mk.injEq, Prog.done.injEq] at h
        simp only [deleteParts, ← h.1, ← h.2]
        by_cases hf' : f0 = .fail
        · simp [hf']
        · simp [hf']

theorem get_atomic {set key : Str} (st st' : State) (fs : List Fate) (r : Res)
    (h : acts st (getProg set key) fs = (st', .done r)) :
    ∃ f : Nat → Bool, (allok fs = true → ∀ j, f j = true) ∧
      (st', r) = ((MaxSize.get f st set key).1, .blob (MaxSize.get f st set key).2) := by
  cases fs with
  | nil => simp [getProg, acts] at h
  | cons f0 fs =>
    by_cases hf : f0 = .ok
    · subst hf
      simp only [getProg, acts, act, if_true] at h
      cases hs : st.store set key with
      | none =>
        refine ⟨fun _ => true, fun _ _ => rfl, ?_⟩
        simp only [hs, acts_done, Prod.mk.injEq, Prog.done.injEq] at h
        simp only [MaxSize.get, if_true, hs, ← h.1, ← h.2]
      | some b =>
        simp only [hs] at h
        cases hu : uvarint b with
        | none =>
          refine ⟨fun _ => true, fun _ _ => rfl, ?_⟩
          simp only [hu, acts_done, Prod.mk.injEq, Prog.done.injEq] at h
          simp only [MaxSize.get, if_true, hs, hu, ← h.1, ← h.2]
        | some q =>
          obtain ⟨n, size⟩ := q
          simp only [hu] at h
          by_cases hn : n = 0
          · rw [if_pos hn] at h
            refine ⟨fun _ => true, fun _ _ => rfl, ?_⟩
            cases fs with
            | nil => simp [acts] at h
            | cons f1 fs =>
              simp only [acts, act, acts_done, Prod.mk.injEq, Prog.done.injEq] at h
              simp only [MaxSize.get, if_true, hs, hu, if_pos hn, ← h.1, ← h.2]
          · rw [if_neg hn] at h
            cases fs with
            | nil => simp [acts] at h
            | cons f1 fs =>
              simp only [acts, act] at h
              obtain ⟨h1, f, h2, h3⟩ := getLoop_atomic _ _ _ _ _ _ _ h
              refine ⟨fun j => if j = 0 then true else f j, ?_, ?_⟩
              · intro ha j
                dsimp only
                split
                · rfl
                · exact h3 ((allok_cons _ _).1 ((allok_cons _ _).1 ha).2).2 j
              · simp only [MaxSize.get, if_true, hs, hu, if_neg hn, h1, h2]
                rw [getParts_congr (f := fun j => if j = 0 then true else f j) (g := f)]
                intro j hj
                rw [if_neg (by omega)]
    · refine ⟨fun _ => false, fun ha => absurd ((allok_cons _ _).1 ha).1 hf, ?_⟩
      simp only [getProg, acts, act, if_neg hf, acts_done, Prod.mk.injEq, Prog.done.injEq] at h
      simp only [MaxSize.get, ← h.1, ← h.2]
      rfl

theorem set_atomic {max : Nat} {set key : Str} {b : Bytes} (st st' : State) (fs : List Fate) (r : Res)
    (h : acts st (setProg max set key b) fs = (st', .done r)) :
    ∃ (g f : Nat → Bool) (late : Bool), (allok fs = true → ∀ j, g j = true ∧ f j = true) ∧
      (st', r) = ((MaxSize.set max g f late st set key b).1, .unit (MaxSize.set max g f late st set key b).2) := by
  unfold setProg at h
  by_cases hb : 65535 ≤ total max b
  · rw [if_pos hb] at h
    simp only [acts_done, Prod.mk.injEq, Prog.done.injEq] at h
    refine ⟨fun _ => true, fun _ => true, true, fun _ _ => ⟨rfl, rfl⟩, ?_⟩
    simp only [MaxSize.set, if_pos hb, ← h.1, ← h.2]
  · rw [if_neg hb] at h
    cases fs with
    | nil => simp [acts] at h
    | cons f0 fs =>
      simp only [acts, act] at h
      obtain ⟨g, fs', h1, h2⟩ := extraLoop_atomic _ _ _ _ _ _ _ h
      obtain ⟨f, late, h3, h4⟩ := setLoop_atomic _ _ _ _ _ _ _ h1
      refine ⟨g, f, late, ?_, ?_⟩
      · intro ha j
        obtain ⟨h5, h6⟩ := h2 ((allok_cons _ _).1 ha).2
        exact ⟨h6 j, h3 h5 j⟩
      · rw [h4]
        simp only [MaxSize.set, if_neg hb]
        split <;> rfl

theorem delete_atomic {set key : Str} (st st' : State) (fs : List Fate) (r : Res)
    (h : acts st (deleteProg set key) fs = (st', .done r)) :
    ∃ (f : Nat → Bool) (late : Bool), (allok fs = true → ∀ j, f j = true) ∧
      (st', r) = ((MaxSize.delete f late st set key).1, .unit (MaxSize.delete f late st set key).2) := by
  unfold deleteProg at h
  cases fs with
  | nil => simp [acts] at h
  | cons f0 fs =>
    simp only [acts, act] at h
    by_cases hn : st.parts (mapKey set key) = 0
    · rw [if_pos hn] at h
      cases fs with
      | nil => simp [acts] at h
      | cons f1 fs =>
        by_cases hf : f1 = .ok
        · subst hf
          simp only [acts, act, if_true] at h
          cases hs : st.store set key with
          | none =>
            refine ⟨fun _ => true, true, fun _ _ => rfl, ?_⟩
            simp only [hs, acts_done, Prod.mk.injEq, Prog.done.injEq] at h
            simp only [MaxSize.delete, if_pos hn, if_true, hs, ← h.1, ← h.2]
          | some b =>
            simp only [hs] at h
            have key : ∀ c, acts st (deleteLoop set key c 0) fs = (st', .done r) →
                (match uvarint b with | none => 1 | some (n, _) => n + 1) = c →
                ∃ (f : Nat → Bool) (late : Bool), (allok (f0 :: .ok :: fs) = true → ∀ j, f j = true) ∧
                  (st', r) = ((MaxSize.delete f late st set key).1, .unit (MaxSize.delete f late st set key).2) := by
              intro c hc hu
              obtain ⟨f, late, h1, h2⟩ := deleteLoop_atomic _ _ _ _ _ _ hc
              refine ⟨fun j => if j = 0 then true else f j, late, ?_, ?_⟩
              · intro ha j
                dsimp only
                split
                · rfl
                · exact h1 ((allok_cons _ _).1 ((allok_cons _ _).1 ha).2).2 j
              · rw [h2]
                simp only [MaxSize.delete, if_pos hn, if_true, hs]
                rw [deleteParts_congr (f := f) (g := fun j => if j = 0 then true else f j) c 0 _ (by
                  intro j hj
                  rw [if_neg (by omega)])]
                subst hu
                cases uvarint b with
                | none => dsimp only; split <;> rfl
                | some q => dsimp only; split <;> rfl
            cases hu : uvarint b with
            | none => rw [hu] at h; exact key _ h (by rw [hu])
            | some q => rw [hu] at h; exact key _ h (by rw [hu])
        · refine ⟨fun _ => false, true, fun ha => absurd ((allok_cons _ _).1 ((allok_cons _ _).1 ha).2).1 hf, ?_⟩
          simp only [acts, act, if_neg hf, acts_done, Prod.mk.injEq, Prog.done.injEq] at h
          simp only [MaxSize.delete, if_pos hn, ← h.1, ← h.2]
          rfl
    · rw [if_neg hn] at h
      obtain ⟨f, late, h1, h2⟩ := deleteLoop_atomic _ _ _ _ _ _ h
      refine ⟨f, late, fun ha => h1 ((allok_cons _ _).1 ha).2, ?_⟩
      rw [h2]
      simp only [MaxSize.delete, if_neg hn]
      split <;> rfl

theorem call_atomic {max : Nat} (c : Call) (st st' : State) (fs : List Fate) (r : Res)
    (h : acts st (c.prog max) fs = (st', .done r)) : ∃ o, IsCall c (allok fs) o ∧ MaxSize.step max st o = (st', r) := by
  cases c with
  | get s k =>
    obtain ⟨f, h1, h2⟩ := get_atomic _ _ _ _ h
    exact ⟨.get f s k, ⟨f, rfl, h1⟩, h2.symm⟩
  | set s k b =>
    obtain ⟨g, f, late, h1, h2⟩ := set_atomic _ _ _ _ h
    exact ⟨.set g f late s k b, ⟨g, f, late, rfl, h1⟩, h2.symm⟩
  | delete s k =>
    obtain ⟨f, late, h1, h2⟩ := delete_atomic _ _ _ _ h
    exact ⟨.delete f late s k, ⟨f, late, rfl, h1⟩, h2.symm⟩

end RankDB.MaxSteps

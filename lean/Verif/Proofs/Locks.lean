import Verif.Model.Locks
/-
Invariants of the locking of a list: a discipline for programs, and that no set of programs that keep to it
can get stuck.
-/
namespace RankDB.Locks

/-- The order in which locks are taken. -/
def rank : Lock → Nat
  | .update => 0
  | .loading => 1
  | .segments => 2
  | .list => 3
  | .seg _ _ => 4
  | .table _ => 5

/-- Locks that are used only while holding `segments`. -/
def inner : Lock → Bool
  | .seg _ _ => true
  | .table _ => true
  | _ => false

def isSeg : Lock → Bool
  | .seg _ _ => true
  | _ => false

theorem inner_of_isSeg {l : Lock} (h : isSeg l = true) : inner l = true := by cases l <;> simp_all [isSeg, inner]

theorem rank_lt (l : Lock) : rank l < 6 := by cases l <;> simp [rank]

abbrev Held := List (Lock × Bool)

/-- A program of a started goroutine: the caller holds `M`, the call may hold `Sh`. -/
def OkKid (M : Held) (Sh : List Lock) : Held → List Act → Prop
  | own, [] => own = []
  | own, .acq l w :: p =>
    inner l = true ∧ (∃ w', (Lock.segments, w') ∈ M) ∧ (isSeg l = true → w = true → (Lock.update, true) ∈ M) ∧
    (∀ h ∈ M, rank h.1 < rank l) ∧ (∀ h ∈ own, rank h.1 < rank l) ∧ (∀ s ∈ Sh, rank s < rank l) ∧
    OkKid M Sh ((l, w) :: own) p
  | own, .rel l w :: p => (l, w) ∈ own ∧ OkKid M Sh (own.erase (l, w)) p
  | own, .load l ok :: p =>
    inner l = true ∧ (∃ w', (Lock.segments, w') ∈ M) ∧ (Lock.update, true) ∈ M ∧ (ok = true → l ∈ Sh) ∧
    (∀ h ∈ M, rank h.1 < rank l) ∧ (∀ h ∈ own, rank h.1 < rank l) ∧ (∀ s ∈ Sh, rank s ≤ rank l) ∧ OkKid M Sh own p

/-- A program of a started goroutine that only reads segments. -/
def OkRead : Held → List Act → Prop
  | own, [] => own = []
  | own, .acq l w :: p => isSeg l = true ∧ w = false ∧ OkRead ((l, w) :: own) p
  | own, .rel l w :: p => (l, w) ∈ own ∧ OkRead (own.erase (l, w)) p
  | _, .load _ _ :: _ => False

/-- What the caller holds when it waits for its goroutines. -/
def afterRels : Held → List Instr → Held
  | own, .act (.rel l w) :: p => afterRels (own.erase (l, w)) p
  | own, _ => own

/-- The caller holds what it needs for goroutines that only read. -/
def Reads (M : Held) (Sh : List Lock) : Prop :=
  Sh = [] ∧ (Lock.update, true) ∈ M ∧ (∃ w, (Lock.segments, w) ∈ M) ∧ ∀ h ∈ M, inner h.1 = false

/-- The program of the caller; with `true` while it has goroutines. -/
def Ok : Bool → List Lock → Held → List Instr → Prop
  | b, Sh, own, [] => b = false ∧ own = [] ∧ Sh = []
  | b, Sh, own, .act (.acq l w) :: p =>
    b = false ∧ (inner l = true → ∃ w', (Lock.segments, w') ∈ own) ∧
    (isSeg l = true → w = true → (Lock.update, true) ∈ own) ∧
    (((∀ h ∈ own, rank h.1 < rank l) ∧ ∀ s ∈ Sh, rank s < rank l) ∨
     ((Lock.segments, true) ∈ own ∧ inner l = true ∧ (∀ h ∈ own, h.1 ≠ l) ∧ l ∉ Sh)) ∧
    Ok false Sh ((l, w) :: own) p
  | b, Sh, own, .act (.rel l w) :: p =>
    (l, w) ∈ own ∧
    (b = true → l ≠ .update ∧ l ≠ .segments) ∧
    (l = .segments → Sh = [] ∧ ∀ h ∈ own, inner h.1 = false) ∧
    (l = .update → Sh = [] ∧ ∀ h ∈ own, isSeg h.1 = false) ∧
    Ok b Sh (own.erase (l, w)) p
  | b, Sh, own, .act (.load l ok) :: p =>
    b = false ∧ inner l = true ∧ (∃ w', (Lock.segments, w') ∈ own) ∧ (Lock.update, true) ∈ own ∧
    (∀ h ∈ own, rank h.1 < rank l) ∧ (∀ s ∈ Sh, rank s ≤ rank l) ∧ Ok false (if ok then l :: Sh else Sh) own p
  | b, Sh, own, .unload l :: p => b = false ∧ Ok false (Sh.filter (· != l)) own p
  | b, Sh, own, .par ps :: p =>
    b = false ∧ ∃ Sh', (∀ l ∈ Sh, l ∈ Sh') ∧ Ok true Sh' own p ∧
      ((∀ k ∈ ps, OkKid (afterRels own p) Sh' [] k) ∨
       (Reads (afterRels own p) Sh' ∧ ∀ k ∈ ps, OkRead [] k))
  | b, Sh, own, .join :: p => b = true ∧ Ok false Sh own p

/-- A program that keeps to the discipline. -/
def Disciplined (p : List Instr) : Prop := Ok false [] [] p

/-! ### Invariant -/

/-- The goroutines of a call whose caller will hold `M` while waiting. -/
def KidsOK (M : Held) (Sh : List Lock) (kids : List (Gor Act)) : Prop :=
  (∀ k ∈ kids, OkKid M Sh k.own k.prog ∧ ∀ h ∈ k.own, ∀ s ∈ Sh, rank s < rank h.1) ∨
  (Reads M Sh ∧ ∀ k ∈ kids, OkRead k.own k.prog ∧ ∀ h ∈ k.own, h.2 = false)

structure CallOK (c : Call) (Sh : List Lock) : Prop where
  shared : ∀ l ∈ c.shared, l ∈ Sh
  inner : ∀ h ∈ held c, inner h.1 = true → ∃ w, (Lock.segments, w) ∈ c.main.own
  segW : ∀ l, isSeg l = true → (l, true) ∈ held c → (Lock.update, true) ∈ c.main.own
  prog : (c.kids = [] ∧ Ok false Sh c.main.own c.main.prog) ∨
    (Ok true Sh c.main.own c.main.prog ∧ KidsOK (afterRels c.main.own c.main.prog) Sh c.kids)

/-- A lock held for writing is held once. -/
def Excl (hs : Held) : Prop := ∀ l, (l, true) ∈ hs → hs.countP (fun h => h.1 == l) = 1

structure Inv (st : State) : Prop where
  calls : ∀ c ∈ st, ∃ Sh, CallOK c Sh
  excl : Excl (st.flatMap held)

/-! ### Actions -/

/-- What `act` can do. -/
inductive Did (hs : Held) (ps sh : List Lock) (own : Held) (pend : Bool) :
    Act → Held × Bool × Bool × List Lock → Prop
  | read (l : Lock) (h1 : (l, true) ∉ hs) (h2 : l ∉ ps) :
      Did hs ps sh own pend (.acq l false) ((l, false) :: own, false, true, sh)
  | write (l : Lock) (h1 : l ∉ hs.map (·.1)) :
      Did hs ps sh own pend (.acq l true) ((l, true) :: own, false, true, sh)
  | announce (l : Lock) (hp : pend = false) : Did hs ps sh own pend (.acq l true) (own, true, false, sh)
  | release (l : Lock) (w : Bool) (h : (l, w) ∈ own) :
      Did hs ps sh own pend (.rel l w) (own.erase (l, w), false, true, sh)
  | has (l : Lock) (ok : Bool) (h : l ∈ sh) : Did hs ps sh own pend (.load l ok) (own, false, true, sh)
  | load (l : Lock) (h1 : l ∉ hs.map (·.1)) (h2 : l ∉ sh) :
      Did hs ps sh own pend (.load l true) (own, false, true, l :: sh)
  | loadFails (l : Lock) (h1 : l ∉ hs.map (·.1)) : Did hs ps sh own pend (.load l false) (own, false, true, sh)
  | announceLoad (l : Lock) (ok : Bool) (hp : pend = false) (h2 : l ∉ sh) :
      Did hs ps sh own pend (.load l ok) (own, true, false, sh)

theorem act_did {hs : Held} {ps sh : List Lock} {own : Held} {pend : Bool} {a : Act}
    {r : Held × Bool × Bool × List Lock} (h : act hs ps sh own pend a = some r) : Did hs ps sh own pend a r := by
  cases a with
  | acq l w =>
    cases w with
    | false =>
      unfold act at h
      dsimp only at h
      by_cases hc : (l, true) ∈ hs ∨ l ∈ ps
      · rw [if_pos hc] at h; cases h
      · rw [if_neg hc] at h; cases h
        exact .read l (fun h => hc (.inl h)) (fun h => hc (.inr h))
    | true =>
      unfold act at h
      dsimp only at h
      by_cases hp : pend = true
      · rw [if_pos hp] at h
        by_cases hc : l ∈ hs.map (·.1)
        · rw [if_pos hc] at h; cases h
        · rw [if_neg hc] at h; cases h; exact .write l hc
      · rw [if_neg hp] at h
        by_cases hc : (l, true) ∈ hs ∨ l ∈ ps
        · rw [if_pos hc] at h; cases h
        · rw [if_neg hc] at h; cases h; exact .announce l (by simpa using hp)
  | rel l w =>
    unfold act at h
    dsimp only at h
    by_cases hc : (l, w) ∈ own
    · rw [if_pos hc] at h; cases h; exact .release l w hc
    · rw [if_neg hc] at h; cases h
  | load l ok =>
    unfold act at h
    dsimp only at h
    by_cases hl : l ∈ sh
    · rw [if_pos hl] at h; cases h; exact .has l ok hl
    rw [if_neg hl] at h
    by_cases hp : pend = true
    · rw [if_pos hp] at h
      by_cases hc : l ∈ hs.map (·.1)
      · rw [if_pos hc] at h; cases h
      · rw [if_neg hc] at h
        cases ok
        · cases h; exact .loadFails l hc
        · cases h; exact .load l hc hl
    · rw [if_neg hp] at h
      by_cases hc : (l, true) ∈ hs ∨ l ∈ ps
      · rw [if_pos hc] at h; cases h
      · rw [if_neg hc] at h; cases h; exact .announceLoad l ok (by simpa using hp) hl

/-- How the locks of a call change in one step. -/
def Grow (hs h h' : Held) : Prop :=
  (∃ l w, h'.Perm ((l, w) :: h) ∧ ((l, true) ∉ hs) ∧ (w = true → l ∉ hs.map (·.1))) ∨ ∃ r, h.Perm (r ++ h')

theorem Grow.same {hs h : Held} : Grow hs h h := .inr ⟨[], .refl _⟩

theorem excl_grow {hs a h h' b : Held} (he : Excl (a ++ (h ++ b))) (hhs : hs = a ++ (h ++ b))
    (hg : Grow hs h h') : Excl (a ++ (h' ++ b)) := by
  intro l hl
  rcases hg with ⟨l0, w, hp, hr, hw⟩ | ⟨r, hp⟩
  · have hperm : (a ++ (h' ++ b)).Perm ((l0, w) :: (a ++ (h ++ b))) :=
      ((hp.append_right b).append_left a).trans (List.perm_middle)
    rw [hperm.countP_eq]
    rw [hperm.mem_iff] at hl
    rw [List.countP_cons]
    by_cases hll : l0 = l
    · subst hll
      rcases List.mem_cons.1 hl with he' | hm
      · cases he'
        have : (a ++ (h ++ b)).countP (fun h => h.1 == l0) = 0 := by
          rw [List.countP_eq_zero]
          intro x hx hxl
          apply hw rfl
          rw [hhs]
          exact List.mem_map.2 ⟨x, hx, by simpa using hxl⟩
        rw [this]; simp
      · exact absurd (hhs ▸ hm) hr
    · rcases List.mem_cons.1 hl with he' | hm
      · cases he'; exact absurd rfl hll
      · have := he l hm
        rw [this]; simp [hll]
  · have hperm : (a ++ (h ++ b)).Perm (r ++ (a ++ (h' ++ b))) := by
      refine ((hp.append_right b).append_left a).trans ?_
      rw [List.append_assoc]
      exact List.perm_append_comm_assoc a r (h' ++ b)
    have hm : (l, true) ∈ a ++ (h ++ b) := hperm.mem_iff.2 (List.mem_append_right _ hl)
    have h1 := he l hm
    rw [hperm.countP_eq, List.countP_append] at h1
    have h2 : 0 < (a ++ (h' ++ b)).countP (fun h => h.1 == l) :=
      List.countP_pos_iff.2 ⟨(l, true), hl, by simp⟩
    omega

/-! ### Steps of a call -/

inductive Stepped (hs : Held) (ps : List Lock) : Call → Call → Prop
  | act {own : Held} {pend : Bool} {a : Act} {p : List Instr} {kids : List (Gor Act)} {sh : List Lock}
      {r : Held × Bool × Bool × List Lock} (h : Did hs ps sh own pend a r) :
      Stepped hs ps ⟨⟨own, pend, .act a :: p⟩, kids, sh⟩
        ⟨⟨r.1, r.2.1, if r.2.2.1 then p else .act a :: p⟩, kids, r.2.2.2⟩
  | unload {own : Held} {pend : Bool} {l : Lock} {p : List Instr} {kids : List (Gor Act)} {sh : List Lock} :
      Stepped hs ps ⟨⟨own, pend, .unload l :: p⟩, kids, sh⟩ ⟨⟨own, pend, p⟩, kids, sh.filter (· != l)⟩
  | par {own : Held} {pend : Bool} {qs : List (List Act)} {p : List Instr} {kids : List (Gor Act)} {sh : List Lock} :
      Stepped hs ps ⟨⟨own, pend, .par qs :: p⟩, kids, sh⟩ ⟨⟨own, pend, p⟩, kids ++ qs.map Gor.start, sh⟩
  | join {own : Held} {pend : Bool} {p : List Instr} {kids : List (Gor Act)} {sh : List Lock}
      (h : ∀ k ∈ kids, k.prog = []) :
      Stepped hs ps ⟨⟨own, pend, .join :: p⟩, kids, sh⟩ ⟨⟨own, pend, p⟩, [], sh⟩
  | kid {main : Gor Instr} {a b : List (Gor Act)} {own : Held} {pend : Bool} {x : Act} {p : List Act}
      {sh : List Lock} {r : Held × Bool × Bool × List Lock} (h : Did hs ps sh own pend x r) :
      Stepped hs ps ⟨main, a ++ ⟨own, pend, x :: p⟩ :: b, sh⟩
        ⟨main, a ++ ⟨r.1, r.2.1, if r.2.2.1 then p else x :: p⟩ :: b, r.2.2.2⟩

theorem split_at {α : Type} {l : List α} {i : Nat} {x : α} (h : l[i]? = some x) :
    ∃ a b, l = a ++ x :: b ∧ a.length = i := by
  have hi : i < l.length := by
    rcases Nat.lt_or_ge i l.length with h' | h'
    · exact h'
    · rw [List.getElem?_eq_none h'] at h; cases h
  refine ⟨l.take i, l.drop (i + 1), ?_, by simp; omega⟩
  rw [List.getElem?_eq_getElem hi] at h
  cases h
  rw [List.getElem_cons_drop, List.take_append_drop]

theorem set_at {α : Type} (a b : List α) (x y : α) : (a ++ x :: b).set a.length y = a ++ y :: b := by simp

theorem exec_stepped {st st' : State} {i j : Nat} (h : exec st i j = some st') :
    ∃ a c b c', st = a ++ c :: b ∧ st' = a ++ c' :: b ∧ Stepped (st.flatMap held) (st.flatMap pending) c c' := by
  unfold exec at h
  cases hc : st[i]? with
  | none => rw [hc] at h; cases h
  | some c =>
    rw [hc] at h
    dsimp only at h
    obtain ⟨a, b, hst, hi⟩ := split_at hc
    obtain ⟨c', hc', rfl⟩ := Option.map_eq_some_iff.1 h
    refine ⟨a, c, b, c', hst, ?_, ?_⟩
    · rw [hst, ← hi, set_at]
    · obtain ⟨⟨own, pend, prog⟩, kids, sh⟩ := c
      cases j with
      | zero =>
        dsimp only at hc'
        unfold stepMain at hc'
        dsimp only at hc'
        match prog, hc' with
        | .act x :: p, hc' =>
          obtain ⟨r, hr, rfl⟩ := Option.map_eq_some_iff.1 hc'
          exact .act (act_did hr)
        | .unload l :: p, hc' => cases hc'; exact .unload
        | .par qs :: p, hc' => cases hc'; exact .par
        | .join :: p, hc' =>
          dsimp only at hc'
          by_cases hk : (kids.all (·.prog.isEmpty)) = true
          · rw [if_pos hk] at hc'
            cases hc'
            refine .join fun k hk' => ?_
            simpa using List.all_eq_true.1 hk k hk'
          · rw [if_neg hk] at hc'; cases hc'
      | succ j =>
        dsimp only at hc'
        unfold stepKid at hc'
        dsimp only at hc'
        cases hk : kids[j]? with
        | none => rw [hk] at hc'; cases hc'
        | some k =>
          rw [hk] at hc'
          obtain ⟨ka, kb, hks, hj⟩ := split_at hk
          obtain ⟨kown, kpend, kprog⟩ := k
          match kprog, hc', hks with
          | x :: p, hc', hks =>
            obtain ⟨r, hr, rfl⟩ := Option.map_eq_some_iff.1 hc'
            subst hks
            rw [← hj, set_at]
            exact .kid (act_did hr)

/-- The locks of a goroutine together with those of its call. -/
theorem did_grow {hs : Held} {ps sh : List Lock} {own : Held} {pend : Bool} {a : Act}
    {r : Held × Bool × Bool × List Lock} (h : Did hs ps sh own pend a r) (x y : Held) :
    Grow hs (x ++ (own ++ y) ++ sh.map fun l => (l, true)) (x ++ (r.1 ++ y) ++ r.2.2.2.map fun l => (l, true)) := by
  cases h with
  | read l h1 h2 =>
    refine .inl ⟨l, false, ?_, h1, fun h => by cases h⟩
    simp only [List.cons_append, List.append_assoc]
    exact List.perm_middle
  | write l h1 =>
    refine .inl ⟨l, true, ?_, fun h => h1 (List.mem_map.2 ⟨_, h, rfl⟩), fun _ => h1⟩
    simp only [List.cons_append, List.append_assoc]
    exact List.perm_middle
  | announce => exact .same
  | release l w hm =>
    refine .inr ⟨[(l, w)], ?_⟩
    have := List.perm_cons_erase hm
    simp only [List.append_assoc]
    refine (((this.append_right _).append_left x)).trans ?_
    exact List.perm_middle
  | has => exact .same
  | load l h1 h2 =>
    refine .inl ⟨l, true, ?_, fun h => h1 (List.mem_map.2 ⟨_, h, rfl⟩), fun _ => h1⟩
    simp only [List.map_cons]
    exact List.perm_middle
  | loadFails => exact .same
  | announceLoad => exact .same

theorem stepped_grow {hs : Held} {ps : List Lock} {c c' : Call} {Sh : List Lock} (hok : CallOK c Sh)
    (h : Stepped hs ps c c') : Grow hs (held c) (held c') := by
  cases h with
  | act hd => simpa [held] using did_grow hd [] _
  | @unload own pend l p kids sh =>
    have hp := List.filter_append_perm (fun x => x != l) sh
    refine .inr ⟨(sh.filter fun x => !(x != l)).map fun l => (l, true), ?_⟩
    unfold held
    dsimp only
    have hp2 : (sh.map fun l => ((l, true) : Lock × Bool)).Perm
        ((sh.filter fun x => !(x != l)).map (fun l => (l, true)) ++ (sh.filter (· != l)).map fun l => (l, true)) := by
      rw [← List.map_append]
      exact (hp.symm.trans List.perm_append_comm).map _
    refine (hp2.append_left _).trans ?_
    exact List.perm_append_comm_assoc _ _ _
  | @par own pend qs p kids sh =>
    have : (List.map Gor.start qs).flatMap (fun k : Gor Act => k.own) = [] := by
      rw [List.flatMap_eq_nil_iff]
      intro k hk
      obtain ⟨q, _, rfl⟩ := List.mem_map.1 hk
      rfl
    refine .inr ⟨[], ?_⟩
    simp [held, this]
  | @join own pend p kids sh hk =>
    have : kids.flatMap (fun k : Gor Act => k.own) = [] := by
      rw [List.flatMap_eq_nil_iff]
      intro k hk'
      rcases hok.prog with ⟨h1, _⟩ | ⟨_, h2⟩
      · dsimp only at h1; rw [h1] at hk'; cases hk'
      · rcases h2 with h2 | ⟨_, h2⟩
        · have := (h2 k hk').1
          rw [hk k hk'] at this
          exact this
        · have := (h2 k hk').1
          rw [hk k hk'] at this
          exact this
    refine .inr ⟨[], ?_⟩
    simp [held, this]
  | @kid main a b own pend x p sh r hd =>
    have := did_grow hd (main.own ++ a.flatMap (·.own)) (b.flatMap (·.own))
    simpa [held] using this

/-! ### The discipline is kept -/

theorem mem_held {c : Call} {h : Lock × Bool} :
    h ∈ held c ↔ h ∈ c.main.own ∨ (∃ k ∈ c.kids, h ∈ k.own) ∨ ∃ l ∈ c.shared, (l, true) = h := by
  simp [held, List.mem_append, List.mem_flatMap, List.mem_map]

theorem afterRels_sub {own : Held} {p : List Instr} {h : Lock × Bool} (hm : h ∈ afterRels own p) : h ∈ own := by
  induction p generalizing own with
  | nil => exact hm
  | cons x p ih =>
    unfold afterRels at hm
    split at hm
    · rename_i heq
      cases heq
      exact List.mem_of_mem_erase (ih hm)
    · exact hm

theorem mem_erase_ne {own : Held} {x y : Lock × Bool} (h : x ∈ own) (hne : x.1 ≠ y.1) : x ∈ own.erase y :=
  (List.mem_erase_of_ne (fun he => hne (by rw [he]))).2 h

theorem ok_act {hs : Held} {ps : List Lock} {own : Held} {pend : Bool} {a : Act} {p : List Instr}
    {kids : List (Gor Act)} {sh Sh : List Lock} {r : Held × Bool × Bool × List Lock}
    (hok : CallOK ⟨⟨own, pend, .act a :: p⟩, kids, sh⟩ Sh) (hd : Did hs ps sh own pend a r) :
    ∃ Sh', CallOK ⟨⟨r.1, r.2.1, if r.2.2.1 then p else .act a :: p⟩, kids, r.2.2.2⟩ Sh' := by
  have hsh := hok.shared
  have hin := hok.inner
  have hsw := hok.segW
  have hpr := hok.prog
  simp only [mem_held] at hsh hin hsw hpr
  -- taking a lock
  have take : ∀ l w, a = .acq l w → CallOK ⟨⟨(l, w) :: own, false, p⟩, kids, sh⟩ Sh := by
    intro l w ha
    subst ha
    rcases hpr with ⟨hk, -, h2, h3, h4, h5⟩ | ⟨⟨hb, _⟩, _⟩
    · refine ⟨hsh, ?_, ?_, .inl ⟨hk, h5⟩⟩
      · intro h hh hi
        rw [mem_held] at hh
        simp only [List.mem_cons] at hh ⊢
        rcases hh with (rfl | hh) | hh
        · obtain ⟨w', hw'⟩ := h2 hi; exact ⟨w', .inr hw'⟩
        · obtain ⟨w', hw'⟩ := hin h (.inl hh) hi; exact ⟨w', .inr hw'⟩
        · obtain ⟨w', hw'⟩ := hin h (.inr hh) hi; exact ⟨w', .inr hw'⟩
      · intro l' hl' hh
        rw [mem_held] at hh
        simp only [List.mem_cons] at hh ⊢
        rcases hh with (he | hh) | hh
        · cases he; exact .inr (h3 hl' rfl)
        · exact .inr (hsw l' hl' (.inl hh))
        · exact .inr (hsw l' hl' (.inr hh))
    · cases hb
  cases hd with
  | read l h1 h2 => exact ⟨Sh, take l false rfl⟩
  | write l h1 => exact ⟨Sh, take l true rfl⟩
  | announce l hp => exact ⟨Sh, ⟨hok.shared, hok.inner, hok.segW, hok.prog⟩⟩
  | announceLoad l ok hp h2 => exact ⟨Sh, ⟨hok.shared, hok.inner, hok.segW, hok.prog⟩⟩
  | release l w hm =>
    refine ⟨Sh, ?_⟩
    have hrel : (l = .segments → kids = [] ∧ Sh = [] ∧ ∀ h ∈ own, inner h.1 = false) ∧
        (l = .update → kids = [] ∧ Sh = [] ∧ ∀ h ∈ own, isSeg h.1 = false) := by
      rcases hpr with ⟨hk, -, h2, h3, h4, h5⟩ | ⟨⟨-, h2, h3, h4, h5⟩, -⟩
      · exact ⟨fun h => ⟨hk, h3 h⟩, fun h => ⟨hk, h4 h⟩⟩
      · exact ⟨fun h => absurd h (h2 rfl).2, fun h => absurd h (h2 rfl).1⟩
    refine ⟨hsh, ?_, ?_, ?_⟩
    · intro h hh hi
      rw [mem_held] at hh
      dsimp only at hh ⊢
      have hh' : h ∈ own ∨ (∃ k ∈ kids, h ∈ k.own) ∨ ∃ l ∈ sh, (l, true) = h :=
        hh.imp_left List.mem_of_mem_erase
      by_cases hl : l = .segments
      · obtain ⟨hk, hS, hno⟩ := hrel.1 hl
        subst hk
        rcases hh' with h1 | ⟨k, hk, _⟩ | ⟨l', hl', _⟩
        · exact absurd hi (by simp [hno h h1])
        · cases hk
        · have := hsh l' hl'; rw [hS] at this; cases this
      · obtain ⟨w', hw'⟩ := hin h hh' hi
        exact ⟨w', mem_erase_ne hw' (Ne.symm hl)⟩
    · intro l' hl' hh
      rw [mem_held] at hh
      dsimp only at hh ⊢
      have hh' : (l', true) ∈ own ∨ (∃ k ∈ kids, (l', true) ∈ k.own) ∨ ∃ l ∈ sh, (l, true) = (l', true) :=
        hh.imp_left List.mem_of_mem_erase
      by_cases hl : l = .update
      · obtain ⟨hk, hS, hno⟩ := hrel.2 hl
        subst hk
        rcases hh' with h1 | ⟨k, hk, _⟩ | ⟨l', hl', _⟩
        · exact absurd hl' (by simp [hno _ h1])
        · cases hk
        · have := hsh l' hl'; rw [hS] at this; cases this
      · exact mem_erase_ne (hsw l' hl' hh') (Ne.symm hl)
    · rcases hpr with ⟨hk, h1, h2, h3, h4, h5⟩ | ⟨⟨h1, h2, h3, h4, h5⟩, hkids⟩
      · exact .inl ⟨hk, h5⟩
      · exact .inr ⟨h5, hkids⟩
  | has l ok hl =>
    rcases hpr with ⟨hk, -, h2, h3, h4, h5, h6, h7⟩ | ⟨⟨hb, _⟩, _⟩
    · refine ⟨if ok then l :: Sh else Sh, fun x hx => ?_, hok.inner, hok.segW, .inl ⟨hk, h7⟩⟩
      cases ok
      · exact hsh x hx
      · exact List.mem_cons_of_mem _ (hsh x hx)
    · cases hb
  | loadFails l _ =>
    rcases hpr with ⟨hk, -, h2, h3, h4, h5, h6, h7⟩ | ⟨⟨hb, _⟩, _⟩
    · exact ⟨Sh, hsh, hok.inner, hok.segW, .inl ⟨hk, h7⟩⟩
    · cases hb
  | load l h1 h2' =>
    rcases hpr with ⟨hk, -, h2, h3, h4, h5, h6, h7⟩ | ⟨⟨hb, _⟩, _⟩
    · refine ⟨l :: Sh, ?_, ?_, ?_, .inl ⟨hk, h7⟩⟩
      · intro x hx
        rcases List.mem_cons.1 hx with rfl | hx
        · exact List.mem_cons_self
        · exact List.mem_cons_of_mem _ (hsh x hx)
      · intro h hh hi
        rw [mem_held] at hh
        simp only [List.mem_cons] at hh ⊢
        rcases hh with hh | hh | ⟨x, rfl | hx, hh⟩
        · exact hin h (.inl hh) hi
        · exact hin h (.inr (.inl hh)) hi
        · exact h3
        · exact hin h (.inr (.inr ⟨x, hx, hh⟩)) hi
      · intro l' hl' hh
        exact h4
    · cases hb

theorem ok_kid {hs : Held} {ps : List Lock} {main : Gor Instr} {ka kb : List (Gor Act)} {own : Held} {pend : Bool}
    {x : Act} {p : List Act} {sh Sh : List Lock} {r : Held × Bool × Bool × List Lock}
    (hok : CallOK ⟨main, ka ++ ⟨own, pend, x :: p⟩ :: kb, sh⟩ Sh) (hd : Did hs ps sh own pend x r) :
    CallOK ⟨main, ka ++ ⟨r.1, r.2.1, if r.2.2.1 then p else x :: p⟩ :: kb, r.2.2.2⟩ Sh := by
  have hsh := hok.shared
  have hin := hok.inner
  have hsw := hok.segW
  have hpr := hok.prog
  simp only [mem_held] at hsh hin hsw hpr
  rcases hpr with ⟨hk, _⟩ | ⟨hmain, hkids⟩
  · exact absurd hk (by simp)
  -- the new goroutine keeps to the discipline
  have hkids' : KidsOK (afterRels main.own main.prog) Sh
      (ka ++ ⟨r.1, r.2.1, if r.2.2.1 then p else x :: p⟩ :: kb) ∧
      (∀ h ∈ r.1, h ∉ own → (inner h.1 = true → ∃ w, (Lock.segments, w) ∈ main.own) ∧
        (isSeg h.1 = true → h.2 = true → (Lock.update, true) ∈ main.own)) ∧
      (∀ l ∈ r.2.2.2, l ∉ sh → l ∈ Sh ∧ (∃ w, (Lock.segments, w) ∈ main.own) ∧ (Lock.update, true) ∈ main.own) := by
    rcases hkids with hkids | ⟨hro, hkids⟩
    · have hself := hkids ⟨own, pend, x :: p⟩ (by simp)
      dsimp only at hself
      have rest : ∀ k' : Gor Act, (OkKid (afterRels main.own main.prog) Sh k'.own k'.prog ∧
          ∀ h ∈ k'.own, ∀ s ∈ Sh, rank s < rank h.1) →
          KidsOK (afterRels main.own main.prog) Sh (ka ++ k' :: kb) := by
        intro k' hk'
        refine .inl fun k hk => ?_
        rcases List.mem_append.1 hk with hk | hk
        · exact hkids k (by simp [hk])
        rcases List.mem_cons.1 hk with rfl | hk
        · exact hk'
        · exact hkids k (by simp [hk])
      cases hd with
      | read l h1 h2 =>
        obtain ⟨⟨a1, ⟨w', a2⟩, a3, a4, a5, a6, a7⟩, hr⟩ := hself
        refine ⟨rest _ ⟨a7, ?_⟩, ?_, fun l hl hnl => absurd hl hnl⟩
        · intro h hh
          rcases List.mem_cons.1 hh with rfl | hh
          · exact a6
          · exact hr h hh
        · intro h hh hno
          rcases List.mem_cons.1 hh with rfl | hh
          · exact ⟨fun _ => ⟨w', afterRels_sub a2⟩, fun _ hf => by cases hf⟩
          · exact absurd hh hno
      | write l h1 =>
        obtain ⟨⟨a1, ⟨w', a2⟩, a3, a4, a5, a6, a7⟩, hr⟩ := hself
        refine ⟨rest _ ⟨a7, ?_⟩, ?_, fun l hl hnl => absurd hl hnl⟩
        · intro h hh
          rcases List.mem_cons.1 hh with rfl | hh
          · exact a6
          · exact hr h hh
        · intro h hh hno
          rcases List.mem_cons.1 hh with rfl | hh
          · exact ⟨fun _ => ⟨w', afterRels_sub a2⟩, fun hs _ => afterRels_sub (a3 hs rfl)⟩
          · exact absurd hh hno
      | announce l hp => exact ⟨rest _ hself, fun h hh hno => absurd hh hno, fun l hl hnl => absurd hl hnl⟩
      | announceLoad l _ hp h2 => exact ⟨rest _ hself, fun h hh hno => absurd hh hno, fun l hl hnl => absurd hl hnl⟩
      | release l w hm =>
        obtain ⟨⟨a1, a2⟩, hr⟩ := hself
        exact ⟨rest _ ⟨a2, fun h hh => hr h (List.mem_of_mem_erase hh)⟩,
          fun h hh hno => absurd (List.mem_of_mem_erase hh) hno, fun l hl hnl => absurd hl hnl⟩
      | has l _ hl =>
        obtain ⟨⟨a1, a2, a3, a4, a5, a6, a7, a8⟩, hr⟩ := hself
        exact ⟨rest _ ⟨a8, hr⟩, fun h hh hno => absurd hh hno, fun l hl hnl => absurd hl hnl⟩
      | loadFails l _ =>
        obtain ⟨⟨a1, a2, a3, a4, a5, a6, a7, a8⟩, hr⟩ := hself
        exact ⟨rest _ ⟨a8, hr⟩, fun h hh hno => absurd hh hno, fun l hl hnl => absurd hl hnl⟩
      | load l h1 h2 =>
        obtain ⟨⟨a1, ⟨w', a2⟩, a3, a4, a5, a6, a7, a8⟩, hr⟩ := hself
        refine ⟨rest _ ⟨a8, hr⟩, fun h hh hno => absurd hh hno, fun l' hl hnl => ?_⟩
        rcases List.mem_cons.1 hl with rfl | hl
        · exact ⟨a4 rfl, ⟨w', afterRels_sub a2⟩, afterRels_sub a3⟩
        · exact absurd hl hnl
    · have hself := hkids ⟨own, pend, x :: p⟩ (by simp)
      dsimp only at hself
      have rest : ∀ k' : Gor Act, (OkRead k'.own k'.prog ∧ ∀ h ∈ k'.own, h.2 = false) →
          KidsOK (afterRels main.own main.prog) Sh (ka ++ k' :: kb) := by
        intro k' hk'
        refine .inr ⟨hro, fun k hk => ?_⟩
        rcases List.mem_append.1 hk with hk | hk
        · exact hkids k (by simp [hk])
        rcases List.mem_cons.1 hk with rfl | hk
        · exact hk'
        · exact hkids k (by simp [hk])
      obtain ⟨hr1, hr2, ⟨w', hr3⟩, hr4⟩ := hro
      cases hd with
      | read l h1 h2 =>
        obtain ⟨⟨a1, a2, a3⟩, hr⟩ := hself
        refine ⟨rest _ ⟨a3, ?_⟩, ?_, fun l hl hnl => absurd hl hnl⟩
        · intro h hh
          rcases List.mem_cons.1 hh with rfl | hh
          · rfl
          · exact hr h hh
        · intro h hh hno
          rcases List.mem_cons.1 hh with rfl | hh
          · exact ⟨fun _ => ⟨w', afterRels_sub hr3⟩, fun _ hf => by cases hf⟩
          · exact absurd hh hno
      | write l h1 => exact absurd hself.1.2.1 (by simp)
      | announce l hp => exact absurd hself.1.2.1 (by simp)
      | release l w hm =>
        obtain ⟨⟨a1, a2⟩, hr⟩ := hself
        exact ⟨rest _ ⟨a2, fun h hh => hr h (List.mem_of_mem_erase hh)⟩,
          fun h hh hno => absurd (List.mem_of_mem_erase hh) hno, fun l hl hnl => absurd hl hnl⟩
      | has l _ hl => exact absurd hself.1 (by simp [OkRead])
      | loadFails l _ => exact absurd hself.1 (by simp [OkRead])
      | load l h1 h2 => exact absurd hself.1 (by simp [OkRead])
      | announceLoad l _ hp h2 => exact absurd hself.1 (by simp [OkRead])
  obtain ⟨hk1, hk2, hk3⟩ := hkids'
  refine ⟨?_, ?_, ?_, .inr ⟨hmain, hk1⟩⟩
  · intro l hl
    by_cases hls : l ∈ sh
    · exact hsh l hls
    · exact (hk3 l hl hls).1
  · intro h hh hi
    rw [mem_held] at hh
    dsimp only at hh ⊢
    rcases hh with hh | ⟨k, hk, hh⟩ | ⟨l, hl, rfl⟩
    · exact hin h (.inl hh) hi
    · rcases List.mem_append.1 hk with hk | hk
      · exact hin h (.inr (.inl ⟨k, by simp [hk], hh⟩)) hi
      rcases List.mem_cons.1 hk with rfl | hk
      · by_cases ho : h ∈ own
        · exact hin h (.inr (.inl ⟨⟨own, pend, x :: p⟩, by simp, ho⟩)) hi
        · exact (hk2 h hh ho).1 hi
      · exact hin h (.inr (.inl ⟨k, by simp [hk], hh⟩)) hi
    · by_cases hls : l ∈ sh
      · exact hin _ (.inr (.inr ⟨l, hls, rfl⟩)) hi
      · exact (hk3 l hl hls).2.1
  · intro l' hl' hh
    rw [mem_held] at hh
    dsimp only at hh ⊢
    rcases hh with hh | ⟨k, hk, hh⟩ | ⟨l, hl, he⟩
    · exact hsw l' hl' (.inl hh)
    · rcases List.mem_append.1 hk with hk | hk
      · exact hsw l' hl' (.inr (.inl ⟨k, by simp [hk], hh⟩))
      rcases List.mem_cons.1 hk with rfl | hk
      · by_cases ho : (l', true) ∈ own
        · exact hsw l' hl' (.inr (.inl ⟨⟨own, pend, x :: p⟩, by simp, ho⟩))
        · exact (hk2 _ hh ho).2 hl' rfl
      · exact hsw l' hl' (.inr (.inl ⟨k, by simp [hk], hh⟩))
    · cases he
      by_cases hls : l' ∈ sh
      · exact hsw _ hl' (.inr (.inr ⟨l', hls, rfl⟩))
      · exact (hk3 l' hl hls).2.2

theorem stepped_ok {hs : Held} {ps : List Lock} {c c' : Call} {Sh : List Lock} (hok : CallOK c Sh)
    (h : Stepped hs ps c c') : ∃ Sh', CallOK c' Sh' := by
  have hsh := hok.shared
  have hin := hok.inner
  have hsw := hok.segW
  have hpr := hok.prog
  cases h with
  | act hd => exact ok_act hok hd
  | kid hd => exact ⟨Sh, ok_kid hok hd⟩
  | @unload own pend l p kids sh =>
    rcases hpr with ⟨hk, -, h2⟩ | ⟨⟨hb, _⟩, _⟩
    · refine ⟨_, ?_, ?_, ?_, .inl ⟨hk, h2⟩⟩
      · intro x hx
        have := List.mem_filter.1 hx
        exact List.mem_filter.2 ⟨hsh x this.1, this.2⟩
      · intro h hh hi
        refine hin h ?_ hi
        rw [mem_held] at hh ⊢
        exact hh.imp_right (Or.imp_right fun ⟨x, hx, he⟩ => ⟨x, (List.mem_filter.1 hx).1, he⟩)
      · intro l' hl' hh
        refine hsw l' hl' ?_
        rw [mem_held] at hh ⊢
        exact hh.imp_right (Or.imp_right fun ⟨x, hx, he⟩ => ⟨x, (List.mem_filter.1 hx).1, he⟩)
    · cases hb
  | @par own pend qs p kids sh =>
    rcases hpr with ⟨hk, -, Sh', h1, h2, h3⟩ | ⟨⟨hb, _⟩, _⟩
    · dsimp only at hk
      subst hk
      have hmem : ∀ h : Lock × Bool, h ∈ held ⟨⟨own, pend, p⟩, [] ++ qs.map Gor.start, sh⟩ →
          h ∈ held ⟨⟨own, pend, .par qs :: p⟩, [], sh⟩ := by
        intro h hh
        rw [mem_held] at hh ⊢
        rcases hh with hh | ⟨k, hk, hh⟩ | hh
        · exact .inl hh
        · obtain ⟨q, _, rfl⟩ := List.mem_map.1 hk
          cases hh
        · exact .inr (.inr hh)
      refine ⟨Sh', fun x hx => h1 x (hsh x hx), fun h hh hi => hin h (hmem h hh) hi,
        fun l hl hh => hsw l hl (hmem _ hh), .inr ⟨h2, ?_⟩⟩
      rcases h3 with h3 | ⟨h3, h4⟩
      · refine .inl fun k hk => ?_
        obtain ⟨q, hq, rfl⟩ := List.mem_map.1 hk
        exact ⟨h3 q hq, fun h hh => (by cases hh)⟩
      · refine .inr ⟨h3, fun k hk => ?_⟩
        obtain ⟨q, hq, rfl⟩ := List.mem_map.1 hk
        exact ⟨h4 q hq, fun h hh => (by cases hh)⟩
    · cases hb
  | @join own pend p kids sh hk =>
    rcases hpr with ⟨_, hb, _⟩ | ⟨⟨-, h2⟩, _⟩
    · cases hb
    · have hmem : ∀ h : Lock × Bool, h ∈ held ⟨⟨own, pend, p⟩, [], sh⟩ →
          h ∈ held ⟨⟨own, pend, .join :: p⟩, kids, sh⟩ := by
        intro h hh
        rw [mem_held] at hh ⊢
        rcases hh with hh | ⟨k, hk, _⟩ | hh
        · exact .inl hh
        · cases hk
        · exact .inr (.inr hh)
      exact ⟨Sh, hsh, fun h hh hi => hin h (hmem h hh) hi, fun l hl hh => hsw l hl (hmem _ hh), .inl ⟨rfl, h2⟩⟩

theorem inv_step {st st' : State} (hi : Inv st) (h : Step st st') : Inv st' := by
  obtain ⟨i, j, h⟩ := h
  obtain ⟨a, c, b, c', rfl, rfl, hs⟩ := exec_stepped h
  obtain ⟨Sh, hc⟩ := hi.calls c (by simp)
  refine ⟨fun d hd => ?_, ?_⟩
  · rcases List.mem_append.1 hd with hd | hd
    · exact hi.calls d (by simp [hd])
    rcases List.mem_cons.1 hd with rfl | hd
    · exact stepped_ok hc hs
    · exact hi.calls d (by simp [hd])
  · have he := hi.excl
    rw [List.flatMap_append, List.flatMap_cons] at he ⊢
    refine excl_grow he ?_ (stepped_grow hc hs)
    rw [List.flatMap_append, List.flatMap_cons]

theorem inv_init {ps : List (List Instr)} (h : ∀ p ∈ ps, Disciplined p) : Inv (init ps) := by
  have hnil : (init ps).flatMap held = [] := by
    rw [List.flatMap_eq_nil_iff]
    intro c hc
    obtain ⟨p, _, rfl⟩ := List.mem_map.1 hc
    rfl
  refine ⟨fun c hc => ?_, ?_⟩
  · obtain ⟨p, hp, rfl⟩ := List.mem_map.1 hc
    exact ⟨[], fun l hl => (by cases hl), fun h hh => (by cases hh), fun l _ hh => (by cases hh), .inl ⟨rfl, h p hp⟩⟩
  · intro l hl
    rw [hnil] at hl
    cases hl

theorem inv_run {n : Nat} {st st' : State} (hi : Inv st) (h : Run n st st') : Inv st' := by
  induction h with
  | refl => exact hi
  | step _ hs ih => exact inv_step (ih hi) hs

/-! ### Progress -/

/-- Nothing can move. -/
def Stuck (st : State) : Prop := ∀ i j, exec st i j = none

/-- The lock an action is about to take. -/
def target : Act → Option Lock
  | .acq l _ => some l
  | .load l _ => some l
  | .rel _ _ => none

theorem stuck_main {st : State} (h : Stuck st) {c : Call} (hc : c ∈ st) :
    stepMain (st.flatMap held) (st.flatMap pending) c = none := by
  obtain ⟨i, hi⟩ := List.mem_iff_getElem?.1 hc
  have := h i 0
  unfold exec at this
  rw [hi] at this
  simpa using this

theorem stuck_kid {st : State} (h : Stuck st) {c : Call} (hc : c ∈ st) {k : Gor Act} (hk : k ∈ c.kids) {a : Act}
    {p : List Act} (hp : k.prog = a :: p) :
    act (st.flatMap held) (st.flatMap pending) c.shared k.own k.pend a = none := by
  obtain ⟨i, hi⟩ := List.mem_iff_getElem?.1 hc
  obtain ⟨j, hj⟩ := List.mem_iff_getElem?.1 hk
  have := h i (j + 1)
  unfold exec at this
  rw [hi] at this
  dsimp only at this
  unfold stepKid at this
  rw [hj] at this
  dsimp only at this
  rw [hp] at this
  simpa using this

theorem stuck_act {st : State} (h : Stuck st) {c : Call} (hc : c ∈ st) {a : Act} {p : List Instr}
    (hp : c.main.prog = .act a :: p) :
    act (st.flatMap held) (st.flatMap pending) c.shared c.main.own c.main.pend a = none := by
  have := stuck_main h hc
  unfold stepMain at this
  rw [hp] at this
  simpa using this

/-- A blocked action: the lock it wants is held or announced, and held if the goroutine has announced
itself. -/
theorem blocked {hs : Held} {ps sh : List Lock} {own : Held} {pend : Bool} {a : Act}
    (h : act hs ps sh own pend a = none) :
    (∃ l w, a = .rel l w ∧ (l, w) ∉ own) ∨
    ∃ l, target a = some l ∧ (∀ ok, a = .load l ok → l ∉ sh) ∧ (l ∈ hs.map (·.1) ∨ l ∈ ps) ∧
      (waits pend (some a) ≠ [] → l ∈ hs.map (·.1)) ∧ (a = .acq l false → (l, true) ∈ hs ∨ l ∈ ps) := by
  have hmem : ∀ l, (l, true) ∈ hs ∨ l ∈ ps → l ∈ hs.map (·.1) ∨ l ∈ ps :=
    fun l hl => hl.imp_left fun h => List.mem_map.2 ⟨_, h, rfl⟩
  cases a with
  | rel l w =>
    unfold act at h
    dsimp only at h
    by_cases hc : (l, w) ∈ own
    · rw [if_pos hc] at h; cases h
    · exact .inl ⟨l, w, rfl, hc⟩
  | acq l w =>
    refine .inr ⟨l, rfl, fun _ h => (by cases h), ?_⟩
    cases w with
    | false =>
      unfold act at h
      dsimp only at h
      by_cases hc : (l, true) ∈ hs ∨ l ∈ ps
      · exact ⟨hmem l hc, by cases pend <;> simp [waits], fun _ => hc⟩
      · rw [if_neg hc] at h; cases h
    | true =>
      refine ⟨?_, ?_, fun h => (by cases h)⟩ <;> unfold act at h <;> dsimp only at h
      · by_cases hp : pend = true
        · rw [if_pos hp] at h
          by_cases hc : l ∈ hs.map (·.1)
          · exact .inl hc
          · rw [if_neg hc] at h; cases h
        · rw [if_neg hp] at h
          by_cases hc : (l, true) ∈ hs ∨ l ∈ ps
          · exact hmem l hc
          · rw [if_neg hc] at h; cases h
      · intro hw
        have hp : pend = true := by cases pend <;> simp_all [waits]
        rw [if_pos hp] at h
        by_cases hc : l ∈ hs.map (·.1)
        · exact hc
        · rw [if_neg hc] at h; cases h
  | load l ok =>
    unfold act at h
    dsimp only at h
    by_cases hl : l ∈ sh
    · rw [if_pos hl] at h; cases h
    rw [if_neg hl] at h
    refine .inr ⟨l, rfl, fun _ _ => hl, ?_, ?_, fun h => (by cases h)⟩
    · by_cases hp : pend = true
      · rw [if_pos hp] at h
        by_cases hc : l ∈ hs.map (·.1)
        · exact .inl hc
        · rw [if_neg hc] at h; cases h
      · rw [if_neg hp] at h
        by_cases hc : (l, true) ∈ hs ∨ l ∈ ps
        · exact hmem l hc
        · rw [if_neg hc] at h; cases h
    · intro hw
      have hp : pend = true := by cases pend <;> simp_all [waits]
      rw [if_pos hp] at h
      by_cases hc : l ∈ hs.map (·.1)
      · exact hc
      · rw [if_neg hc] at h; cases h

theorem mem_waits {pend : Bool} {a : Option Act} {l : Lock} (h : l ∈ waits pend a) :
    ∃ x, a = some x ∧ target x = some l ∧ (x = .acq l true ∨ ∃ ok, x = .load l ok) := by
  unfold waits at h
  split at h
  · simp only [List.mem_singleton] at h; subst h; exact ⟨_, rfl, rfl, .inl rfl⟩
  · simp only [List.mem_singleton] at h; subst h; exact ⟨_, rfl, rfl, .inr ⟨_, rfl⟩⟩
  · cases h

theorem mem_pending {c : Call} {l : Lock} (h : l ∈ pending c) :
    (∃ a p, c.main.prog = .act a :: p ∧ l ∈ waits c.main.pend (some a)) ∨
    ∃ k ∈ c.kids, ∃ a p, k.prog = a :: p ∧ l ∈ waits k.pend (some a) := by
  unfold pending at h
  rcases List.mem_append.1 h with h | h
  · left
    cases hp : c.main.prog with
    | nil => rw [hp] at h; obtain ⟨x, hx, _⟩ := mem_waits h; cases hx
    | cons x p =>
      rw [hp] at h
      cases x with
      | act a => exact ⟨a, p, rfl, h⟩
      | unload _ => obtain ⟨x, hx, _⟩ := mem_waits h; cases hx
      | par _ => obtain ⟨x, hx, _⟩ := mem_waits h; cases hx
      | join => obtain ⟨x, hx, _⟩ := mem_waits h; cases hx
  · right
    obtain ⟨k, hk, h⟩ := List.mem_flatMap.1 h
    cases hp : k.prog with
    | nil => rw [hp] at h; obtain ⟨x, hx, _⟩ := mem_waits h; cases hx
    | cons a p => rw [hp] at h; exact ⟨k, hk, a, p, hp, h⟩

/-- In a stuck state an announced writer waits for a holder. -/
theorem stuck_pending {st : State} (h : Stuck st) {l : Lock} (hl : l ∈ st.flatMap pending) :
    l ∈ (st.flatMap held).map (·.1) := by
  obtain ⟨c, hc, hl⟩ := List.mem_flatMap.1 hl
  have key : ∀ {sh : List Lock} {own : Held} {pend : Bool} {a : Act}, l ∈ waits pend (some a) →
      act (st.flatMap held) (st.flatMap pending) sh own pend a = none → l ∈ (st.flatMap held).map (·.1) := by
    intro sh own pend a hw hn
    obtain ⟨x, hx, ht, hcase⟩ := mem_waits hw
    cases hx
    rcases blocked hn with ⟨l', w, rfl, _⟩ | ⟨l', ht', _, _, h4, _⟩
    · rcases hcase with hcase | ⟨_, hcase⟩ <;> cases hcase
    · rw [ht] at ht'
      cases ht'
      exact h4 (fun he => by rw [he] at hw; cases hw)
  rcases mem_pending hl with ⟨a, p, hp, hw⟩ | ⟨k, hk, a, p, hp, hw⟩
  · exact key hw (stuck_act h hc hp)
  · exact key hw (stuck_kid h hc hk hp)

theorem stuck_blocked {st : State} (h : Stuck st) {sh : List Lock} {own : Held} {pend : Bool} {a : Act}
    (hn : act (st.flatMap held) (st.flatMap pending) sh own pend a = none) :
    (∃ l w, a = .rel l w ∧ (l, w) ∉ own) ∨
    ∃ l, target a = some l ∧ (∀ ok, a = .load l ok → l ∉ sh) ∧ l ∈ (st.flatMap held).map (·.1) ∧
      (a = .acq l false → (l, true) ∈ st.flatMap held ∨ l ∈ st.flatMap pending) := by
  rcases blocked hn with h1 | ⟨l, h1, h2, h3, -, h5⟩
  · exact .inl h1
  · refine .inr ⟨l, h1, h2, ?_, h5⟩
    rcases h3 with h3 | h3
    · exact h3
    · exact stuck_pending h h3

/-- A lock held for writing by one call is held by no other call. -/
theorem excl_calls {st : State} (he : Excl (st.flatMap held)) {c d : Call} {l : Lock} {w : Bool} (hc : c ∈ st)
    (hd : d ∈ st) (h1 : (l, true) ∈ held c) (h2 : (l, w) ∈ held d) : c = d := by
  obtain ⟨a, b, rfl⟩ := List.append_of_mem hc
  have hcount := he l (List.mem_flatMap.2 ⟨c, hc, h1⟩)
  have hpos : ∀ (x : Held) (w : Bool), (l, w) ∈ x → 0 < x.countP (fun h => h.1 == l) :=
    fun x w hx => List.countP_pos_iff.2 ⟨_, hx, by simp⟩
  rw [List.flatMap_append, List.flatMap_cons, List.countP_append, List.countP_append] at hcount
  have hc1 := hpos _ _ h1
  rcases List.mem_append.1 hd with hd | hd
  · have := hpos (a.flatMap held) w (List.mem_flatMap.2 ⟨d, hd, h2⟩)
    omega
  rcases List.mem_cons.1 hd with rfl | hd
  · rfl
  · have := hpos (b.flatMap held) w (List.mem_flatMap.2 ⟨d, hd, h2⟩)
    omega

theorem own_held {c : Call} {h : Lock × Bool} (hm : h ∈ c.main.own) : h ∈ held c := mem_held.2 (.inl hm)

/-- An announced writer of a segment holds the update lock. -/
theorem pending_update {c : Call} {Sh : List Lock} (hok : CallOK c Sh) {l : Lock} (hs : isSeg l = true)
    (hl : l ∈ pending c) : (Lock.update, true) ∈ c.main.own := by
  rcases mem_pending hl with ⟨a, p, hp, hw⟩ | ⟨k, hk, a, p, hp, hw⟩
  · obtain ⟨x, hx, -, hcase⟩ := mem_waits hw
    cases hx
    rcases hok.prog with ⟨_, hpr⟩ | ⟨hpr, _⟩
    · rw [hp] at hpr
      rcases hcase with rfl | ⟨_, rfl⟩
      · exact hpr.2.2.1 hs rfl
      · exact hpr.2.2.2.1
    · rw [hp] at hpr
      rcases hcase with rfl | ⟨_, rfl⟩
      · cases hpr.1
      · cases hpr.1
  · obtain ⟨x, hx, -, hcase⟩ := mem_waits hw
    cases hx
    rcases hok.prog with ⟨hk', _⟩ | ⟨_, hkids | ⟨hro, hkids⟩⟩
    · rw [hk'] at hk; cases hk
    · have := (hkids k hk).1
      rw [hp] at this
      rcases hcase with rfl | ⟨_, rfl⟩
      · exact afterRels_sub (this.2.2.1 hs rfl)
      · exact afterRels_sub this.2.2.1
    · exact afterRels_sub hro.2.1

/-- In a stuck state goroutines that only read segments have ended. -/
theorem readers_end {st : State} (hi : Inv st) (h : Stuck st) {c : Call} (hc : c ∈ st) {Sh : List Lock}
    (hok : CallOK c Sh) (hro : Reads c.main.own Sh) (hmain : ∀ a p, c.main.prog ≠ .act a :: p)
    (hkids : ∀ k ∈ c.kids, OkRead k.own k.prog ∧ ∀ h ∈ k.own, h.2 = false) : ∀ k ∈ c.kids, k.prog = [] := by
  intro k hk
  obtain ⟨hS, hu, ⟨w', hsg⟩, hno⟩ := hro
  cases hp : k.prog with
  | nil => rfl
  | cons a p =>
    exfalso
    have hread := (hkids k hk).1
    rw [hp] at hread
    rcases stuck_blocked h (stuck_kid h hc hk hp) with ⟨l, w, rfl, hno'⟩ | ⟨l, ht, -, -, h5⟩
    · exact hno' hread.1
    · cases a with
      | rel l w => cases ht
      | load l _ => exact hread
      | acq l' w =>
        cases ht
        obtain ⟨hseg, rfl, -⟩ := hread
        rcases h5 rfl with hm | hm
        · obtain ⟨d, hd, hm⟩ := List.mem_flatMap.1 hm
          obtain ⟨Sh', hok'⟩ := hi.calls d hd
          have hdc : d = c := excl_calls hi.excl hd hc (own_held (hok'.segW l hseg hm)) (own_held hu)
          subst hdc
          rcases mem_held.1 hm with hm | ⟨k', hk', hm⟩ | ⟨x, hx, _⟩
          · have := hno _ hm
            rw [inner_of_isSeg hseg] at this
            cases this
          · exact absurd ((hkids k' hk').2 _ hm) (by simp)
          · have := hok.shared x hx
            rw [hS] at this
            cases this
        · obtain ⟨d, hd, hm⟩ := List.mem_flatMap.1 hm
          obtain ⟨Sh', hok'⟩ := hi.calls d hd
          have hdc : d = c := excl_calls hi.excl hd hc (own_held (pending_update hok' hseg hm)) (own_held hu)
          subst hdc
          rcases mem_pending hm with ⟨a, p, hp', hw⟩ | ⟨k', hk', a, p, hp', hw⟩
          · exact hmain a p hp'
          · obtain ⟨x, hx, -, hcase⟩ := mem_waits hw
            cases hx
            have := (hkids k' hk').1
            rw [hp'] at this
            rcases hcase with rfl | ⟨_, rfl⟩
            · cases this.2.1
            · exact this

/-- What a call of a stuck state waits for, relative to a lock it holds. -/
def WaitsAbove (st : State) (c : Call) (r : Nat) (l : Lock) : Prop :=
  l ∈ (st.flatMap held).map (·.1) ∧
  (r < rank l ∨ (r ≤ rank l ∧ (Lock.update, true) ∈ c.main.own ∧ l ∉ (held c).map (·.1)))

theorem stuck_waits {st : State} (hi : Inv st) (h : Stuck st) {c : Call} (hc : c ∈ st) :
    (c.Finished ∧ held c = []) ∨
    ((∃ l, l ∈ (st.flatMap held).map (·.1)) ∧ ∀ x ∈ held c, ∃ l, WaitsAbove st c (rank x.1) l) := by
  obtain ⟨Sh, hok⟩ := hi.calls c hc
  -- a goroutine started by the call that has not ended
  have hkid : ∀ k ∈ c.kids, k.prog ≠ [] → (∀ k ∈ c.kids, OkKid c.main.own Sh k.own k.prog ∧
      ∀ h ∈ k.own, ∀ s ∈ Sh, rank s < rank h.1) → (∃ l, l ∈ (st.flatMap held).map (·.1)) ∧
      ∀ x, (x ∈ c.main.own ∨ x ∈ k.own ∨ ∃ l ∈ c.shared, (l, true) = x) → ∃ l, WaitsAbove st c (rank x.1) l := by
    intro k hk hne hkids
    cases hp : k.prog with
    | nil => exact absurd hp hne
    | cons a p =>
      have hthis := (hkids k hk).1
      rw [hp] at hthis
      rcases stuck_blocked h (stuck_kid h hc hk hp) with ⟨l, w, rfl, hno⟩ | ⟨l, ht, hl, hm, -⟩
      · exact absurd hthis.1 hno
      refine ⟨⟨l, hm⟩, fun x hx => ⟨l, hm, ?_⟩⟩
      cases a with
      | rel => cases ht
      | acq l' w =>
        cases ht
        obtain ⟨-, -, -, h4, h5, h6, -⟩ := hthis
        rcases hx with hx | hx | ⟨y, hy, rfl⟩
        · exact .inl (h4 x hx)
        · exact .inl (h5 x hx)
        · exact .inl (h6 y (hok.shared y hy))
      | load l' _ =>
        cases ht
        obtain ⟨-, -, h3, h4, h5, h6, h7, -⟩ := hthis
        rcases hx with hx | hx | ⟨y, hy, rfl⟩
        · exact .inl (h5 x hx)
        · exact .inl (h6 x hx)
        · by_cases hlt : rank y < rank l
          · exact .inl hlt
          refine .inr ⟨h7 y (hok.shared y hy), h3, fun hmem => ?_⟩
          obtain ⟨z, hz, hzl⟩ := List.mem_map.1 hmem
          rcases mem_held.1 hz with hz | ⟨k', hk', hz⟩ | ⟨y', hy', rfl⟩
          · have := h5 z hz
            rw [hzl] at this
            omega
          · have := (hkids k' hk').2 z hz y (hok.shared y hy)
            rw [hzl] at this
            omega
          · dsimp only at hzl
            subst hzl
            exact hl _ rfl hy'
  rcases hok.prog with ⟨hk, hpr⟩ | ⟨hpr, hkids⟩
  · cases hp : c.main.prog with
    | nil =>
      rw [hp] at hpr
      obtain ⟨-, h2, h3⟩ := hpr
      refine .inl ⟨⟨hp, fun k hk' => (by rw [hk] at hk'; cases hk')⟩, ?_⟩
      have hsh : c.shared = [] := by
        cases hs : c.shared with
        | nil => rfl
        | cons y ys =>
          have := hok.shared y (by rw [hs]; simp)
          rw [h3] at this
          cases this
      simp [held, h2, hk, hsh]
    | cons x p =>
      rw [hp] at hpr
      have hn := stuck_main h hc
      unfold stepMain at hn
      rw [hp] at hn
      cases x with
      | unload l => cases hn
      | par qs => cases hn
      | join => cases hpr.1
      | act a =>
        right
        have hheld : ∀ x, x ∈ held c → x ∈ c.main.own ∨ ∃ l ∈ c.shared, (l, true) = x := by
          intro x hx
          rcases mem_held.1 hx with hx | ⟨k, hk', _⟩ | hx
          · exact .inl hx
          · rw [hk] at hk'; cases hk'
          · exact .inr hx
        rcases stuck_blocked h (stuck_act h hc hp) with ⟨l, w, rfl, hno⟩ | ⟨l, ht, hl, hm, -⟩
        · exact absurd hpr.1 hno
        refine ⟨⟨l, hm⟩, fun x hx => ⟨l, hm, ?_⟩⟩
        cases a with
        | rel => cases ht
        | acq l' w =>
          cases ht
          obtain ⟨-, h2, h3, h4, -⟩ := hpr
          rcases h4 with ⟨h4, h5⟩ | ⟨h4, h5, h6, h7⟩
          · rcases hheld x hx with hx | ⟨y, hy, rfl⟩
            · exact .inl (h4 x hx)
            · exact .inl (h5 y (hok.shared y hy))
          · exfalso
            obtain ⟨z, hz, hzl⟩ := List.mem_map.1 hm
            obtain ⟨d, hd, hz⟩ := List.mem_flatMap.1 hz
            obtain ⟨Sh', hok'⟩ := hi.calls d hd
            obtain ⟨w', hw'⟩ := hok'.inner z hz (by rw [hzl]; exact h5)
            have hcd : c = d := excl_calls hi.excl hc hd (own_held h4) (own_held hw')
            subst hcd
            rcases hheld z hz with hz | ⟨y, hy, rfl⟩
            · exact h6 z hz hzl
            · dsimp only at hzl
              subst hzl
              exact h7 (hok.shared _ hy)
        | load l' _ =>
          cases ht
          obtain ⟨-, -, -, h4, h5, h6, -⟩ := hpr
          rcases hheld x hx with hx | ⟨y, hy, rfl⟩
          · exact .inl (h5 x hx)
          · refine .inr ⟨h6 y (hok.shared y hy), h4, fun hmem => ?_⟩
            obtain ⟨z, hz, hzl⟩ := List.mem_map.1 hmem
            rcases hheld z hz with hz | ⟨y', hy', rfl⟩
            · have := h5 z hz
              rw [hzl] at this
              omega
            · dsimp only at hzl
              subst hzl
              exact hl _ rfl hy'
  · right
    cases hp : c.main.prog with
    | nil => rw [hp] at hpr; cases hpr.1
    | cons x p =>
      rw [hp] at hpr
      have hn := stuck_main h hc
      unfold stepMain at hn
      rw [hp] at hn
      cases x with
      | unload l => cases hn
      | par qs => cases hn
      | act a =>
        exfalso
        have hn' := stuck_act h hc hp
        cases a with
        | acq l w => cases hpr.1
        | load l _ => cases hpr.1
        | rel l w =>
          rcases stuck_blocked h hn' with ⟨l, w, he, hno⟩ | ⟨l, ht, _⟩
          · cases he; exact hno hpr.1
          · cases ht
      | join =>
        have hM : afterRels c.main.own c.main.prog = c.main.own := by rw [hp]; rfl
        rw [hM] at hkids
        -- some goroutine has not ended
        have hex : ¬ ∀ k ∈ c.kids, k.prog = [] := by
          intro hall
          have : (c.kids.all (·.prog.isEmpty)) = true := by
            rw [List.all_eq_true]
            intro k hk
            rw [hall k hk]; rfl
          simp [this] at hn
        rcases hkids with hkids | ⟨hro, hkids⟩
        · have hex' : ∃ k ∈ c.kids, k.prog ≠ [] := by
            refine Decidable.byContradiction fun hcon => hex fun k hk => ?_
            exact Decidable.byContradiction fun hne => hcon ⟨k, hk, hne⟩
          obtain ⟨k, hk, hne⟩ := hex'
          refine ⟨(hkid k hk hne hkids).1, fun x hx => ?_⟩
          rcases mem_held.1 hx with hx | ⟨k', hk', hx⟩ | hx
          · exact (hkid k hk hne hkids).2 x (.inl hx)
          · have hne' : k'.prog ≠ [] := by
              intro he
              have := (hkids k' hk').1
              rw [he] at this
              have : k'.own = [] := this
              rw [this] at hx
              cases hx
            exact (hkid k' hk' hne' hkids).2 x (.inr (.inl hx))
          · exact (hkid k hk hne hkids).2 x (.inr (.inr hx))
        · refine absurd (readers_end hi h hc hok hro ?_ hkids) hex
          intro a p' he
          rw [hp] at he
          cases he

theorem stuck_none {st : State} (hi : Inv st) (h : Stuck st) :
    ∀ (n : Nat) (x : Lock × Bool), x ∈ st.flatMap held → 6 ≤ rank x.1 + n → False
  | 0, x, _, hn => by have := rank_lt x.1; omega
  | n + 1, x, hx, hn => by
    obtain ⟨c, hc, hx⟩ := List.mem_flatMap.1 hx
    rcases stuck_waits hi h hc with ⟨_, hnil⟩ | ⟨_, hw⟩
    · rw [hnil] at hx; cases hx
    obtain ⟨l, hl, hcase⟩ := hw x hx
    obtain ⟨y, hy, rfl⟩ := List.mem_map.1 hl
    rcases hcase with hlt | ⟨hle, hu, hnot⟩
    · exact stuck_none hi h n y hy (by omega)
    · obtain ⟨d, hd, hyd⟩ := List.mem_flatMap.1 hy
      rcases stuck_waits hi h hd with ⟨_, hnil⟩ | ⟨_, hw'⟩
      · rw [hnil] at hyd; cases hyd
      obtain ⟨l', hl', hcase'⟩ := hw' y hyd
      obtain ⟨z, hz, rfl⟩ := List.mem_map.1 hl'
      rcases hcase' with hlt | ⟨_, hu', _⟩
      · exact stuck_none hi h n z hz (by omega)
      · have hcd : c = d := excl_calls hi.excl hc hd (own_held hu) (own_held hu')
        subst hcd
        exact hnot (List.mem_map.2 ⟨y, hyd, rfl⟩)

/-- A stuck state is a finished one, without held locks. -/
theorem stuck_finished {st : State} (hi : Inv st) (h : Stuck st) :
    (∀ c ∈ st, c.Finished) ∧ st.flatMap held = [] := by
  have hnone : ∀ x, x ∉ st.flatMap held := fun x hx => stuck_none hi h 6 x hx (by omega)
  refine ⟨fun c hc => ?_, List.eq_nil_iff_forall_not_mem.2 hnone⟩
  rcases stuck_waits hi h hc with ⟨hf, _⟩ | ⟨⟨l, hl⟩, _⟩
  · exact hf
  · obtain ⟨x, hx, _⟩ := List.mem_map.1 hl
    exact absurd hx (hnone x)

/-- A finished call holds no lock. -/
theorem finished_free {c : Call} {Sh : List Lock} (hok : CallOK c Sh) (h : c.Finished) : held c = [] := by
  rcases hok.prog with ⟨hk, hpr⟩ | ⟨hpr, _⟩
  · rw [h.1] at hpr
    obtain ⟨-, h2, h3⟩ := hpr
    have hsh : c.shared = [] := by
      cases hs : c.shared with
      | nil => rfl
      | cons y ys =>
        have := hok.shared y (by rw [hs]; simp)
        rw [h3] at this
        cases this
    simp [held, h2, hk, hsh]
  · rw [h.1] at hpr
    cases hpr.1

end RankDB.Locks

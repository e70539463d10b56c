import Verif.Proofs.LockOps
import Verif.Spec.LockErrors
/-
Calls that fail keep to the discipline of `Proofs/Locks` where they do, and what a lock that stays behind does.
-/
namespace RankDB.Locks

/-! ### The calls that fail and keep to the discipline -/

/-- What can be put before the rest of a program with the locks `own`. -/
def Fits (own : Held) (q : List Instr) : Prop := ∀ p, Ok false [] own p → Ok false [] own (q ++ p)

theorem fits_nil {own : Held} : Fits own [] := fun _ h => h

theorem fits_append {own : Held} {a b : List Instr} (ha : Fits own a) (hb : Fits own b) : Fits own (a ++ b) := by
  intro p hp
  rw [List.append_assoc]
  exact ha _ (hb _ hp)

theorem fits_flatten {own : Held} {ps : List (List Instr)} (h : ∀ q ∈ ps, Fits own q) : Fits own ps.flatten := by
  induction ps with
  | nil => exact fits_nil
  | cons q ps ih => exact fits_append (h q (by simp)) (ih fun q hq => h q (by simp [hq]))

theorem fits_stop {own : Held} {k : Nat} {ps : List (List Instr)} (h : ∀ q ∈ ps, Fits own q) : Fits own (stop k ps) :=
  fits_flatten fun q hq => h q (List.mem_of_mem_take hq)

theorem fits_list {own : Held} {w : Bool} (ho : Outer own) : Fits own (touch .list w) := fun _ hp => ok_list ho.2 hp
theorem fits_peek {own : Held} {b : Bool} {n : Nat} (ho : Outer own) : Fits own (peek b n) :=
  fun _ hp => ok_peek ho (by simp) hp
theorem fits_readSegs {own : Held} {b : Bool} {is : List Nat} (ho : Outer own) : Fits own (readSegs b is) :=
  fun _ hp => ok_readSegs ho hp

theorem okKid_writeE {M : Held} {b : Bool} {x : Nat × Bool} (ho : Outer M) (hu : (Lock.update, true) ∈ M) :
    OkKid M [] [] (writeSegE b x) := by
  unfold writeSegE
  split
  · exact okKid_write ho hu
  · refine ⟨rfl, ho.1, fun _ _ => hu, outer_lt ho rfl, by simp, by simp, by simp, ?_⟩
    simp [OkKid]

theorem fits_writeParE {own : Held} {b : Bool} {xs : List (Nat × Bool)} (ho : Outer own) (hu : (Lock.update, true) ∈ own) :
    Fits own (writeParE b xs) := by
  intro p hp
  refine ok_par (fun q hq => ?_) hp
  obtain ⟨i, _, rfl⟩ := List.mem_map.1 hq
  exact okKid_writeE ho hu

theorem fits_writeSegsE {own : Held} {b : Bool} {xs : List (Nat × Bool)} (ho : Outer own) (hu : (Lock.update, true) ∈ own) :
    Fits own (writeSegsE b xs) := by
  intro p hp
  refine ⟨rfl, fun _ => ho.1, by simp [isSeg], .inl ⟨outer_lt ho rfl, by simp⟩, rfl, [], fun _ h => h, ?_, .inl ?_⟩
  · refine ⟨by simp, by simp, by simp, by simp, rfl, ?_⟩
    simpa using hp
  · intro q hq
    obtain ⟨i, _, rfl⟩ := List.mem_map.1 hq
    have : afterRels ((Lock.table b, false) :: own)
        (.act (.rel (.table b) false) :: .join :: p) = own := by simp [afterRels]
    show OkKid (afterRels _ (.act (.rel (.table b) false) :: .join :: p)) _ _ _
    rw [this]
    exact okKid_writeE ho hu

theorem pieces_save {own : Held} (ho : Outer own) : ∀ q ∈ savePieces, Fits own q := by
  intro q hq
  simp only [savePieces, List.mem_cons, List.not_mem_nil, or_false] at hq
  rcases hq with rfl | rfl | rfl
  · exact fits_list ho
  · exact fits_peek ho
  · exact fits_peek ho

theorem pieces_rebuild {own : Held} {segs : List Nat} (ho : Outer own) : ∀ q ∈ rebuildPieces segs, Fits own q := by
  intro q hq
  simp only [rebuildPieces, List.mem_cons, List.not_mem_nil, or_false] at hq
  rcases hq with rfl | rfl | rfl
  · exact fits_list ho
  · exact fits_peek ho
  · exact fits_readSegs ho

theorem pieces_lookup {own : Held} {n : Nat} {segs : List Nat} (ho : Outer own) : ∀ q ∈ lookupPieces n segs, Fits own q := by
  intro q hq
  simp only [lookupPieces, List.mem_cons, List.not_mem_nil, or_false] at hq
  rcases hq with rfl | rfl | rfl | rfl
  · exact fits_list ho
  · exact fits_list ho
  · exact fits_peek ho
  · exact fits_readSegs ho

theorem fits_checkSplit {own : Held} (ho : Outer own) : Fits own checkSplit := fun _ hp => ok_checkSplit ho hp

theorem fits_splitActE {b : Bool} {a : SplitActE} : Fits (ctx true true) (splitActE b a) := by
  intro p hp
  have ho := outer_ctx true true
  have hu : (Lock.update, true) ∈ ctx true true := by simp [ctx]
  cases a with
  | plain a => exact ok_splitAct hp
  | mergeFails i =>
    unfold splitActE
    simp only [List.append_assoc]
    refine ⟨rfl, fun _ => ho.1, fun _ _ => hu, .inl ⟨outer_lt ho rfl, by simp⟩, ?_⟩
    refine ok_touch (fun _ => ⟨true, by simp [ctx]⟩) (fun _ _ => by simp [ctx]) (.inr ⟨by simp [ctx], rfl, by simp [ctx], by simp⟩)
      (by simp) (by simp) ?_
    exact ⟨by simp, by simp, by simp, by simp, by simpa using hp⟩

theorem pieces_split {scores index : List SplitActE} {upd : List (Nat × Bool)} {n m : Nat} :
    ∀ q ∈ splitPieces scores upd n m index, Fits (ctx true true) q := by
  have ho := outer_ctx true true
  have hu : (Lock.update, true) ∈ ctx true true := by simp [ctx]
  intro q hq
  simp only [splitPieces, List.mem_append, List.mem_cons, List.not_mem_nil, or_false, List.mem_map] at hq
  rcases hq with (((rfl | ⟨a, _, rfl⟩) | rfl | rfl | rfl | rfl) | ⟨a, _, rfl⟩) | h
  · exact fits_list ho
  · exact fits_splitActE
  · exact fits_peek ho
  · exact fits_writeParE ho hu
  · exact fits_peek ho
  · exact fits_peek ho
  · exact fits_splitActE
  · exact pieces_save ho q h

theorem pieces_populate {empty : Bool} {writes : List (Bool × List (Nat × Bool))} {n m : Nat} :
    ∀ q ∈ populatePieces empty writes n m, Fits (ctx true true) q := by
  have ho := outer_ctx true true
  have hu : (Lock.update, true) ∈ ctx true true := by simp [ctx]
  intro q hq
  simp only [populatePieces, List.mem_append, List.mem_cons, List.not_mem_nil, or_false, List.mem_map] at hq
  rcases hq with ((((rfl | rfl) | h) | ⟨a, _, rfl⟩) | h) | rfl
  · exact fits_list ho
  · exact fits_list ho
  · cases empty
    · simp at h
      rw [h]
      exact fits_list ho
    · cases h
  · exact fits_writeSegsE ho hu
  · exact pieces_save ho q h
  · exact fun p hp => ok_verifyTables ho hp

/-! Updates -/

theorem mem_readable {xs : List (Nat × Bool)} {i : Nat} : i ∈ readable xs ↔ (i, true) ∈ xs := by
  simp [readable]

theorem okKid_oldsE {M : Held} {Sh : List Lock} {olds : List (Nat × Bool)} (ho : Outer M) (hu : (Lock.update, true) ∈ M)
    (hS : ∀ s ∈ Sh, rank s = 4) (hin : ∀ j ∈ olds, j.2 = true → Lock.seg false j.1 ∈ Sh) :
    OkKid M Sh [] (olds.flatMap fun j => [.acq (.table false) false, .rel (.table false) false, .load (.seg false j.1) j.2]) := by
  induction olds with
  | nil => rfl
  | cons j olds ih =>
    refine ⟨rfl, ho.1, by simp [isSeg], outer_lt ho rfl, by simp, fun s hs => by rw [hS s hs]; simp [rank], by simp, ?_⟩
    have : (([(Lock.table false, false)] : Held).erase (Lock.table false, false)) = [] := by simp
    rw [this]
    refine ⟨rfl, ho.1, hu, hin j (by simp), outer_lt ho rfl, by simp, fun s hs => by rw [hS s hs]; simp [rank], ?_⟩
    exact ih fun j hj => hin j (by simp [hj])

/-- The locks the goroutines of an update may leave with the call. -/
def kidLocksE (kids : List KidE) : List Lock :=
  ((kidsIdx kids).map fun i => Lock.seg true i) ++ (kidsScores kids).map fun j => Lock.seg false j

theorem kidLocksE_rank {kids : List KidE} : ∀ s ∈ kidLocksE kids, rank s = 4 := by
  intro s hs
  unfold kidLocksE at hs
  rcases List.mem_append.1 hs with hs | hs <;> obtain ⟨_, _, rfl⟩ := List.mem_map.1 hs <;> rfl

theorem ok_updateStart {own : Held} {missing : Bool} {looks : Nat} {kids : List KidE} {p : List Instr}
    (ho : Outer own) (hu : (Lock.update, true) ∈ own) (hp : Ok false (kidLocksE kids) own p) :
    Ok false [] own (updateStart missing looks kids ++ p) := by
  unfold updateStart
  simp only [List.append_assoc]
  refine ok_list ho.2 (ok_ensureIdx ho (ok_peek ho (by simp) ?_))
  refine ⟨rfl, kidLocksE kids, by simp, ⟨rfl, hp⟩, .inl fun q hq => ?_⟩
  obtain ⟨k, hk, rfl⟩ := List.mem_map.1 hq
  have hr := kidLocksE_rank (kids := kids)
  refine ⟨rfl, ho.1, hu, fun hok => ?_, outer_lt ho rfl, by simp, fun s hs => by rw [hr s hs]; simp [rank], ?_⟩
  · refine List.mem_append_left _ (List.mem_map.2 ⟨k.1, mem_readable.2 ?_, rfl⟩)
    rw [← hok]
    exact List.mem_map.2 ⟨k, hk, rfl⟩
  · cases hk2 : k.2.1 with
    | false => rfl
    | true =>
      refine okKid_oldsE ho hu hr fun j hj hj2 => ?_
      refine List.mem_append_right _ (List.mem_map.2 ⟨j.1, mem_readable.2 ?_, rfl⟩)
      rw [← hj2]
      exact List.mem_flatMap.2 ⟨k, List.mem_filter.2 ⟨hk, hk2⟩, hj⟩

theorem ok_dstsE {Sh : List Lock} {own : Held} {dsts : List (Bool × Nat × Bool)} {p : List Instr} (ho : Outer own)
    (hu : (Lock.update, true) ∈ own) (hS : ∀ s ∈ Sh, rank s = 4)
    (hp : ∀ Sh', (∀ s ∈ Sh', s ∈ Sh ∨ ∃ d ∈ dsts, d.2.2 = true ∧ s = .seg false d.2.1) → Ok false Sh' own p) :
    Ok false Sh own ((dsts.flatMap fun d => (if d.1 then touch (.table false) false else []) ++
      [.act (.load (.seg false d.2.1) d.2.2)]) ++ p) := by
  induction dsts generalizing Sh with
  | nil => exact hp Sh fun s hs => .inl hs
  | cons d dsts ih =>
    rw [List.flatMap_cons]
    simp only [List.append_assoc]
    have hrest : Ok false Sh own (([.act (.load (.seg false d.2.1) d.2.2)] : List Instr) ++
        ((dsts.flatMap fun d => (if d.1 then touch (.table false) false else []) ++
          [.act (.load (.seg false d.2.1) d.2.2)]) ++ p)) := by
      refine ⟨rfl, rfl, ho.1, hu, outer_lt ho rfl, fun s hs => by rw [hS s hs]; simp [rank], ih ?_ ?_⟩
      · intro s hs
        cases hd : d.2.2 <;> rw [hd] at hs
        · exact hS s hs
        rcases List.mem_cons.1 hs with rfl | hs
        · rfl
        · exact hS s hs
      · intro Sh' hSh'
        refine hp Sh' fun s hs => ?_
        rcases hSh' s hs with h | ⟨d', hd', h2, rfl⟩
        · cases hd : d.2.2 <;> rw [hd] at h
          · exact .inl h
          rcases List.mem_cons.1 h with rfl | h
          · exact .inr ⟨d, by simp, hd, rfl⟩
          · exact .inl h
        · exact .inr ⟨d', by simp [hd'], h2, rfl⟩
    cases d.1
    · exact hrest
    · exact ok_table ho (fun s hs => by rw [hS s hs]; omega) hrest

theorem any_seg {b : Bool} {js : List Nat} {j : Nat} (h : j ∈ js) :
    (js.any fun i => Lock.seg b i == Lock.seg b j) = true := List.any_eq_true.2 ⟨j, h, by simp⟩

theorem fits_updateMid {own : Held} {missing : Bool} {looks : Nat} {kids : List KidE}
    {dsts : List (Bool × Nat × Bool)} (ho : Outer own) (hu : (Lock.update, true) ∈ own) :
    Fits own (updateMid missing looks kids dsts) := by
  intro p hp
  unfold updateMid
  simp only [List.append_assoc]
  refine ok_updateStart ho hu ?_
  refine ok_dstsE ho hu kidLocksE_rank fun Sh hSh => ?_
  have hS4 : ∀ s ∈ Sh, rank s = 4 := by
    intro s hs
    rcases hSh s hs with h | ⟨d, _, _, rfl⟩
    · exact kidLocksE_rank s h
    · rfl
  refine ok_replaces ho hS4 (ok_replaces ho (fun s hs => hS4 s (List.mem_filter.1 hs).1) ?_)
  rw [List.filter_filter, filter_nil]
  · exact hp
  · intro s hs
    rcases hSh s hs with h | ⟨d, hd, hd2, rfl⟩
    · rcases List.mem_append.1 h with h | h
      · obtain ⟨k, hk, rfl⟩ := List.mem_map.1 h
        rw [any_seg hk]
        simp
      · obtain ⟨j, hj, rfl⟩ := List.mem_map.1 h
        rw [any_seg (List.mem_append_left _ hj)]
        rfl
    · have : d.2.1 ∈ readable (dsts.map (·.2)) := by
        rw [mem_readable, ← hd2]
        exact List.mem_map.2 ⟨d, hd, rfl⟩
      rw [any_seg (List.mem_append_right _ this)]
      rfl

theorem fits_updateFailE {own : Held} {missing : Bool} {looks : Nat} {kids : List KidE}
    (ho : Outer own) (hu : (Lock.update, true) ∈ own) : Fits own (updateFailE missing looks kids) := by
  intro p hp
  unfold updateFailE
  simp only [List.append_assoc]
  refine ok_updateStart ho hu ?_
  refine ok_unload (f := fun j => .seg true j) (ok_unload (f := fun j => .seg false j) ?_)
  rw [List.filter_filter, filter_nil]
  · exact hp
  · intro s hs
    rcases List.mem_append.1 hs with h | h
    · obtain ⟨k, hk, rfl⟩ := List.mem_map.1 h
      rw [any_seg hk]
      simp
    · obtain ⟨j, hj, rfl⟩ := List.mem_map.1 h
      rw [any_seg hj]
      rfl

/-! Loading -/

/-- The locks while segments are loaded with the update lock. -/
def loadCtx : Held := [(.segments, true), (.loading, true), (.update, true)]

theorem outer_loadCtx : Outer loadCtx := ⟨⟨true, by simp [loadCtx]⟩, by simp [loadCtx, rank]⟩

theorem ok_loadStart {wr : Bool} {p : List Instr} (hp : Ok false [] loadCtx p) : Ok false [] [] (loadStart wr ++ p) := by
  unfold loadStart
  simp only [List.append_assoc]
  refine ok_acq rfl (by simp) (ok_acq rfl (by simp [rank]) (ok_acq rfl (by simp [rank]) ?_))
  cases wr
  · refine ok_rel (own' := [(.loading, true), (.update, true)]) (by simp) (by simp [inner]) (by simp) ?_
    exact ok_acq rfl (by simp [rank]) hp
  · exact hp

theorem ok_loadEnd : Ok false [] loadCtx (unlock true true ++ [.act (.rel .loading true)]) := by
  refine ok_rel (own' := [(.loading, true), (.update, true)]) (by simp [loadCtx]) (by simp [loadCtx, inner]) (by simp [loadCtx]) ?_
  refine ok_rel (own' := [(.loading, true)]) (by simp) (by simp [inner]) (by simp) ?_
  exact ok_rel (own' := []) (by simp) (by simp [inner]) (by simp) ok_nil

theorem clean_disciplined (f : Failure) (h : f.Clean) : Disciplined f.program := by
  have hor := outer_ctx false false
  have hou := outer_ctx true false
  have how' := outer_ctx true true
  have huu : (Lock.update, true) ∈ ctx true false := by simp [ctx]
  have rd : ∀ (how : Loading) (body : List Instr), Fits (ctx false false) body → Disciplined (reader how body) := by
    intro how body hb
    have := ok_reader (how := how) (q := []) ok_nil hb
    rwa [List.append_nil] at this
  have unl : Ok false [] (ctx true true) (unlock true true) := by simpa using ok_unlock (q := []) ok_nil
  cases f with
  | load wr segs k =>
    have := ok_loadStart (wr := wr) (fits_stop (k := k) (pieces_rebuild (segs := segs) outer_loadCtx) _ ok_loadEnd)
    simpa [Failure.program, Disciplined, List.append_assoc] using this
  | loadUnsaved wr segs k =>
    have hw : wr = true := h
    subst hw
    have := ok_loadStart (wr := true) (fits_flatten (pieces_rebuild (segs := segs) outer_loadCtx) _
      (fits_stop (k := k) (pieces_save outer_loadCtx) _ ok_loadEnd))
    simpa [Failure.program, Disciplined, List.append_assoc] using this
  | getElements how looks index k => exact rd _ _ (fits_append (fits_list hor) (fits_stop (pieces_lookup hor)))
  | verifyElements how scores index k =>
    refine ok_list (by simp) (ok_updater (fits_stop fun q hq => ?_))
    simp only [List.mem_cons, List.not_mem_nil, or_false] at hq
    rcases hq with rfl | rfl | rfl | rfl | rfl
    · exact fits_list hou
    · exact fits_peek hou
    · exact fits_readSegs hou
    · exact fits_peek hou
    · exact fits_readSegs hou
  | backup how segs k =>
    refine ok_updater (fits_stop fun q hq => ?_)
    simp only [List.mem_append, List.mem_map, List.mem_cons, List.not_mem_nil, or_false] at hq
    rcases hq with (rfl | rfl) | ⟨i, _, rfl⟩
    · exact fits_list hou
    · exact fits_peek hou
    · have : Fits (ctx true false) (readEach false [i]) := fun p hp => ok_readEach hou hp
      simpa [readEach] using this
  | backupUnwritten => exact h.elim
  | insert how writes k =>
    refine ok_updater (fits_stop fun q hq => ?_)
    simp only [List.mem_append, List.mem_map, List.mem_cons, List.not_mem_nil, or_false] at hq
    rcases hq with (⟨w, _, rfl⟩ | rfl) | h
    · exact fits_writeSegsE hou huu
    · exact fits_checkSplit hou
    · exact pieces_save hou q h
  | updateElements how missing looks kids => exact ok_updater (fits_updateFailE hou huu)
  | updateLate how missing looks kids dsts results k =>
    refine ok_updater (fits_append (fits_updateMid hou huu) (fits_stop fun q hq => ?_))
    rcases List.mem_append.1 hq with hq | hq
    · rcases List.mem_append.1 hq with hq | hq
      · cases results with
        | none => cases hq
        | some r => exact pieces_lookup hou q hq
      · rcases List.mem_cons.1 hq with rfl | hq
        · exact fits_checkSplit hou
        · cases hq
    · exact pieces_save hou q hq
  | deleteElements how looks found missing scores index k =>
    refine ok_updater (fits_append (fits_list hou) (fits_stop fun q hq => ?_))
    simp only [List.mem_append, List.mem_cons, List.not_mem_nil, or_false] at hq
    rcases hq with (rfl | rfl | rfl | rfl | rfl | rfl | rfl | rfl) | h
    · exact fits_list hou
    · exact fits_peek hou
    · exact fits_readSegs hou
    · exact fun p hp => ok_ensureIdx hou hp
    · exact fits_peek hou
    · exact fits_writeParE hou huu
    · exact fits_writeSegsE hou huu
    · exact fits_checkSplit hou
    · exact pieces_save hou q h
  | split how scores upd n m index k => exact ok_writer (fits_stop pieces_split _ unl)
  | splitUnsaved => exact h.elim
  | splitIndexUnsaved => exact h.elim
  | reindex how segs k => exact ok_writer (fits_stop (pieces_rebuild how') _ unl)
  | reindexUnsaved => exact h.elim
  | populate how empty writes n m k => exact ok_writer (fits_stop pieces_populate _ (ok_newUnlock rfl))
  | populateNoIndex => exact h.elim
  | repair stat how segs empty writes n m k =>
    refine (?_ : Ok false [] [] _)
    unfold Failure.program
    simp only [List.append_assoc]
    refine ok_reader ?_ fun p hp => ok_peek hor (by simp) hp
    refine ok_list (by simp) (ok_writer ?_)
    have := ok_repairRead (segs := segs) (fits_stop (k := k) (pieces_populate (empty := empty) (writes := writes) (n := n) (m := m)) _
      (ok_newUnlock rfl))
    simpa [repairRead, newUnlock] using this
  | repairPanics => exact h.elim
  | repairNoIndex => exact h.elim

theorem request_disciplined (r : Request) (h : r.Clean) : Disciplined r.program := by
  cases r with
  | done op => exact simple_disciplined op h
  | fails f => exact clean_disciplined f h
  | saveLists => exact ok_list (p := []) (by simp) ok_nil

/-! ### Disciplined calls never release a lock they do not hold -/

theorem afterRels_rel {M : Held} {l : Lock} {w : Bool} {p : List Instr} : afterRels M (.act (.rel l w) :: p) = afterRels (M.erase (l, w)) p := rfl

theorem inv_no_crash {st : State} (hi : Inv st) : ¬ Crash st := by
  rintro ⟨c, hc, h⟩
  obtain ⟨Sh, hok⟩ := hi.calls c hc
  rcases h with ⟨l, w, p, hp, hno⟩ | ⟨k, hk, l, w, p, hp, hno⟩
  · rcases hok.prog with ⟨_, hpr⟩ | ⟨hpr, _⟩ <;> rw [hp] at hpr <;> exact hno hpr.1
  · rcases hok.prog with ⟨hk', _⟩ | ⟨_, hkids⟩
    · rw [hk'] at hk; cases hk
    · rcases hkids with hkids | ⟨_, hkids⟩
      · have := (hkids k hk).1
        rw [hp] at this
        exact hno this.1
      · have := (hkids k hk).1
        rw [hp] at this
        exact hno this.1

/-! ### A lock that stays behind -/

/-- The call waits for the lock at some time from now on. -/
def callNeeds (l : Lock) (w : Bool) (c : Call) : Prop :=
  l ∉ c.shared ∧ (Needs l w c.main.prog = true ∨ ∃ k ∈ c.kids, k.prog.any (waitsFor l w) = true)

theorem did_needs {hs : Held} {ps sh : List Lock} {own : Held} {pend : Bool} {a : Act}
    {r : Held × Bool × Bool × List Lock} {l : Lock} {w : Bool} (h : Did hs ps sh own pend a r) (hl : (l, w) ∈ hs)
    (hsh : l ∉ sh) : l ∉ r.2.2.2 ∧ (waitsFor l w a = true → r.2.2.1 = false) := by
  have hm : l ∈ hs.map (·.1) := List.mem_map.2 ⟨_, hl, rfl⟩
  cases h with
  | read l' h1 h2 =>
    refine ⟨hsh, fun hw => ?_⟩
    simp only [waitsFor, Bool.or_false, Bool.and_eq_true, beq_iff_eq] at hw
    obtain ⟨rfl, rfl⟩ := hw
    exact absurd hl h1
  | write l' h1 =>
    refine ⟨hsh, fun hw => ?_⟩
    simp only [waitsFor, Bool.or_true, Bool.and_true, beq_iff_eq] at hw
    subst hw
    exact absurd hm h1
  | announce l' hp => exact ⟨hsh, fun _ => rfl⟩
  | release l' w' h' => exact ⟨hsh, fun hw => (by cases hw)⟩
  | has l' ok h' =>
    refine ⟨hsh, fun hw => ?_⟩
    simp only [waitsFor, beq_iff_eq] at hw
    subst hw
    exact absurd h' hsh
  | load l' h1 h2 =>
    have hne : l' ≠ l := fun he => h1 (he ▸ hm)
    refine ⟨fun hmem => ?_, fun hw => ?_⟩
    · rcases List.mem_cons.1 hmem with rfl | hmem
      · exact hne rfl
      · exact hsh hmem
    · simp only [waitsFor, beq_iff_eq] at hw
      exact absurd hw hne
  | loadFails l' h1 =>
    refine ⟨hsh, fun hw => ?_⟩
    simp only [waitsFor, beq_iff_eq] at hw
    subst hw
    exact absurd hm h1
  | announceLoad l' ok hp h2 => exact ⟨hsh, fun _ => rfl⟩

theorem stepped_needs {hs : Held} {ps : List Lock} {c c' : Call} {l : Lock} {w : Bool} (h : Stepped hs ps c c')
    (hl : (l, w) ∈ hs) (hn : callNeeds l w c) : callNeeds l w c' := by
  obtain ⟨hsh, hn⟩ := hn
  cases h with
  | @act own pend a p kids sh r hd =>
    obtain ⟨h1, h2⟩ := did_needs hd hl hsh
    refine ⟨h1, ?_⟩
    rcases hn with hn | hn
    · left
      cases hr : r.2.2.1 with
      | false => exact hn
      | true =>
        dsimp only at hn ⊢
        rw [if_pos rfl]
        unfold Needs at hn ⊢
        rw [List.any_cons, Bool.or_eq_true] at hn
        rcases hn with hn | hn
        · rw [h2 hn] at hr; cases hr
        · exact hn
    · exact .inr hn
  | unload =>
    refine ⟨fun hm => hsh (List.mem_filter.1 hm).1, ?_⟩
    rcases hn with hn | hn
    · exact .inl (by simpa [Needs] using hn)
    · exact .inr hn
  | @par own pend qs p kids sh =>
    refine ⟨hsh, ?_⟩
    rcases hn with hn | ⟨k, hk, hn⟩
    · unfold Needs at hn
      dsimp only at hn
      rw [List.any_cons, Bool.or_eq_true] at hn
      rcases hn with hn | hn
      · rw [List.any_eq_true] at hn
        obtain ⟨q, hq, hn⟩ := hn
        exact .inr ⟨.start q, List.mem_append_right _ (List.mem_map.2 ⟨q, hq, rfl⟩), hn⟩
      · exact .inl hn
    · exact .inr ⟨k, List.mem_append_left _ hk, hn⟩
  | join hk =>
    refine ⟨hsh, ?_⟩
    rcases hn with hn | ⟨k, hk', hn⟩
    · exact .inl (by simpa [Needs] using hn)
    · rw [hk k hk'] at hn
      cases hn
  | @kid main ka kb own pend x p sh r hd =>
    obtain ⟨h1, h2⟩ := did_needs hd hl hsh
    refine ⟨h1, ?_⟩
    rcases hn with hn | ⟨k, hk, hn⟩
    · exact .inl hn
    · right
      rcases List.mem_append.1 hk with hk | hk
      · exact ⟨k, List.mem_append_left _ hk, hn⟩
      rcases List.mem_cons.1 hk with rfl | hk
      · refine ⟨_, List.mem_append_right _ (List.mem_cons_self ..), ?_⟩
        cases hr : r.2.2.1 with
        | false => exact hn
        | true =>
          dsimp only at hn ⊢
          rw [if_pos rfl]
          rw [List.any_cons, Bool.or_eq_true] at hn
          rcases hn with hn | hn
          · rw [h2 hn] at hr; cases hr
          · exact hn
      · exact ⟨k, List.mem_append_right _ (List.mem_cons_of_mem _ hk), hn⟩

theorem finished_stuck {hs : Held} {ps : List Lock} {c c' : Call} (hf : c.Finished) (h : Stepped hs ps c c') : False := by
  obtain ⟨h1, h2⟩ := hf
  cases h with
  | act => cases h1
  | unload => cases h1
  | par => cases h1
  | join => cases h1
  | kid => exact absurd (h2 _ (List.mem_append_right _ (List.mem_cons_self ..))) (by simp)

/-- One step: a call that has returned stays as it is, and a call that waits for one of its locks goes on waiting. -/
theorem left_behind_step {st st' : State} (h : Step st st') {i : Nat} {c : Call} (hi : st[i]? = some c)
    (hf : c.Finished) : st'[i]? = some c ∧ ∀ (j : Nat) (d : Call) (l : Lock) (w : Bool), st[j]? = some d →
      (l, w) ∈ held c → callNeeds l w d → ∃ d', st'[j]? = some d' ∧ callNeeds l w d' := by
  obtain ⟨_, _, h⟩ := h
  obtain ⟨a, x, b, x', rfl, rfl, hx⟩ := exec_stepped h
  have hheld : ∀ y ∈ held c, y ∈ (a ++ x :: b).flatMap held :=
    fun y hy => List.mem_flatMap.2 ⟨c, List.mem_of_getElem? hi, hy⟩
  have hlook : ∀ k, k ≠ a.length → (a ++ x' :: b)[k]? = (a ++ x :: b)[k]? := by
    intro k hk
    rcases Nat.lt_or_ge k a.length with h | h
    · rw [List.getElem?_append_left h, List.getElem?_append_left h]
    · rw [List.getElem?_append_right h, List.getElem?_append_right h]
      cases hk' : k - a.length with
      | zero => omega
      | succ k' => rfl
  refine ⟨?_, fun j d l w hj hl hn => ?_⟩
  · by_cases hk : i = a.length
    · subst hk
      have : x = c := by simpa using hi
      subst this
      exact (finished_stuck hf hx).elim
    · rw [hlook i hk]; exact hi
  · by_cases hk : j = a.length
    · subst hk
      have : x = d := by simpa using hj
      subst this
      exact ⟨x', by simp, stepped_needs hx (hheld _ hl) hn⟩
    · exact ⟨d, by rw [hlook j hk]; exact hj, hn⟩

theorem left_behind {n : Nat} {st st' : State} (h : Run n st st') {i : Nat} {c : Call} (hi : st[i]? = some c)
    (hf : c.Finished) : st'[i]? = some c ∧ ∀ (j : Nat) (d : Call) (l : Lock) (w : Bool), st[j]? = some d →
      (l, w) ∈ held c → callNeeds l w d → ∃ d', st'[j]? = some d' ∧ callNeeds l w d' := by
  induction h with
  | refl => exact ⟨hi, fun j d l w hj _ hn => ⟨d, hj, hn⟩⟩
  | step _ hs ih =>
    obtain ⟨h1, h2⟩ := ih hi
    obtain ⟨h3, h4⟩ := left_behind_step hs h1 hf
    refine ⟨h3, fun j d l w hj hl hn => ?_⟩
    obtain ⟨d', hd', hn'⟩ := h2 j d l w hj hl hn
    exact h4 j d' l w hd' hl hn'

theorem needs_unfinished {l : Lock} {w : Bool} {c : Call} (h : callNeeds l w c) : ¬ c.Finished := by
  rintro ⟨h1, h2⟩
  rcases h.2 with hn | ⟨k, hk, hn⟩
  · rw [h1] at hn; cases hn
  · rw [h2 k hk] at hn; cases hn

/-! ### Counting -/

/-- How often the caller takes a lock and how often it releases it. -/
def bal (h : Lock × Bool) : List Instr → Int
  | [] => 0
  | .act (.acq l w) :: p => (if (l, w) = h then 1 else 0) + bal h p
  | .act (.rel l w) :: p => (if (l, w) = h then -1 else 0) + bal h p
  | _ :: p => bal h p

theorem bal_append {h : Lock × Bool} (a b : List Instr) : bal h (a ++ b) = bal h a + bal h b := by
  induction a with
  | nil => simp [bal]
  | cons x a ih =>
    cases x with
    | act x => cases x <;> simp only [List.cons_append, bal, ih] <;> omega
    | unload l => simpa [bal] using ih
    | par ps => simpa [bal] using ih
    | join => simpa [bal] using ih

theorem bal_flatMap {α : Type} {h : Lock × Bool} {f : α → List Instr} {xs : List α} (hf : ∀ x ∈ xs, bal h (f x) = 0) :
    bal h (xs.flatMap f) = 0 := by
  induction xs with
  | nil => rfl
  | cons x xs ih =>
    rw [List.flatMap_cons, bal_append, hf x (by simp), ih fun y hy => hf y (by simp [hy])]
    rfl

theorem bal_touch {h : Lock × Bool} {l : Lock} {w : Bool} : bal h (touch l w) = 0 := by
  simp only [touch, bal]
  split <;> omega

theorem bal_peek {h : Lock × Bool} {b : Bool} {n : Nat} : bal h (peek b n) = 0 := by
  induction n with
  | zero => rfl
  | succ n ih =>
    unfold peek at ih ⊢
    rw [List.replicate_succ, List.flatten_cons, bal_append, bal_touch, ih]
    rfl

theorem bal_readSegs {h : Lock × Bool} {b : Bool} {is : List Nat} : bal h (readSegs b is) = 0 := rfl
theorem bal_writeParE {h : Lock × Bool} {b : Bool} {is : List (Nat × Bool)} : bal h (writeParE b is) = 0 := rfl

theorem bal_save {h : Lock × Bool} : bal h save = 0 := by
  simp [save, bal_append, bal_touch, bal_peek]

theorem bal_rebuild {h : Lock × Bool} {segs : List Nat} : bal h (rebuildIndex segs) = 0 := by
  simp [rebuildIndex, bal_append, bal_touch, bal_peek, bal_readSegs, bal_save]

theorem bal_readEach {h : Lock × Bool} {b : Bool} {is : List Nat} : bal h (readEach b is) = 0 :=
  bal_flatMap fun _ _ => bal_touch

theorem bal_cons_acq {h : Lock × Bool} {l : Lock} {w : Bool} {p : List Instr} :
    bal h (.act (.acq l w) :: p) = (if (l, w) = h then 1 else 0) + bal h p := rfl
theorem bal_cons_rel {h : Lock × Bool} {l : Lock} {w : Bool} {p : List Instr} :
    bal h (.act (.rel l w) :: p) = (if (l, w) = h then -1 else 0) + bal h p := rfl

theorem bal_splitActE {h : Lock × Bool} {b : Bool} {a : SplitActE} : bal h (splitActE b a) = 0 := by
  cases a with
  | plain a =>
    cases a with
    | keep i => exact bal_touch
    | split i =>
      cases b <;> simp only [splitActE, splitAct, bal_append, bal_touch, bal, if_true, Bool.false_eq_true, if_false] <;>
        split <;> omega
    | merge i =>
      simp only [splitActE, splitAct, bal_append, bal_touch, bal]
      split <;> split <;> omega
  | mergeFails i =>
    simp only [splitActE, bal_append, bal_touch, bal]
    split <;> omega

theorem bal_stop {h : Lock × Bool} {k : Nat} {ps : List (List Instr)} (hp : ∀ q ∈ ps, bal h q = 0) : bal h (stop k ps) = 0 := by
  have := bal_flatMap (h := h) (f := id) (xs := ps.take k) fun q hq => hp q (List.mem_of_mem_take hq)
  simpa [stop, List.flatMap_id] using this

theorem bal_savePieces {h : Lock × Bool} {k : Nat} : bal h (stop k savePieces) = 0 := by
  refine bal_stop fun q hq => ?_
  simp only [savePieces, List.mem_cons, List.not_mem_nil, or_false] at hq
  rcases hq with rfl | rfl | rfl
  · exact bal_touch
  · exact bal_peek
  · exact bal_peek

theorem bal_rebuildPieces {h : Lock × Bool} {segs : List Nat} : bal h (rebuildPieces segs).flatten = 0 := by
  simp [rebuildPieces, bal_append, bal_touch, bal_peek, bal_readSegs]

theorem bal_withSegments {h : Lock × Bool} {how : Loading} {body : List Instr} {upd wr : Bool} (hh : how ≠ .failed) :
    bal h (withSegments upd wr how body) = (if upd = true ∧ (Lock.update, true) = h then 1 else 0) +
      (if (Lock.segments, wr) = h then 1 else 0) + bal h body := by
  cases how with
  | failed => exact absurd rfl hh
  | cached =>
    cases upd <;> simp only [withSegments, bal_append, bal, if_true, Bool.false_eq_true, if_false, true_and, false_and] <;>
      split <;> split <;> (try split) <;> omega
  | read =>
    cases upd <;> cases wr <;> simp only [withSegments, bal_append, bal, if_true, Bool.false_eq_true, if_false, true_and, false_and] <;>
      split <;> split <;> (try split) <;> (try split) <;> omega
  | rebuilt segs =>
    cases upd <;> cases wr <;> simp only [withSegments, bal_append, bal, bal_rebuild, if_true, Bool.false_eq_true, if_false, true_and, false_and] <;>
      split <;> split <;> (try split) <;> (try split) <;> omega

theorem count_erase_int {h x : Lock × Bool} {own : Held} (hx : x ∈ own) :
    ((own.erase x).count h : Int) = own.count h + (if x = h then -1 else 0) := by
  by_cases he : x = h
  · subst he
    rw [List.count_erase_self, if_pos rfl]
    have := List.count_pos_iff.2 hx
    omega
  · rw [List.count_erase_of_ne (fun hh => he hh.symm), if_neg he]
    omega

theorem stepped_bal {hs : Held} {ps : List Lock} {c c' : Call} (h : Lock × Bool) (hst : Stepped hs ps c c') :
    (c'.main.own.count h : Int) + bal h c'.main.prog = c.main.own.count h + bal h c.main.prog := by
  cases hst with
  | @act own pend a p kids sh r hd =>
    cases hd with
    | read l h1 h2 =>
      simp only [if_true, bal, List.count_cons]
      split <;> simp_all <;> omega
    | write l h1 =>
      simp only [if_true, bal, List.count_cons]
      split <;> simp_all <;> omega
    | announce l hp => rfl
    | release l w hm =>
      simp only [if_true, bal, count_erase_int hm]
      omega
    | has => rfl
    | load => rfl
    | loadFails => rfl
    | announceLoad => rfl
  | unload => rfl
  | par => rfl
  | join => rfl
  | kid => rfl

theorem run_bal {n : Nat} {ps : List (List Instr)} {st : State} (h : Run n (init ps) st) (x : Lock × Bool) :
    st.length = ps.length ∧ ∀ (j : Nat) (p : List Instr) (c : Call), ps[j]? = some p → st[j]? = some c →
      (c.main.own.count x : Int) + bal x c.main.prog = bal x p := by
  generalize hst : init ps = st₀ at h
  induction h with
  | refl =>
    subst hst
    refine ⟨by simp [init], fun j p c hp hc => ?_⟩
    simp only [init, List.getElem?_map, hp, Option.map_some] at hc
    cases hc
    simp [Gor.start]
  | step _ hs ih =>
    obtain ⟨hl, ih⟩ := ih hst
    obtain ⟨_, _, hs⟩ := hs
    obtain ⟨a, d, b, d', rfl, rfl, hx⟩ := exec_stepped hs
    refine ⟨by simpa using hl, fun j p c hp hc => ?_⟩
    by_cases hk : j = a.length
    · subst hk
      have : d' = c := by simpa using hc
      subst this
      rw [stepped_bal x hx]
      exact ih _ p d hp (by simp)
    · refine ih j p c hp ?_
      rcases Nat.lt_or_ge j a.length with h | h
      · rw [List.getElem?_append_left h] at hc ⊢
        exact hc
      · rw [List.getElem?_append_right h] at hc ⊢
        cases hk' : j - a.length with
        | zero => omega
        | succ k' => rw [hk'] at hc; exact hc

/-- What a call holds when it has returned. -/
theorem finished_bal {n : Nat} {ps : List (List Instr)} {st : State} (h : Run n (init ps) st) (x : Lock × Bool)
    {j : Nat} {p : List Instr} {c : Call} (hp : ps[j]? = some p) (hc : st[j]? = some c) (hf : c.Finished) :
    (c.main.own.count x : Int) = bal x p := by
  have := (run_bal h x).2 j p c hp hc
  rw [hf.1] at this
  simpa [bal] using this

end RankDB.Locks

import Verif.Proofs.Locks
import Verif.Spec.Locks
/-
Every run of the calls on a list ends, and the operations keep to the discipline of `Proofs/Locks`.

-/
namespace RankDB.Locks

/-! ### Every run ends -/

def kidWeight (k : Gor Act) : Nat := 2 * k.prog.length + if k.pend then 0 else 1

def progWeight : List Instr → Nat
  | [] => 0
  | .par qs :: p => 2 + (qs.map fun q => 2 * q.length + 1).sum + progWeight p
  | _ :: p => 2 + progWeight p

def weight (c : Call) : Nat :=
  progWeight c.main.prog + (if c.main.pend then 0 else 1) + (c.kids.map kidWeight).sum

theorem did_pend {hs : Held} {ps sh : List Lock} {own : Held} {pend : Bool} {a : Act}
    {r : Held × Bool × Bool × List Lock} (h : Did hs ps sh own pend a r) :
    (r.2.2.1 = true ∧ r.2.1 = false) ∨ (r.2.2.1 = false ∧ r.2.1 = true ∧ pend = false) := by
  cases h <;> simp_all

theorem weight_stepped {hs : Held} {ps : List Lock} {c c' : Call} (h : Stepped hs ps c c') : weight c' < weight c := by
  cases h with
  | @act own pend a p kids sh r hd =>
    unfold weight
    dsimp only
    rcases did_pend hd with ⟨h1, h2⟩ | ⟨h1, h2, h3⟩
    · rw [h1, h2]
      have : progWeight (.act a :: p) = 2 + progWeight p := rfl
      simp only [if_true, Bool.false_eq_true, if_false, this]
      split <;> omega
    · rw [h1, h2, h3]
      simp only [if_true, Bool.false_eq_true, if_false]
      omega
  | @unload own pend l p kids sh =>
    unfold weight
    have : progWeight (.unload l :: p) = 2 + progWeight p := rfl
    dsimp only
    omega
  | @join own pend p kids sh hk =>
    unfold weight
    have : progWeight (.join :: p) = 2 + progWeight p := rfl
    dsimp only
    simp only [List.map_nil, List.sum_nil]
    omega
  | @par own pend qs p kids sh =>
    unfold weight
    have h1 : progWeight (.par qs :: p) = 2 + (qs.map fun q => 2 * q.length + 1).sum + progWeight p := rfl
    dsimp only
    rw [h1, List.map_append, List.sum_append, List.map_map]
    have h2 : (kidWeight ∘ Gor.start) = fun q : List Act => 2 * q.length + 1 := rfl
    rw [h2]
    omega
  | @kid main a b own pend x p sh r hd =>
    unfold weight
    dsimp only
    simp only [List.map_append, List.map_cons, List.sum_append, List.sum_cons]
    have : kidWeight ⟨r.1, r.2.1, if r.2.2.1 = true then p else x :: p⟩ < kidWeight ⟨own, pend, x :: p⟩ := by
      unfold kidWeight
      dsimp only
      rcases did_pend hd with ⟨h1, h2⟩ | ⟨h1, h2, h3⟩
      · rw [h1, h2]
        simp only [if_true, Bool.false_eq_true, if_false, List.length_cons]
        split <;> omega
      · rw [h1, h2, h3]
        simp only [if_true, Bool.false_eq_true, if_false]
        omega
    omega

theorem weight_step {st st' : State} (h : Step st st') : (st'.map weight).sum < (st.map weight).sum := by
  obtain ⟨i, j, h⟩ := h
  obtain ⟨a, c, b, c', rfl, rfl, hs⟩ := exec_stepped h
  have := weight_stepped hs
  simp only [List.map_append, List.map_cons, List.sum_append, List.sum_cons]
  omega

theorem weight_run {n : Nat} {st st' : State} (h : Run n st st') :
    n + (st'.map weight).sum ≤ (st.map weight).sum := by
  induction h with
  | refl => omega
  | step _ hs ih => have := weight_step hs; omega

/-! ### The operations keep to the discipline -/

/-- The locks held with loaded segments. -/
def ctx (upd wr : Bool) : Held := (.segments, wr) :: if upd then [(.update, true)] else []

/-- Only the outer locks are held, and the segments are. -/
def Outer (own : Held) : Prop := (∃ w, (Lock.segments, w) ∈ own) ∧ ∀ h ∈ own, rank h.1 ≤ 2

theorem outer_ctx (upd wr : Bool) : Outer (ctx upd wr) := by
  refine ⟨⟨wr, by simp [ctx]⟩, fun h hh => ?_⟩
  cases upd <;> simp [ctx] at hh
  · subst hh; simp [rank]
  · rcases hh with rfl | rfl <;> simp [rank]

theorem ok_touch {Sh : List Lock} {own : Held} {l : Lock} {w : Bool} {p : List Instr}
    (h1 : inner l = true → ∃ w', (Lock.segments, w') ∈ own)
    (h2 : isSeg l = true → w = true → (Lock.update, true) ∈ own)
    (h3 : ((∀ h ∈ own, rank h.1 < rank l) ∧ ∀ s ∈ Sh, rank s < rank l) ∨
      ((Lock.segments, true) ∈ own ∧ inner l = true ∧ (∀ h ∈ own, h.1 ≠ l) ∧ l ∉ Sh))
    (h4 : l ≠ .segments) (h5 : l ≠ .update) (hp : Ok false Sh own p) : Ok false Sh own (touch l w ++ p) := by
  refine ⟨rfl, h1, h2, h3, ?_⟩
  refine ⟨by simp, by simp, fun h => absurd h h4, fun h => absurd h h5, ?_⟩
  simpa using hp

theorem ok_list {own : Held} {w : Bool} {p : List Instr} (ho : ∀ h ∈ own, rank h.1 ≤ 2) (hp : Ok false [] own p) :
    Ok false [] own (touch .list w ++ p) := by
  refine ok_touch (by simp [inner]) (by simp [isSeg]) (.inl ⟨?_, by simp⟩) (by simp) (by simp) hp
  intro h hh
  have := ho h hh
  show rank h.1 < 3
  omega

theorem ok_table {Sh : List Lock} {own : Held} {b w : Bool} {p : List Instr} (ho : Outer own)
    (hs : ∀ s ∈ Sh, rank s < 5) (hp : Ok false Sh own p) : Ok false Sh own (touch (.table b) w ++ p) := by
  refine ok_touch (fun _ => ho.1) (by simp [isSeg]) (.inl ⟨?_, hs⟩) (by simp) (by simp) hp
  intro h hh
  have := ho.2 h hh
  show rank h.1 < 5
  omega

theorem ok_peek {Sh : List Lock} {own : Held} {b : Bool} {n : Nat} {p : List Instr} (ho : Outer own)
    (hs : ∀ s ∈ Sh, rank s < 5) (hp : Ok false Sh own p) : Ok false Sh own (peek b n ++ p) := by
  induction n with
  | zero => exact hp
  | succ n ih =>
    unfold peek at ih ⊢
    rw [List.replicate_succ, List.flatten_cons, List.append_assoc]
    exact ok_table ho hs ih

theorem ok_readEach {own : Held} {b : Bool} {is : List Nat} {p : List Instr} (ho : Outer own)
    (hp : Ok false [] own p) : Ok false [] own (readEach b is ++ p) := by
  induction is with
  | nil => exact hp
  | cons i is ih =>
    unfold readEach at ih ⊢
    rw [List.flatMap_cons, List.append_assoc]
    refine ok_touch (fun _ => ho.1) (by simp) (.inl ⟨?_, by simp⟩) (by simp) (by simp) ih
    intro h hh
    have := ho.2 h hh
    show rank h.1 < 4
    omega

theorem outer_lt {own : Held} (ho : Outer own) {l : Lock} (hl : inner l = true) : ∀ h ∈ own, rank h.1 < rank l := by
  intro h hh
  have := ho.2 h hh
  cases l <;> simp_all [inner, rank] <;> omega

theorem okKid_read {M : Held} {l : Lock} (ho : Outer M) (hl : inner l = true) :
    OkKid M [] [] [.acq l false, .rel l false] := by
  refine ⟨hl, ho.1, by simp, outer_lt ho hl, by simp, by simp, by simp, ?_⟩
  simp [OkKid]

theorem okKid_write {M : Held} {b : Bool} {i : Nat} (ho : Outer M) (hu : (Lock.update, true) ∈ M) :
    OkKid M [] [] (writeSeg b i) := by
  refine ⟨rfl, ho.1, fun _ _ => hu, outer_lt ho rfl, by simp, by simp, rfl, ho.1, by simp [isSeg], outer_lt ho rfl,
    by simp [rank], by simp, by simp, ?_⟩
  simp [OkKid]

theorem ok_par {own : Held} {qs : List (List Act)} {p : List Instr} (hq : ∀ q ∈ qs, OkKid own [] [] q)
    (hp : Ok false [] own p) : Ok false [] own (([.par qs, .join] : List Instr) ++ p) :=
  ⟨rfl, [], fun _ h => h, ⟨rfl, hp⟩, .inl hq⟩

theorem ok_readSegs {own : Held} {b : Bool} {is : List Nat} {p : List Instr} (ho : Outer own)
    (hp : Ok false [] own p) : Ok false [] own (readSegs b is ++ p) := by
  refine ok_par (fun q hq => ?_) hp
  obtain ⟨i, _, rfl⟩ := List.mem_map.1 hq
  exact okKid_read ho rfl

theorem ok_writePar {own : Held} {b : Bool} {is : List Nat} {p : List Instr} (ho : Outer own)
    (hu : (Lock.update, true) ∈ own) (hp : Ok false [] own p) :
    Ok false [] own (([.par (is.map (writeSeg b)), .join] : List Instr) ++ p) := by
  refine ok_par (fun q hq => ?_) hp
  obtain ⟨i, _, rfl⟩ := List.mem_map.1 hq
  exact okKid_write ho hu

theorem ok_writeSegs {own : Held} {b : Bool} {is : List Nat} {p : List Instr} (ho : Outer own)
    (hu : (Lock.update, true) ∈ own) (hp : Ok false [] own p) : Ok false [] own (writeSegs b is ++ p) := by
  refine ⟨rfl, fun _ => ho.1, by simp [isSeg], .inl ⟨outer_lt ho rfl, by simp⟩, rfl, [], fun _ h => h, ?_, .inl ?_⟩
  · refine ⟨by simp, by simp, by simp, by simp, rfl, ?_⟩
    simpa using hp
  · intro q hq
    obtain ⟨i, _, rfl⟩ := List.mem_map.1 hq
    have : afterRels ((Lock.table b, false) :: own)
        (.act (.rel (.table b) false) :: .join :: p) = own := by simp [afterRels]
    show OkKid (afterRels _ (.act (.rel (.table b) false) :: .join :: p)) _ _ _
    rw [this]
    exact okKid_write ho hu

theorem ok_save {own : Held} {p : List Instr} (ho : Outer own) (hp : Ok false [] own p) :
    Ok false [] own (save ++ p) := by
  unfold save
  simp only [List.append_assoc]
  exact ok_list ho.2 (ok_peek ho (by simp) (ok_peek ho (by simp) hp))

theorem ok_checkSplit {own : Held} {p : List Instr} (ho : Outer own) (hp : Ok false [] own p) :
    Ok false [] own (checkSplit ++ p) := ok_save ho hp

theorem ok_verifyTables {own : Held} {n m : Nat} {p : List Instr} (ho : Outer own) (hp : Ok false [] own p) :
    Ok false [] own (verifyTables n m ++ p) := by
  unfold verifyTables
  simp only [List.append_assoc]
  exact ok_list ho.2 (ok_list ho.2 (ok_peek ho (by simp) (ok_peek ho (by simp) hp)))

theorem ok_ensureIdx {own : Held} {b m : Bool} {p : List Instr} (ho : Outer own) (hp : Ok false [] own p) :
    Ok false [] own (ensureIdx b m ++ p) := by
  unfold ensureIdx
  rw [List.append_assoc]
  refine ok_table ho (by simp) ?_
  cases m
  · exact hp
  · exact ok_table ho (by simp) hp

theorem ok_inserts {own : Held} {rounds : List (List Nat × List Nat)} {p : List Instr} (ho : Outer own)
    (hu : (Lock.update, true) ∈ own) (hp : Ok false [] own p) : Ok false [] own (inserts rounds ++ p) := by
  induction rounds with
  | nil => exact hp
  | cons r rounds ih =>
    unfold inserts at ih ⊢
    rw [List.flatMap_cons]
    simp only [List.append_assoc]
    exact ok_writeSegs ho hu (ok_writeSegs ho hu ih)

theorem ok_rebuildIndex {own : Held} {segs : List Nat} {p : List Instr} (ho : Outer own) (hp : Ok false [] own p) :
    Ok false [] own (rebuildIndex segs ++ p) := by
  unfold rebuildIndex
  simp only [List.append_assoc]
  exact ok_list ho.2 (ok_peek ho (by simp) (ok_readSegs ho (ok_save ho hp)))

theorem ok_acq {own : Held} {l : Lock} {w : Bool} {p : List Instr} (hl : inner l = false)
    (h : ∀ x ∈ own, rank x.1 < rank l) (hp : Ok false [] ((l, w) :: own) p) :
    Ok false [] own (.act (.acq l w) :: p) :=
  ⟨rfl, by simp [hl], fun h => by (cases l <;> simp_all [inner, isSeg]), .inl ⟨h, by simp⟩, hp⟩

theorem ok_rel {own own' : Held} {l : Lock} {w : Bool} {p : List Instr} (hm : (l, w) ∈ own)
    (ho : ∀ h ∈ own, inner h.1 = false) (he : own.erase (l, w) = own') (hp : Ok false [] own' p) :
    Ok false [] own (.act (.rel l w) :: p) := by
  refine ⟨hm, by simp, fun _ => ⟨rfl, ho⟩, fun _ => ⟨rfl, fun h hh => ?_⟩, by rw [he]; exact hp⟩
  have := ho h hh
  cases hl : h.1 <;> rw [hl] at this <;> first | rfl | cases this

theorem outer_inner {own : Held} (h : ∀ h ∈ own, rank h.1 ≤ 2) : ∀ h ∈ own, inner h.1 = false := by
  intro x hx
  have := h x hx
  cases hx1 : x.1 <;> simp_all [inner, rank]

theorem ok_unlock {upd wr : Bool} {q : List Instr} (hq : Ok false [] [] q) :
    Ok false [] (ctx upd wr) (unlock upd wr ++ q) := by
  cases upd
  · refine ok_rel (own' := []) (by simp [ctx]) (outer_inner (outer_ctx _ _).2) (by simp [ctx]) ?_
    exact hq
  · refine ok_rel (own' := [(.update, true)]) (by simp [ctx]) (outer_inner (outer_ctx _ _).2) (by simp [ctx]) ?_
    refine ok_rel (own' := []) (by simp) (by simp [inner]) (by simp) ?_
    exact hq

/-- `withSegments` after its first locks. -/
def loadRest (upd wr : Bool) (how : Loading) (body : List Instr) : List Instr :=
  (match how with
   | .cached => .act (.rel .loading true) :: body
   | .failed =>
     (if wr then [] else [.act (.rel .segments false), .act (.acq .segments true)]) ++
     [.act (.rel .segments true)] ++ (if upd then [.act (.rel .update true)] else []) ++ [.act (.rel .loading true)]
   | .read =>
     (if wr then [] else [.act (.rel .segments false), .act (.acq .segments true)]) ++
     (if wr then [] else [.act (.rel .segments true), .act (.acq .segments false)]) ++
     .act (.rel .loading true) :: body
   | .rebuilt segs =>
     (if wr then [] else [.act (.rel .segments false), .act (.acq .segments true)]) ++
     (if upd then rebuildIndex segs else []) ++
     (if wr then [] else [.act (.rel .segments true), .act (.acq .segments false)]) ++
     .act (.rel .loading true) :: body)

theorem ok_withSegments {upd wr : Bool} {how : Loading} {body q : List Instr}
    (hb : how ≠ .failed → Ok false [] (ctx upd wr) (body ++ q)) (hq : Ok false [] [] q) :
    Ok false [] [] (withSegments upd wr how body ++ q) := by
  -- after the update lock
  have main : ∀ u : Held, (u = [] ∧ upd = false) ∨ (u = [(.update, true)] ∧ upd = true) →
      Ok false [] u (([.act (.acq .loading true), .act (.acq .segments wr)] : List Instr) ++ (loadRest upd wr how body ++ q)) := by
    intro u hu
    have hur : ∀ x ∈ u, rank x.1 = 0 := by
      rcases hu with ⟨rfl, _⟩ | ⟨rfl, _⟩ <;> simp [rank]
    have hctx : ctx upd wr = (.segments, wr) :: u := by
      rcases hu with ⟨rfl, rfl⟩ | ⟨rfl, rfl⟩ <;> simp [ctx]
    have hne : ∀ w l, l ≠ Lock.update → ((l, w) : Lock × Bool) ∉ u := by
      intro w l hl hm
      rcases hu with ⟨rfl, _⟩ | ⟨rfl, _⟩
      · cases hm
      · simp at hm; exact hl hm.1
    refine ok_acq rfl (fun x hx => by rw [hur x hx]; simp [rank]) ?_
    refine ok_acq rfl (fun x hx => ?_) ?_
    · rcases List.mem_cons.1 hx with rfl | hx
      · simp [rank]
      · rw [hur x hx]; simp [rank]
    -- the locks while loading
    have houter : ∀ w, Outer ((.segments, w) :: (.loading, true) :: u) := by
      intro w
      refine ⟨⟨w, by simp⟩, fun x hx => ?_⟩
      rcases List.mem_cons.1 hx with rfl | hx
      · simp [rank]
      rcases List.mem_cons.1 hx with rfl | hx
      · simp [rank]
      · rw [hur x hx]; omega
    have up : ∀ (w : Bool) (p : List Instr), Ok false [] ((.segments, !w) :: (.loading, true) :: u) p →
        Ok false [] ((.segments, w) :: (.loading, true) :: u)
          (.act (.rel .segments w) :: .act (.acq .segments (!w)) :: p) := by
      intro w p hp
      refine ok_rel (own' := (.loading, true) :: u) (by simp) (outer_inner (houter w).2) (by simp) ?_
      refine ok_acq rfl (fun x hx => ?_) hp
      rcases List.mem_cons.1 hx with rfl | hx
      · simp [rank]
      · rw [hur x hx]; simp [rank]
    have fin : how ≠ .failed → Ok false [] ((.segments, wr) :: (.loading, true) :: u) (.act (.rel .loading true) :: (body ++ q)) := by
      intro hh
      refine ok_rel (own' := (.segments, wr) :: u) (by simp) (outer_inner (houter wr).2) (by simp) ?_
      rw [← hctx]
      exact hb hh
    have finq : ∀ v : Held, v = (.loading, true) :: u →
        Ok false [] v ((if upd then [.act (.rel .update true)] else []) ++ [.act (.rel .loading true)] ++ q) := by
      rintro v rfl
      rcases hu with ⟨rfl, rfl⟩ | ⟨rfl, rfl⟩
      · exact ok_rel (own' := []) (by simp) (by simp [inner]) (by simp) hq
      · refine ok_rel (own' := [(.loading, true)]) (by simp) (by simp [inner]) (by simp) ?_
        exact ok_rel (own' := []) (by simp) (by simp [inner]) (by simp) hq
    cases how with
    | cached => exact fin (by simp)
    | failed =>
      cases wr
      · refine up false _ ?_
        refine ok_rel (own' := (.loading, true) :: u) (by simp) (outer_inner (houter true).2) (by simp) ?_
        simpa using finq _ rfl
      · refine ok_rel (own' := (.loading, true) :: u) (by simp) (outer_inner (houter true).2) (by simp) ?_
        simpa using finq _ rfl
    | read =>
      cases wr
      · exact up false _ (up true _ (fin (by simp)))
      · exact fin (by simp)
    | rebuilt segs =>
      have hmid : ∀ p, Ok false [] ((.segments, true) :: (.loading, true) :: u) p →
          Ok false [] ((.segments, true) :: (.loading, true) :: u)
            ((if upd then rebuildIndex segs else []) ++ p) := by
        intro p hp
        cases upd
        · exact hp
        · exact ok_rebuildIndex (houter true) hp
      unfold loadRest
      cases wr
      · simp only [Bool.false_eq_true, if_false, List.append_assoc]
        exact up false _ (hmid _ (up true _ (fin (by simp))))
      · simp only [if_true, List.nil_append, List.append_assoc]
        exact hmid _ (fin (by simp))
  have hw : withSegments upd wr how body = (if upd then [.act (.acq .update true)] else []) ++
      ([.act (.acq .loading true), .act (.acq .segments wr)] ++ loadRest upd wr how body) := by
    unfold withSegments
    rw [List.append_assoc]
    rfl
  rw [hw]
  cases upd
  · exact main [] (.inl ⟨rfl, rfl⟩)
  · exact ok_acq rfl (by simp) (main [(.update, true)] (.inr ⟨rfl, rfl⟩))

theorem ok_nil : Ok false [] [] [] := ⟨rfl, rfl, rfl⟩

theorem ok_reader {how : Loading} {body q : List Instr} (hq : Ok false [] [] q)
    (hb : ∀ p, Ok false [] (ctx false false) p → Ok false [] (ctx false false) (body ++ p)) :
    Ok false [] [] (reader how body ++ q) := by
  unfold reader
  refine ok_withSegments (fun _ => ?_) hq
  rw [List.append_assoc]
  exact hb _ (ok_unlock hq)

theorem ok_updater {how : Loading} {body : List Instr}
    (hb : ∀ p, Ok false [] (ctx true false) p → Ok false [] (ctx true false) (body ++ p)) :
    Disciplined (updater how body) := by
  have := ok_withSegments (upd := true) (wr := false) (how := how) (body := body ++ unlock true false) (q := [])
    (fun _ => by rw [List.append_assoc]; exact hb _ (ok_unlock ok_nil)) ok_nil
  rwa [List.append_nil] at this

theorem ok_writer {how : Loading} {body : List Instr} (hb : Ok false [] (ctx true true) body) :
    Disciplined (withSegments true true how body) := by
  have := ok_withSegments (upd := true) (wr := true) (how := how) (body := body) (q := []) (fun _ => by simpa using hb) ok_nil
  rwa [List.append_nil] at this

/-! Lookups with neighbours -/

theorem okRead_acqs {own : Held} {is : List Nat} {p : List Act}
    (h : OkRead ((is.reverse.map fun i => (Lock.seg false i, false)) ++ own) p) :
    OkRead own ((is.map fun i => .acq (.seg false i) false) ++ p) := by
  induction is generalizing own with
  | nil => exact h
  | cons i is ih =>
    refine ⟨rfl, rfl, ih ?_⟩
    simpa using h

theorem okRead_rels {own : Held} {is : List Nat} {p : List Act} (h : OkRead own p) :
    OkRead ((is.map fun i => (Lock.seg false i, false)) ++ own) ((is.map fun i => .rel (.seg false i) false) ++ p) := by
  induction is with
  | nil => exact h
  | cons i is ih => exact ⟨by simp, by simpa using ih⟩

theorem okRead_findIn (i : Nat) (near : List (List Nat)) : OkRead [] (findIn i near) := by
  have hnear : ∀ (own : Held) (p : List Act), OkRead own p → OkRead own (near.flatMap neighbours ++ p) := by
    intro own p hp
    induction near with
    | nil => exact hp
    | cons is near ih =>
      rw [List.flatMap_cons, List.append_assoc]
      unfold neighbours
      rw [List.append_assoc]
      exact okRead_acqs (okRead_rels ih)
  refine ⟨rfl, rfl, hnear _ _ ⟨by simp, ?_⟩⟩
  simp [OkRead]

theorem findIn_simple {i : Nat} {near : List (List Nat)} (h : NoRadius near) :
    findIn i near = [.acq (.seg false i) false, .rel (.seg false i) false] := by
  have : near.flatMap neighbours = [] := by
    rw [List.flatMap_eq_nil_iff]
    intro is his
    rw [h is his]
    rfl
  unfold findIn
  rw [this]
  rfl

theorem ok_lookup {own : Held} {looks : Nat} {index : List Nat} {missing : Bool}
    {found : List (Nat × List (List Nat))} {p : List Instr} (ho : Outer own)
    (hf : (Lock.update, true) ∈ own ∨ ∀ x ∈ found, NoRadius x.2) (hp : Ok false [] own p) :
    Ok false [] own (lookup looks index missing found ++ p) := by
  unfold lookup
  simp only [List.append_assoc]
  refine ok_list ho.2 (ok_list ho.2 (ok_peek ho (by simp) (ok_readSegs ho (ok_ensureIdx ho (ok_peek ho (by simp) ?_)))))
  rcases hf with hu | hf
  · refine ⟨rfl, [], fun _ h => h, ⟨rfl, hp⟩, .inr ⟨⟨rfl, ?_, ?_, ?_⟩, fun q hq => ?_⟩⟩
    · exact hu
    · exact ho.1
    · exact outer_inner ho.2
    · obtain ⟨x, _, rfl⟩ := List.mem_map.1 hq
      exact okRead_findIn _ _
  · refine ok_par (fun q hq => ?_) hp
    obtain ⟨x, hx, rfl⟩ := List.mem_map.1 hq
    rw [findIn_simple (hf x hx)]
    exact okKid_read ho rfl

/-! Updates -/

theorem okKid_olds {M : Held} {Sh : List Lock} {olds : List Nat} (ho : Outer M) (hu : (Lock.update, true) ∈ M)
    (hS : ∀ s ∈ Sh, rank s = 4) (hin : ∀ j ∈ olds, Lock.seg false j ∈ Sh) :
    OkKid M Sh [] (olds.flatMap fun j => [.acq (.table false) false, .rel (.table false) false, .load (.seg false j) true]) := by
  induction olds with
  | nil => rfl
  | cons j olds ih =>
    refine ⟨rfl, ho.1, by simp [isSeg], outer_lt ho rfl, by simp, fun s hs => by rw [hS s hs]; simp [rank], by simp, ?_⟩
    have : (([(Lock.table false, false)] : Held).erase (Lock.table false, false)) = [] := by simp
    rw [this]
    refine ⟨rfl, ho.1, hu, fun _ => hin j (by simp), outer_lt ho rfl, by simp, fun s hs => by rw [hS s hs]; simp [rank], ?_⟩
    exact ih fun j hj => hin j (by simp [hj])

theorem okKid_update {M : Held} {Sh : List Lock} {i : Nat} {olds : List Nat} (ho : Outer M)
    (hu : (Lock.update, true) ∈ M) (hS : ∀ s ∈ Sh, rank s = 4) (hi : Lock.seg true i ∈ Sh)
    (hin : ∀ j ∈ olds, Lock.seg false j ∈ Sh) : OkKid M Sh [] (updateKid i olds) :=
  ⟨rfl, ho.1, hu, fun _ => hi, outer_lt ho rfl, by simp, fun s hs => by rw [hS s hs]; simp [rank], okKid_olds ho hu hS hin⟩

theorem ok_unload {Sh : List Lock} {own : Held} {f : Nat → Lock} {js : List Nat} {p : List Instr}
    (hp : Ok false (Sh.filter fun l => !(js.any fun j => f j == l)) own p) :
    Ok false Sh own ((js.map fun j => .unload (f j)) ++ p) := by
  induction js generalizing Sh with
  | nil => rwa [List.filter_eq_self.2 (by simp)] at hp
  | cons j js ih =>
    refine ⟨rfl, ih ?_⟩
    rw [List.filter_filter]
    refine (congrArg (fun s => Ok false s own p) (List.filter_congr fun l _ => ?_)).mp hp
    simp only [List.any_cons, Bool.not_or]
    rw [Bool.and_comm]
    congr 1
    rw [Bool.beq_comm]
    rfl

theorem ok_replaces {Sh : List Lock} {own : Held} {b : Bool} {js : List Nat} {p : List Instr} (ho : Outer own)
    (hS : ∀ s ∈ Sh, rank s = 4) (hp : Ok false (Sh.filter fun l => !(js.any fun j => Lock.seg b j == l)) own p) :
    Ok false Sh own (js.flatMap (replace b) ++ p) := by
  induction js generalizing Sh with
  | nil => rwa [List.filter_eq_self.2 (by simp)] at hp
  | cons j js ih =>
    rw [List.flatMap_cons, List.append_assoc]
    unfold replace
    rw [List.append_assoc]
    refine ok_table ho (fun s hs => by rw [hS s hs]; omega) ⟨rfl, ih (fun s hs => hS s (List.mem_filter.1 hs).1) ?_⟩
    rw [List.filter_filter]
    refine (congrArg (fun s => Ok false s own p) (List.filter_congr fun l _ => ?_)).mp hp
    simp only [List.any_cons, Bool.not_or]
    rw [Bool.and_comm]
    congr 1
    rw [Bool.beq_comm]
    rfl

/-- The locks the goroutines of an update may take. -/
def kidLocks (kids : List (Nat × List Nat)) : List Lock :=
  (kids.map fun k => Lock.seg true k.1) ++ (kids.flatMap (·.2)).map fun j => Lock.seg false j

theorem kidLocks_rank {kids : List (Nat × List Nat)} : ∀ s ∈ kidLocks kids, rank s = 4 := by
  intro s hs
  unfold kidLocks at hs
  rcases List.mem_append.1 hs with hs | hs <;> obtain ⟨_, _, rfl⟩ := List.mem_map.1 hs <;> rfl

theorem ok_updateKids {own : Held} {missing : Bool} {looks : Nat} {kids : List (Nat × List Nat)} {p : List Instr}
    (ho : Outer own) (hu : (Lock.update, true) ∈ own) (hp : Ok false (kidLocks kids) own p) :
    Ok false [] own (touch .list false ++ (ensureIdx false missing ++ (peek true looks ++
      (.par (kids.map fun k => updateKid k.1 k.2) :: .join :: p)))) := by
  refine ok_list ho.2 (ok_ensureIdx ho (ok_peek ho (by simp) ?_))
  refine ⟨rfl, kidLocks kids, by simp, ⟨rfl, hp⟩, .inl fun q hq => ?_⟩
  obtain ⟨k, hk, rfl⟩ := List.mem_map.1 hq
  refine okKid_update ho hu kidLocks_rank ?_ fun j hj => ?_
  · exact List.mem_append_left _ (List.mem_map.2 ⟨k, hk, rfl⟩)
  · exact List.mem_append_right _ (List.mem_map.2 ⟨j, List.mem_flatMap.2 ⟨k, hk, hj⟩, rfl⟩)

theorem ok_dsts {Sh : List Lock} {own : Held} {dsts : List (Bool × Nat)} {p : List Instr} (ho : Outer own)
    (hu : (Lock.update, true) ∈ own) (hS : ∀ s ∈ Sh, rank s = 4)
    (hp : ∀ Sh', (∀ s ∈ Sh', s ∈ Sh ∨ ∃ d ∈ dsts, s = .seg false d.2) → Ok false Sh' own p) :
    Ok false Sh own ((dsts.flatMap fun d => (if d.1 then touch (.table false) false else []) ++
      [.act (.load (.seg false d.2) true)]) ++ p) := by
  induction dsts generalizing Sh with
  | nil => exact hp Sh fun s hs => .inl hs
  | cons d dsts ih =>
    rw [List.flatMap_cons]
    simp only [List.append_assoc]
    have hrest : Ok false Sh own (([.act (.load (.seg false d.2) true)] : List Instr) ++
        ((dsts.flatMap fun d => (if d.1 then touch (.table false) false else []) ++
          [.act (.load (.seg false d.2) true)]) ++ p)) := by
      refine ⟨rfl, rfl, ho.1, hu, outer_lt ho rfl, fun s hs => by rw [hS s hs]; simp [rank], ih ?_ ?_⟩
      · intro s hs
        rcases List.mem_cons.1 hs with rfl | hs
        · rfl
        · exact hS s hs
      · intro Sh' hSh'
        refine hp Sh' fun s hs => ?_
        rcases hSh' s hs with h | ⟨d', hd', rfl⟩
        · rcases List.mem_cons.1 h with rfl | h
          · exact .inr ⟨d, by simp, rfl⟩
          · exact .inl h
        · exact .inr ⟨d', by simp [hd'], rfl⟩
    cases d.1
    · exact hrest
    · exact ok_table ho (fun s hs => by rw [hS s hs]; omega) hrest

theorem filter_nil {Sh : List Lock} {q : Lock → Bool} (h : ∀ s ∈ Sh, q s = false) : Sh.filter q = [] := by
  rw [List.filter_eq_nil_iff]
  intro s hs
  simp [h s hs]

theorem ok_updateBody {own : Held} {missing : Bool} {looks : Nat} {kids : List (Nat × List Nat)}
    {dsts : List (Bool × Nat)} {results p : List Instr} (ho : Outer own) (hu : (Lock.update, true) ∈ own)
    (hr : ∀ p, Ok false [] own p → Ok false [] own (results ++ p)) (hp : Ok false [] own p) :
    Ok false [] own (updateBody missing looks kids dsts results ++ p) := by
  unfold updateBody
  simp only [List.append_assoc]
  refine ok_updateKids ho hu ?_
  refine ok_dsts ho hu kidLocks_rank fun Sh hSh => ?_
  have hS4 : ∀ s ∈ Sh, rank s = 4 := by
    intro s hs
    rcases hSh s hs with h | ⟨d, _, rfl⟩
    · exact kidLocks_rank s h
    · rfl
  have h1 : (kids.flatMap fun k => replace true k.1) = (kids.map (·.1)).flatMap (replace true) := by
    rw [List.flatMap_map]
  rw [h1]
  refine ok_replaces ho hS4 (ok_replaces ho (fun s hs => hS4 s (List.mem_filter.1 hs).1) ?_)
  rw [List.filter_filter, filter_nil]
  · exact hr _ (ok_checkSplit ho (ok_save ho hp))
  · intro s hs
    rcases hSh s hs with h | ⟨d, hd, rfl⟩
    · rcases List.mem_append.1 h with h | h
      · obtain ⟨k, hk, rfl⟩ := List.mem_map.1 h
        have : ((kids.map (·.1)).any fun j => Lock.seg true j == Lock.seg true k.1) = true :=
          List.any_eq_true.2 ⟨k.1, List.mem_map.2 ⟨k, hk, rfl⟩, by simp⟩
        simp [this]
      · obtain ⟨j, hj, rfl⟩ := List.mem_map.1 h
        have : ((kids.flatMap (·.2) ++ dsts.map (·.2)).any fun i => Lock.seg false i == Lock.seg false j) = true :=
          List.any_eq_true.2 ⟨j, List.mem_append_left _ hj, by simp⟩
        rw [this]; rfl
    · have : ((kids.flatMap (·.2) ++ dsts.map (·.2)).any fun i => Lock.seg false i == Lock.seg false d.2) = true :=
        List.any_eq_true.2 ⟨d.2, List.mem_append_right _ (List.mem_map.2 ⟨d, hd, rfl⟩), by simp⟩
      rw [this]; rfl

theorem ok_updateFail {own : Held} {missing : Bool} {looks : Nat} {kids : List (Nat × List Nat)} {p : List Instr}
    (ho : Outer own) (hu : (Lock.update, true) ∈ own) (hp : Ok false [] own p) :
    Ok false [] own (updateFail missing looks kids ++ p) := by
  unfold updateFail
  simp only [List.append_assoc]
  refine ok_updateKids ho hu ?_
  have h1 : (kids.map fun k => Instr.unload (.seg true k.1)) =
      (kids.map (·.1)).map fun j => Instr.unload (.seg true j) := by
    rw [List.map_map]; rfl
  rw [h1]
  refine ok_unload (f := fun j => .seg true j) (ok_unload (f := fun j => .seg false j) ?_)
  rw [List.filter_filter, filter_nil]
  · exact hp
  · intro s hs
    rcases List.mem_append.1 hs with h | h
    · obtain ⟨k, hk, rfl⟩ := List.mem_map.1 h
      have : ((kids.map (·.1)).any fun j => Lock.seg true j == Lock.seg true k.1) = true :=
        List.any_eq_true.2 ⟨k.1, List.mem_map.2 ⟨k, hk, rfl⟩, by simp⟩
      simp [this]
    · obtain ⟨j, hj, rfl⟩ := List.mem_map.1 h
      have : ((kids.flatMap (·.2)).any fun i => Lock.seg false i == Lock.seg false j) = true :=
        List.any_eq_true.2 ⟨j, hj, by simp⟩
      rw [this]; rfl

/-! Rebuilding -/

theorem ok_splitAct {b : Bool} {a : SplitAct} {p : List Instr} (hp : Ok false [] (ctx true true) p) :
    Ok false [] (ctx true true) (splitAct b a ++ p) := by
  have ho := outer_ctx true true
  have hu : (Lock.update, true) ∈ ctx true true := by simp [ctx]
  have tab : ∀ (own : Held) (p : List Instr), (Lock.segments, true) ∈ own → (∀ h ∈ own, h.1 ≠ .table b) →
      Ok false [] own p → Ok false [] own (touch (.table b) true ++ p) := by
    intro own p h1 h2 hp
    exact ok_touch (fun _ => ⟨true, h1⟩) (by simp [isSeg]) (.inr ⟨h1, rfl, h2, by simp⟩) (by simp) (by simp) hp
  cases a with
  | keep i => exact ok_touch (fun _ => ho.1) (fun _ _ => hu) (.inl ⟨outer_lt ho rfl, by simp⟩) (by simp) (by simp) hp
  | split i =>
    unfold splitAct
    simp only [List.append_assoc]
    refine ⟨rfl, fun _ => ho.1, fun _ _ => hu, .inl ⟨outer_lt ho rfl, by simp⟩, ?_⟩
    refine tab _ _ (by simp [ctx]) (by simp [ctx]) (tab _ _ (by simp [ctx]) (by simp [ctx]) ?_)
    have fin : ∀ q, Ok false [] (ctx true true) q →
        Ok false [] ((.seg b i, true) :: ctx true true) (([.act (.rel (.seg b i) true)] : List Instr) ++ q) := by
      intro q hq
      exact ⟨by simp, by simp, by simp, by simp, by simpa using hq⟩
    cases b
    · exact fin _ (tab _ _ (by simp [ctx]) (by simp [ctx]) hp)
    · exact tab _ _ (by simp [ctx]) (by simp [ctx]) (fin _ hp)
  | merge i =>
    unfold splitAct
    simp only [List.append_assoc]
    refine ⟨rfl, fun _ => ho.1, fun _ _ => hu, .inl ⟨outer_lt ho rfl, by simp⟩, ?_⟩
    refine ⟨rfl, fun _ => ⟨true, by simp [ctx]⟩, fun _ _ => by simp [ctx], .inr ⟨by simp [ctx], rfl, by simp [ctx], by simp⟩, ?_⟩
    refine tab _ _ (by simp [ctx]) (by simp [ctx]) (tab _ _ (by simp [ctx]) (by simp [ctx]) ?_)
    refine ⟨by simp, by simp, by simp, by simp, ?_⟩
    refine ⟨by simp, by simp, by simp, by simp, ?_⟩
    simpa using hp

theorem ok_splitActs {b : Bool} {as : List SplitAct} {p : List Instr} (hp : Ok false [] (ctx true true) p) :
    Ok false [] (ctx true true) (as.flatMap (splitAct b) ++ p) := by
  induction as with
  | nil => exact hp
  | cons a as ih =>
    rw [List.flatMap_cons, List.append_assoc]
    exact ok_splitAct ih

theorem ok_splitBody {scores index : List SplitAct} {upd : List Nat} {n m : Nat} {p : List Instr}
    (hp : Ok false [] (ctx true true) p) : Ok false [] (ctx true true) (splitBody scores upd n m index ++ p) := by
  have ho := outer_ctx true true
  unfold splitBody
  simp only [List.append_assoc]
  exact ok_list ho.2 (ok_splitActs (ok_peek ho (by simp) (ok_writePar ho (by simp [ctx])
    (ok_peek ho (by simp) (ok_peek ho (by simp) (ok_splitActs (ok_save ho hp)))))))

/-- The end of the operations that install new segments. -/
theorem ok_newUnlock {own : Held} (h : own = ctx true true) :
    Ok false [] own [.act (.rel .update true), .act (.rel .segments true)] := by
  subst h
  refine ok_rel (own' := [(.segments, true)]) (by simp [ctx]) (outer_inner (outer_ctx _ _).2) (by simp [ctx]) ?_
  exact ok_rel (own' := []) (by simp) (by simp [inner]) (by simp) ok_nil

theorem ok_populateBody {empty : Bool} {rounds : List (List Nat × List Nat)} {n m : Nat} :
    Ok false [] (ctx true true) (populateBody empty rounds n m) := by
  have ho := outer_ctx true true
  unfold populateBody
  simp only [List.append_assoc]
  refine ok_list ho.2 (ok_list ho.2 ?_)
  have hrest : Ok false [] (ctx true true) (inserts rounds ++ (save ++ (verifyTables n m ++
      [.act (.rel .update true), .act (.rel .segments true)]))) :=
    ok_inserts ho (by simp [ctx]) (ok_save ho (ok_verifyTables ho (ok_newUnlock rfl)))
  cases empty
  · exact ok_list ho.2 hrest
  · exact hrest

theorem ok_repairRead {segs : List Nat} {p : List Instr} (hp : Ok false [] (ctx true true) p) :
    Ok false [] (ctx true true) ([.act (.acq .list true), .act (.acq (.table false) true)] ++ readEach false segs ++
       [.act (.rel .list true), .act (.rel (.table false) true)] ++ p) := by
  have ho := outer_ctx true true
  simp only [List.append_assoc]
  refine ok_acq rfl (fun x hx => ?_) ?_
  · have := ho.2 x hx
    show rank x.1 < 3
    omega
  refine ⟨rfl, fun _ => ⟨true, by simp [ctx]⟩, by simp [isSeg], .inl ⟨fun x hx => ?_, by simp⟩, ?_⟩
  · rcases List.mem_cons.1 hx with rfl | hx
    · simp [rank]
    · have := ho.2 x hx
      show rank x.1 < 5
      omega
  have hseg : ∀ p, Ok false [] ((.table false, true) :: (.list, true) :: ctx true true) p →
      Ok false [] ((.table false, true) :: (.list, true) :: ctx true true) (readEach false segs ++ p) := by
    intro p hp
    induction segs with
    | nil => exact hp
    | cons i segs ih =>
      unfold readEach at ih ⊢
      rw [List.flatMap_cons, List.append_assoc]
      exact ok_touch (fun _ => ⟨true, by simp [ctx]⟩) (by simp) (.inr ⟨by simp [ctx], rfl, by simp [ctx], by simp⟩)
        (by simp) (by simp) ih
  refine hseg _ ?_
  refine ⟨by simp, by simp, by simp, by simp, ?_⟩
  refine ⟨by simp, by simp, by simp, by simp, ?_⟩
  simpa [List.erase_cons] using hp

/-- Every simple operation keeps to the discipline. -/
theorem simple_disciplined (op : Op) (h : op.Simple) : Disciplined op.program := by
  have hor := outer_ctx false false
  have hou := outer_ctx true false
  have how' := outer_ctx true true
  have huu : (Lock.update, true) ∈ ctx true false := by simp [ctx]
  have rd : ∀ (how : Loading) (body : List Instr),
      (∀ p, Ok false [] (ctx false false) p → Ok false [] (ctx false false) (body ++ p)) →
      Disciplined (reader how body) := by
    intro how body hb
    have := ok_reader (how := how) (q := []) ok_nil hb
    rwa [List.append_nil] at this
  have rank : ∀ (segs : List Nat) (p : List Instr), Ok false [] (ctx false false) p →
      Ok false [] (ctx false false) (rankBody segs ++ p) := by
    intro segs p hp
    unfold rankBody
    simp only [List.append_assoc]
    exact ok_list hor.2 (ok_peek hor (by simp) (ok_readEach hor hp))
  cases op with
  | getElements how looks index missing found =>
    refine rd _ _ fun p hp => ?_
    rw [List.append_assoc]
    exact ok_list hor.2 (ok_lookup hor (.inr h) hp)
  | getRank how segs => exact rd _ _ (rank segs)
  | getRankScoreDesc how first segs =>
    have h' : segs = [] := h
    subst h'
    refine rd _ _ fun p hp => ?_
    simp only [List.append_assoc]
    refine ok_list hor.2 (ok_peek hor (by simp) ?_)
    exact ok_touch (l := .seg false first) (w := false) (fun _ => hor.1) (by simp)
      (.inl ⟨outer_lt hor rfl, by simp⟩) (by simp) (by simp) hp
  | getPercentile how s near =>
    refine rd _ _ fun p hp => ?_
    rw [findIn_simple h]
    simp only [List.append_assoc]
    refine ok_list hor.2 (ok_peek hor (by simp) ?_)
    exact ok_touch (l := .seg false s) (w := false) (fun _ => hor.1) (by simp)
      (.inl ⟨outer_lt hor rfl, by simp⟩) (by simp) (by simp) hp
  | len how => exact rd _ _ fun p hp => ok_peek hor (by simp) hp
  | stats how elements =>
    have h' : elements = none := h
    subst h'
    exact rd _ _ fun p hp => ok_peek hor (by simp) hp
  | verify how n m => exact rd _ _ fun p hp => ok_verifyTables hor hp
  | verifyElements how scores index =>
    refine ok_list (by simp) (ok_updater fun p hp => ?_)
    simp only [List.append_assoc]
    exact ok_list hou.2 (ok_peek hou (by simp) (ok_readSegs hou (ok_peek hou (by simp) (ok_readSegs hou hp))))
  | backup how segs =>
    refine ok_updater fun p hp => ?_
    simp only [List.append_assoc]
    exact ok_list hou.2 (ok_peek hou (by simp) (ok_readEach hou hp))
  | cloneFrom how segs => exact rd _ _ (rank segs)
  | insert how rounds =>
    refine ok_updater fun p hp => ?_
    simp only [List.append_assoc]
    exact ok_inserts hou huu (ok_checkSplit hou (ok_save hou hp))
  | updateElements how missing looks kids dsts results =>
    refine ok_updater fun p hp => ok_updateBody hou huu (fun q hq => ?_) hp
    cases results with
    | none => exact hq
    | some r =>
      obtain ⟨n, index, missing', found⟩ := r
      exact ok_lookup hou (.inl huu) hq
  | updateFailed how missing looks kids => exact ok_updater fun p hp => ok_updateFail hou huu hp
  | deleteElements how looks found missing scores index =>
    refine ok_updater fun p hp => ?_
    simp only [List.append_assoc]
    exact ok_list hou.2 (ok_list hou.2 (ok_peek hou (by simp) (ok_readSegs hou (ok_ensureIdx hou
      (ok_peek hou (by simp) (ok_writePar hou huu (ok_writeSegs hou huu (ok_checkSplit hou (ok_save hou hp)))))))))
  | split how scores upd n m index => exact ok_writer (ok_splitBody (by simpa using ok_unlock (q := []) ok_nil))
  | reindex how segs => exact ok_writer (ok_rebuildIndex how' (by simpa using ok_unlock (q := []) ok_nil))
  | populate how empty rounds n m => exact ok_writer ok_populateBody
  | populateUnloaded => exact h.elim
  | repair stat how segs empty rounds n m =>
    refine (?_ : Ok false [] [] _)
    unfold Op.program
    simp only [List.append_assoc]
    refine ok_reader ?_ fun p hp => ok_peek hor (by simp) hp
    refine ok_list (by simp) (ok_writer ?_)
    simpa using ok_repairRead ok_populateBody
  | repairCleared stat n m =>
    refine (?_ : Ok false [] [] _)
    unfold Op.program
    simp only [List.append_assoc]
    have hrest : Ok false [] [] (([.act (.acq .update true), .act (.acq .segments true)] : List Instr) ++
        (save ++ (verifyTables n m ++ [.act (.rel .update true), .act (.rel .segments true)]))) := by
      refine ok_acq rfl (by simp) (ok_acq rfl (by simp [RankDB.Locks.rank]) ?_)
      exact ok_save how' (ok_verifyTables how' (ok_newUnlock rfl))
    refine ok_reader ?_ fun p hp => ok_peek hor (by simp) hp
    exact ok_list (by simp) (ok_withSegments (how := .failed) (body := []) (fun h => absurd rfl h) hrest)
  | deleteAll how => exact ok_writer (ok_list how'.2 (by simpa using ok_unlock (q := []) ok_nil))
  | releaseSegments =>
    refine ok_list (by simp) (ok_acq rfl (by simp) (ok_acq rfl (by simp [RankDB.Locks.rank]) ?_))
    refine ok_rel (own' := [(.loading, true)]) (by simp) (by simp [inner]) (by simp) ?_
    exact ok_rel (own' := []) (by simp) (by simp [inner]) (by simp) ok_nil

end RankDB.Locks

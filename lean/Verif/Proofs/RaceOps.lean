import Verif.Proofs.Races
/-
The operations keep to the discipline of `Proofs/Races`, and are the programs of `Model/Locks` with accesses added.
-/
namespace RankDB.Races
open Locks

/-! ### Locks and accesses -/

theorem has_base {base own : Held} {L : List Lock} {l : Lock} (h : Has base l) : Has (known base own L) l :=
  has_mono (fun _ hx => List.mem_append_left _ hx) h

theorem has_own {base own : Held} {L : List Lock} {l : Lock} (h : Has own l) : Has (known base own L) l :=
  has_mono (fun _ hx => List.mem_append_right _ (List.mem_append_left _ hx)) h

theorem has_both {base own : Held} {L : List Lock} {l : Lock} (h : Has (base ++ own) l) : Has (known base own L) l :=
  h.elim fun w hw => (List.mem_append.1 hw).elim (fun h => has_base ⟨w, h⟩) fun h => has_own ⟨w, h⟩

theorem hasW_base {base own : Held} {L : List Lock} {l : Lock} (h : HasW base l) : HasW (known base own L) l :=
  List.mem_append_left _ h

theorem hasW_own {base own : Held} {L : List Lock} {l : Lock} (h : HasW own l) : HasW (known base own L) l :=
  List.mem_append_right _ (List.mem_append_left _ h)

theorem hasW_load {base own : Held} {L : List Lock} {l : Lock} (h : l ∈ L) : HasW (known base own L) l :=
  List.mem_append_right _ (List.mem_append_right _ (List.mem_map.2 ⟨l, h, rfl⟩))

theorem has_head {own : Held} {l : Lock} {w : Bool} : Has ((l, w) :: own) l := ⟨w, List.mem_cons_self ..⟩
theorem hasW_head {own : Held} {l : Lock} : HasW ((l, true) :: own) l := List.mem_cons_self ..

theorem has_tail {own : Held} {l : Lock} {h : Lock × Bool} (hl : Has own l) : Has (h :: own) l :=
  has_mono (fun _ hx => List.mem_cons_of_mem _ hx) hl
theorem hasW_tail {own : Held} {l : Lock} {h : Lock × Bool} (hl : HasW own l) : HasW (h :: own) l :=
  List.mem_cons_of_mem _ hl

theorem has_filter {own : Held} {l : Lock} (hb : isBase l = true) (h : Has own l) :
    Has (own.filter fun h => isBase h.1) l := h.elim fun w hw => ⟨w, List.mem_filter.2 ⟨hw, hb⟩⟩
theorem hasW_filter {own : Held} {l : Lock} (hb : isBase l = true) (h : HasW own l) :
    HasW (own.filter fun h => isBase h.1) l := List.mem_filter.2 ⟨h, hb⟩

/-- Whoever has the segments for writing may do everything. -/
theorem allowed_w {own : Held} {L : List Lock} {x : Access} (h : HasW own .segments) : Allowed (known [] own L) x :=
  .inl (hasW_own h)

theorem allowed_rule {base own : Held} {L : List Lock} {x : Access} (h : Has (base ++ own) .segments)
    (hr : Rule (known base own L) x.kind x.cell) : Allowed (known base own L) x := .inr ⟨has_both h, hr⟩

/-! ### Composition -/

/-- The rest of the program of the caller, when it has no goroutines. -/
abbrev Good (own : Held) (L : List Lock) (p : List RInstr) : Prop := Safe false [] own L p

theorem good_uses {busy : Bool} {J : List Lock} {own : Held} {L : List Lock} {p : List RInstr} :
    ∀ {xs : List Access}, (∀ x ∈ xs, Allowed (known [] own L) x) → Safe busy J own L p →
      Safe busy J own L (xs.map .use ++ p)
  | [], _, h => h
  | x :: xs, hx, h => ⟨hx x (by simp), good_uses (fun y hy => hx y (by simp [hy])) h⟩

theorem good_touch {own : Held} {L : List Lock} {p : List RInstr} {l : Lock} {w : Bool} {xs : List Access}
    (hx : ∀ x ∈ xs, Allowed (known [] ((l, w) :: own) L) x) (h : Good own L p) : Good own L (touch l w xs ++ p) := by
  unfold touch
  rw [List.cons_append, List.cons_append, List.append_assoc]
  refine good_uses (own := (l, w) :: own) hx ?_
  refine ⟨nofun, ?_⟩
  rw [List.erase_cons_head]
  exact h

theorem good_touch_nil {own : Held} {L : List Lock} {p : List RInstr} {l : Lock} {w : Bool}
    (h : Good own L p) : Good own L (touch l w [] ++ p) := good_touch nofun h

theorem good_touch_w {own : Held} {L : List Lock} {p : List RInstr} {l : Lock} {w : Bool} {xs : List Access}
    (hs : HasW own .segments) (h : Good own L p) : Good own L (touch l w xs ++ p) :=
  good_touch (fun _ _ => allowed_w (hasW_tail hs)) h

theorem good_look {own : Held} {L : List Lock} {p : List RInstr} {b : Bool} (hs : Has own .segments)
    (h : Good own L p) : Good own L (look b ++ p) := by
  refine good_touch (fun x hx => ?_) h
  refine allowed_rule (has_tail hs) ?_
  simp only [List.mem_cons, List.not_mem_nil, or_false] at hx
  rcases hx with rfl | rfl | rfl
  · trivial
  · trivial
  · exact has_own has_head

theorem good_repeat {own : Held} {L : List Lock} {p q : List RInstr} (hq : ∀ p, Good own L p → Good own L (q ++ p))
    (h : Good own L p) : ∀ n, Good own L ((List.replicate n q).flatten ++ p)
  | 0 => h
  | n + 1 => by
    rw [List.replicate_succ, List.flatten_cons, List.append_assoc]
    exact hq _ (good_repeat hq h n)

theorem good_looks {own : Held} {L : List Lock} {p : List RInstr} {b : Bool} {n : Nat} (hs : Has own .segments)
    (h : Good own L p) : Good own L (looks b n ++ p) := good_repeat (fun _ => good_look hs) h n

theorem good_flatMap {α : Type} {own : Held} {L : List Lock} {p : List RInstr} {f : α → List RInstr}
    (hf : ∀ x p, Good own L p → Good own L (f x ++ p)) (h : Good own L p) : ∀ xs : List α, Good own L (xs.flatMap f ++ p)
  | [] => h
  | x :: xs => by
    rw [List.flatMap_cons, List.append_assoc]
    exact hf x _ (good_flatMap hf h xs)

theorem good_verifyLooks {own : Held} {L : List Lock} {p : List RInstr} {b : Bool} {n : Nat}
    (hs : HasW own .segments) (h : Good own L p) : Good own L (verifyLooks b n ++ p) := by
  refine good_repeat (fun p hp => ?_) h n
  unfold verifyLook
  rw [List.append_assoc]
  exact good_touch_w hs ⟨allowed_w hs, allowed_w hs, hp⟩

/-- Goroutines that load nothing. -/
theorem good_par {own : Held} {L : List Lock} {p : List RInstr} {ps : List (List RAct)}
    (hk : ∀ k ∈ ps, KidSafe (own.filter fun h => isBase h.1) [] L k ∧ loads k = []) (h : Good own L p) :
    Good own L (.par ps :: .join :: p) := by
  refine ⟨rfl, fun k hk' => (hk k hk').1, ?_⟩
  have : ps.flatMap loads = [] := List.flatMap_eq_nil_iff.2 fun k hk' => (hk k hk').2
  rw [this]
  exact h

theorem kid_readSeg {base : Held} {L : List Lock} {b : Bool} {i : Nat} (hs : Has base .segments) :
    KidSafe base [] L (readSeg b i) := by
  have h1 : ∀ own : Held, Has (base ++ own) .segments := fun own => has_mono (fun _ hx => List.mem_append_left _ hx) hs
  exact ⟨allowed_rule (h1 _) trivial, allowed_rule (h1 _) trivial, allowed_rule (h1 _) trivial,
    allowed_rule (h1 _) (has_own has_head), allowed_rule (h1 _) (.inr (has_own has_head)), trivial⟩

theorem good_readSegs {own : Held} {L : List Lock} {p : List RInstr} {b : Bool} {is : List Nat}
    (hs : Has own .segments) (h : Good own L p) : Good own L (readSegs b is ++ p) := by
  refine good_par (fun k hk => ?_) h
  obtain ⟨i, _, rfl⟩ := List.mem_map.1 hk
  exact ⟨kid_readSeg (has_filter rfl hs), rfl⟩

theorem good_readEach {own : Held} {L : List Lock} {p : List RInstr} {b : Bool} {is : List Nat}
    (hs : Has own .segments) (h : Good own L p) : Good own L (readEach b is ++ p) := by
  refine good_flatMap (fun i p hp => ?_) h is
  rw [List.append_assoc]
  refine ⟨allowed_rule hs trivial, allowed_rule hs trivial, good_touch (fun x hx => allowed_rule (has_tail hs) ?_) hp⟩
  simp only [List.mem_cons, List.not_mem_nil, or_false] at hx
  rcases hx with rfl | rfl | rfl
  · trivial
  · exact has_own has_head
  · exact .inr (has_own has_head)

theorem good_save {own : Held} {L : List Lock} {p : List RInstr} {wrt : Bool} (hs : Has own .segments)
    (hw : wrt = true → HasW own .segments) (h : Good own L p) : Good own L (save wrt ++ p) := by
  unfold save
  simp only [List.append_assoc]
  cases wrt
  · exact good_touch_nil (good_look hs (good_look hs h))
  · exact ⟨allowed_w (hw rfl), allowed_w (hw rfl), good_touch_nil (good_look hs (good_look hs h))⟩

theorem good_rebuildIndex {own : Held} {L : List Lock} {p : List RInstr} {segs : List Nat}
    (hw : HasW own .segments) (h : Good own L p) : Good own L (rebuildIndex segs ++ p) := by
  unfold rebuildIndex
  simp only [List.append_assoc]
  have hs := has_of_w hw
  exact good_touch_nil (good_look hs (good_readSegs hs (good_save hs (fun _ => hw) h)))

theorem good_ensureIdx {own : Held} {L : List Lock} {p : List RInstr} {b missing : Bool}
    (hs : Has own .segments) (h : Good own L p) : Good own L (ensureIdx b missing ++ p) := by
  unfold ensureIdx
  rw [List.append_assoc]
  refine good_touch (fun x hx => allowed_rule (has_tail hs) ?_) ?_
  · simp only [List.mem_cons, List.not_mem_nil, or_false] at hx
    rcases hx with rfl | rfl
    · exact has_own has_head
    · trivial
  · cases missing
    · exact h
    · refine good_touch (fun x hx => allowed_rule (has_tail hs) ?_) h
      simp only [List.mem_cons, List.not_mem_nil, or_false] at hx
      rcases hx with rfl | rfl | rfl
      · trivial
      · trivial
      · exact hasW_own hasW_head

/-! ### Goroutines that visit neighbours -/

/-- The locks of a goroutine after a part of its program. -/
def after : Held → List RAct → Held
  | own, [] => own
  | own, .act (.acq l w) :: p => after ((l, w) :: own) p
  | own, .act (.rel l w) :: p => after (own.erase (l, w)) p
  | own, _ :: p => after own p

def NoLoad : List RAct → Prop
  | [] => True
  | .act (.load _ _) :: _ => False
  | _ :: p => NoLoad p

theorem after_append {q : List RAct} : ∀ {own : Held} {p : List RAct}, after own (p ++ q) = after (after own p) q
  | _, [] => rfl
  | _, .act (.acq _ _) :: p => after_append (p := p)
  | _, .act (.rel _ _) :: p => after_append (p := p)
  | _, .act (.load _ _) :: p => after_append (p := p)
  | _, .use _ :: p => after_append (p := p)

theorem noLoad_append {q : List RAct} : ∀ {p : List RAct}, NoLoad p → NoLoad q → NoLoad (p ++ q)
  | [], _, hq => hq
  | .act (.acq _ _) :: p, hp, hq => noLoad_append (p := p) hp hq
  | .act (.rel _ _) :: p, hp, hq => noLoad_append (p := p) hp hq
  | .use _ :: p, hp, hq => noLoad_append (p := p) hp hq

theorem loads_noLoad : ∀ {p : List RAct}, NoLoad p → loads p = []
  | [], _ => rfl
  | .act (.acq _ _) :: p, h => loads_noLoad (p := p) h
  | .act (.rel _ _) :: p, h => loads_noLoad (p := p) h
  | .use _ :: p, h => loads_noLoad (p := p) h

theorem kid_append {base : Held} {L : List Lock} {q : List RAct} : ∀ {p : List RAct} {own : Held}, NoLoad p →
    KidSafe base own L p → KidSafe base (after own p) L q → KidSafe base own L (p ++ q)
  | [], _, _, _, hq => hq
  | .act (.acq _ _) :: p, _, hn, hp, hq => kid_append (p := p) hn hp hq
  | .act (.rel _ _) :: p, _, hn, hp, hq => kid_append (p := p) hn hp hq
  | .use _ :: p, _, hn, hp, hq => ⟨hp.1, kid_append (p := p) hn hp.2 hq⟩

/-- Programs of goroutines that leave the locks as they are. -/
structure Visit (base : Held) (L : List Lock) (own : Held) (p : List RAct) : Prop where
  safe : KidSafe base own L p
  back : after own p = own
  pure : NoLoad p

theorem visit_append {base own : Held} {L : List Lock} {p q : List RAct} (hp : Visit base L own p)
    (hq : Visit base L own q) : Visit base L own (p ++ q) :=
  ⟨kid_append hp.pure hp.safe (by rw [hp.back]; exact hq.safe), by rw [after_append, hp.back, hq.back],
    noLoad_append hp.pure hq.pure⟩

theorem visit_around {base own : Held} {L : List Lock} {b : Bool} {i : Nat} {p : List RAct}
    (hs : Has (base ++ own) .segments) (hp : Visit base L ((.seg b i, false) :: own) p) :
    Visit base L own ([.use (rd (.rows b)), .use (rd (.bounds b (some i))), .act (.acq (.seg b i) false),
      .use (rd (.elems b (some i)))] ++ p ++ [.act (.rel (.seg b i) false)]) := by
  have hs' : Has (base ++ (Lock.seg b i, false) :: own) .segments := hs.elim fun w hw =>
    (List.mem_append.1 hw).elim (fun h => ⟨w, List.mem_append_left _ h⟩)
      fun h => ⟨w, List.mem_append_right _ (List.mem_cons_of_mem _ h)⟩
  refine ⟨⟨allowed_rule hs trivial, allowed_rule hs trivial, allowed_rule hs' (has_own has_head), ?_⟩, ?_, ?_⟩
  · exact kid_append hp.pure hp.safe trivial
  · show after ((Lock.seg b i, false) :: own) (p ++ _) = own
    rw [after_append, hp.back]
    exact List.erase_cons_head ..
  · exact noLoad_append (p := p) hp.pure trivial

theorem visit_neighbours {base : Held} {L : List Lock} : ∀ {is : List Nat} {own : Held}, Has (base ++ own) .segments →
    Visit base L own (neighbours is)
  | [], _, _ => ⟨trivial, rfl, trivial⟩
  | i :: is, own, hs => by
    have hs' : Has (base ++ (Lock.seg false i, false) :: own) .segments := hs.elim fun w hw =>
      (List.mem_append.1 hw).elim (fun h => ⟨w, List.mem_append_left _ h⟩)
        fun h => ⟨w, List.mem_append_right _ (List.mem_cons_of_mem _ h)⟩
    have hv := visit_around hs (visit_neighbours (L := L) (is := is) hs')
    unfold neighbours at hv ⊢
    rw [List.flatMap_cons, List.reverse_cons, List.map_append]
    simpa only [List.append_assoc, List.map_cons, List.map_nil] using hv

theorem visit_flatMap {base own : Held} {L : List Lock} (hs : Has (base ++ own) .segments) : ∀ near : List (List Nat),
    Visit base L own (near.flatMap neighbours)
  | [] => ⟨trivial, rfl, trivial⟩
  | is :: near => by
    rw [List.flatMap_cons]
    exact visit_append (visit_neighbours hs) (visit_flatMap hs near)

theorem visit_findIn {base own : Held} {L : List Lock} {i : Nat} {near : List (List Nat)}
    (hs : Has (base ++ own) .segments) : Visit base L own (findIn i near) :=
  visit_around hs (visit_flatMap (hs.elim fun w hw =>
    (List.mem_append.1 hw).elim (fun h => ⟨w, List.mem_append_left _ h⟩)
      fun h => ⟨w, List.mem_append_right _ (List.mem_cons_of_mem _ h)⟩) near)

theorem good_asMain {L : List Lock} {p : List RInstr} : ∀ {q : List RAct} {own : Held}, NoLoad q →
    KidSafe [] own L q → Good (after own q) L p → Good own L (q.map asMain ++ p)
  | [], _, _, _, h => h
  | .act (.acq _ _) :: q, _, hn, hq, h => good_asMain (q := q) hn hq h
  | .act (.rel _ _) :: q, _, hn, hq, h => ⟨nofun, good_asMain (q := q) hn hq h⟩
  | .use _ :: q, _, hn, hq, h => ⟨hq.1, good_asMain (q := q) hn hq.2 h⟩

theorem good_findIn {own : Held} {L : List Lock} {p : List RInstr} {i : Nat} {near : List (List Nat)}
    (hs : Has own .segments) (h : Good own L p) : Good own L ((findIn i near).map asMain ++ p) := by
  have hv : Visit [] L own (findIn i near) := visit_findIn hs
  exact good_asMain hv.pure hv.safe (by rw [hv.back]; exact h)

theorem good_lookup {own : Held} {L : List Lock} {p : List RInstr} {n : Nat} {index : List Nat} {missing : Bool}
    {found : List (Nat × List (List Nat))} (hs : Has own .segments) (h : Good own L p) :
    Good own L (lookup n index missing found ++ p) := by
  unfold lookup
  simp only [List.append_assoc]
  refine good_touch_nil (good_touch_nil (good_looks hs ⟨allowed_rule hs trivial, good_readSegs hs
    (good_ensureIdx hs (good_touch (fun x hx => ?_) (good_look hs (good_par (fun k hk => ?_) h))))⟩))
  · rw [List.mem_singleton] at hx
    subst hx
    exact allowed_rule (has_tail hs) (has_own has_head)
  · obtain ⟨q, _, rfl⟩ := List.mem_map.1 hk
    have hv : Visit (own.filter fun h => isBase h.1) L [] (findIn q.1 q.2) :=
      visit_findIn (by rw [List.append_nil]; exact has_filter rfl hs)
    exact ⟨hv.safe, loads_noLoad hv.pure⟩

/-! ### Changes -/

theorem kid_writeSeg {base : Held} {L : List Lock} {b : Bool} {i : Nat} (hs : Has base .segments)
    (hu : HasW base .update) : KidSafe base [] L (writeSeg b i) := by
  have h1 : ∀ own : Held, Has (base ++ own) .segments := fun own => has_mono (fun _ hx => List.mem_append_left _ hx) hs
  exact ⟨allowed_rule (h1 _) trivial, allowed_rule (h1 _) trivial, allowed_rule (h1 _) (hasW_own hasW_head),
    allowed_rule (h1 _) ⟨hasW_own hasW_head, hasW_own (hasW_tail hasW_head)⟩, allowed_rule (h1 _) (hasW_base hu), trivial⟩

theorem good_writePar {own : Held} {L : List Lock} {p : List RInstr} {b : Bool} {is : List Nat}
    (hs : Has own .segments) (hu : HasW own .update) (h : Good own L p) :
    Good own L (.par (is.map (writeSeg b)) :: .join :: p) := by
  refine good_par (fun k hk => ?_) h
  obtain ⟨i, _, rfl⟩ := List.mem_map.1 hk
  exact ⟨kid_writeSeg (has_filter rfl hs) (hasW_filter rfl hu), rfl⟩

theorem good_writeSegs {own : Held} {L : List Lock} {p : List RInstr} {b : Bool} {is : List Nat}
    (hs : Has own .segments) (hu : HasW own .update) (h : Good own L p) : Good own L (writeSegs b is ++ p) := by
  refine ⟨allowed_rule (has_tail hs) trivial, allowed_rule (has_tail hs) trivial, rfl, fun k hk => ?_, fun _ => rfl, ?_⟩
  · obtain ⟨i, _, rfl⟩ := List.mem_map.1 hk
    exact kid_writeSeg (has_filter rfl (has_tail hs)) (hasW_filter rfl (hasW_tail hu))
  · have : (is.map (writeSeg b)).flatMap loads = [] := List.flatMap_eq_nil_iff.2 fun k hk => by
      obtain ⟨i, _, rfl⟩ := List.mem_map.1 hk
      rfl
    rw [this, List.erase_cons_head]
    exact h

theorem good_checkSplit {own : Held} {L : List Lock} {p : List RInstr} (hs : Has own .segments) (h : Good own L p) :
    Good own L (checkSplit ++ p) := by
  unfold checkSplit
  simp only [List.append_assoc]
  exact good_touch_nil (good_look hs (good_look hs h))

theorem good_verifyTables {own : Held} {L : List Lock} {p : List RInstr} {n m : Nat} (hw : HasW own .segments)
    (h : Good own L p) : Good own L (verifyTables n m ++ p) := by
  unfold verifyTables
  simp only [List.append_assoc]
  exact good_touch_w hw (good_touch_w hw (good_verifyLooks hw (good_verifyLooks hw h)))

theorem good_inserts {own : Held} {L : List Lock} {p : List RInstr} {rounds : List (List Nat × List Nat)}
    (hs : Has own .segments) (hu : HasW own .update) (h : Good own L p) : Good own L (inserts rounds ++ p) := by
  refine good_flatMap (fun r p hp => ?_) h rounds
  rw [List.append_assoc]
  exact good_writeSegs hs hu (good_writeSegs hs hu hp)

/-! ### Segments of the whole call -/

theorem kid_updateKid {base : Held} {i : Nat} (hs : Has base .segments) : ∀ (olds : List Nat) (L : List Lock),
    KidSafe base [] L (updateKid i olds) := by
  have h1 : ∀ own : Held, Has (base ++ own) .segments := fun own => has_mono (fun _ hx => List.mem_append_left _ hx) hs
  have hrest : ∀ (olds : List Nat) (L : List Lock), KidSafe base [] L (olds.flatMap fun j =>
      [.act (.acq (.table false) false), .use (rd (.idx false)), .act (.rel (.table false) false),
       .use (rd (.bounds false (some j))), .act (.load (.seg false j) true), .use (wr (.elems false (some j)))]) := by
    intro olds
    induction olds with
    | nil => exact fun L => trivial
    | cons j olds ih =>
      intro L
      rw [List.flatMap_cons]
      refine ⟨allowed_rule (h1 _) (has_own has_head), ?_⟩
      show KidSafe base ([(Lock.table false, false)].erase (Lock.table false, false)) L _
      rw [List.erase_cons_head]
      exact ⟨allowed_rule (h1 _) trivial, allowed_rule (h1 _) (hasW_load (List.mem_cons_self ..)), ih _⟩
  intro olds L
  exact ⟨allowed_rule (h1 _) trivial, allowed_rule (h1 _) (hasW_load (List.mem_cons_self ..)), hrest olds _⟩

theorem loads_updateKid (i : Nat) (olds : List Nat) :
    loads (updateKid i olds) = Lock.seg true i :: olds.map (Lock.seg false) := by
  show Lock.seg true i :: loads (olds.flatMap _) = _
  congr 1
  induction olds with
  | nil => rfl
  | cons j olds ih =>
    rw [List.flatMap_cons, List.map_cons, ← ih]
    rfl

theorem good_kids {own : Held} {L : List Lock} {p : List RInstr} {kids : List (Nat × List Nat)} (hs : Has own .segments)
    (h : ∀ L', (∀ k ∈ kids, Lock.seg true k.1 ∈ L' ∧ ∀ j ∈ k.2, Lock.seg false j ∈ L') → Good own L' p) :
    Good own L (.par (kids.map fun k => updateKid k.1 k.2) :: .join :: p) := by
  refine ⟨rfl, fun k hk => ?_, ?_⟩
  · obtain ⟨q, _, rfl⟩ := List.mem_map.1 hk
    exact kid_updateKid (has_filter rfl hs) _ _
  · refine h _ fun k hk => ?_
    have hm : ∀ l ∈ loads (updateKid k.1 k.2),
        l ∈ (kids.map fun k => updateKid k.1 k.2).flatMap loads ++ L := fun l hl =>
      List.mem_append_left _ (List.mem_flatMap.2 ⟨_, List.mem_map.2 ⟨k, hk, rfl⟩, hl⟩)
    rw [loads_updateKid] at hm
    exact ⟨hm _ (List.mem_cons_self ..), fun j hj => hm _ (List.mem_cons_of_mem _ (List.mem_map.2 ⟨j, hj, rfl⟩))⟩

theorem good_dsts {own : Held} {p : List RInstr} (hs : Has own .segments) : ∀ (dsts : List (Bool × Nat)) (L : List Lock),
    (∀ L', (∀ l ∈ L, l ∈ L') → (∀ d ∈ dsts, Lock.seg false d.2 ∈ L') → Good own L' p) →
    Good own L ((dsts.flatMap fun d => (if d.1 then look false else []) ++
      [.use (rd (.bounds false (some d.2))), .act (.load (.seg false d.2) true), .use (wr (.elems false (some d.2)))]) ++ p)
  | [], L, h => h L (fun _ h => h) nofun
  | d :: dsts, L, h => by
    rw [List.flatMap_cons, List.append_assoc, List.append_assoc]
    have hrest : Good own L ([.use (rd (.bounds false (some d.2))), .act (.load (.seg false d.2) true),
        .use (wr (.elems false (some d.2)))] ++ ((dsts.flatMap fun d => (if d.1 then look false else []) ++
      [.use (rd (.bounds false (some d.2))), .act (.load (.seg false d.2) true),
        .use (wr (.elems false (some d.2)))]) ++ p)) := by
      refine ⟨allowed_rule hs trivial, allowed_rule hs (hasW_load (List.mem_cons_self ..)), ?_⟩
      refine good_dsts hs dsts _ fun L' h1 h2 => h L' (fun l hl => h1 l (List.mem_cons_of_mem _ hl)) fun d' hd' => ?_
      rcases List.mem_cons.1 hd' with rfl | hd'
      · exact h1 _ (List.mem_cons_self ..)
      · exact h2 d' hd'
    cases d.1
    · exact hrest
    · exact good_look hs hrest

theorem good_replaceAll {own : Held} {p : List RInstr} {b : Bool} (hs : Has own .segments) (hu : HasW own .update) :
    ∀ (is seen : List Nat) (L : List Lock), (∀ i ∈ is, i ∉ seen → Lock.seg b i ∈ L) →
    (∀ L', (∀ l ∈ L, (∀ i, l ≠ Lock.seg b i) → l ∈ L') → Good own L' p) →
    Good own L (replaceAll b seen is ++ p)
  | [], seen, L, _, h => h L fun l hl _ => hl
  | i :: is, seen, L, hL, h => by
    unfold replaceAll
    rw [List.append_assoc]
    have hrest : Good own (L.filter (· != Lock.seg b i)) (replaceAll b (i :: seen) is ++ p) := by
      refine good_replaceAll hs hu is (i :: seen) _ (fun j hj hn => ?_) fun L' h1 => h L' fun l hl hne => ?_
      · refine List.mem_filter.2 ⟨hL j (List.mem_cons_of_mem _ hj) fun hm => hn (List.mem_cons_of_mem _ hm), ?_⟩
        have hne : j ≠ i := fun e => hn (e ▸ List.mem_cons_self ..)
        simp [hne]
      · exact h1 l (List.mem_filter.2 ⟨hl, by simpa using hne i⟩) hne
    by_cases hm : i ∈ seen
    · rw [if_pos hm, List.append_assoc]
      exact good_touch_nil ⟨rfl, hrest⟩
    · rw [if_neg hm]
      have hi : Lock.seg b i ∈ L := hL i (List.mem_cons_self ..) hm
      unfold replace
      rw [List.append_assoc]
      refine good_touch (fun x hx => allowed_rule (has_tail hs) ?_)
        ⟨allowed_rule hs (has_of_w (hasW_load hi)), rfl, hrest⟩
      simp only [List.mem_cons, List.not_mem_nil, or_false] at hx
      rcases hx with rfl | rfl
      · exact ⟨hasW_own hasW_head, hasW_load hi⟩
      · exact hasW_own (hasW_tail hu)

theorem good_unloads {own : Held} {p : List RInstr} (h : ∀ L, Good own L p) : ∀ (ls L : List Lock),
    Good own L (ls.map .unload ++ p)
  | [], L => h L
  | _ :: ls, _ => ⟨rfl, good_unloads h ls _⟩

theorem good_updateBody {own : Held} {L : List Lock} {p results : List RInstr} {missing : Bool} {n : Nat}
    {kids : List (Nat × List Nat)} {dsts : List (Bool × Nat)} (hs : Has own .segments) (hu : HasW own .update)
    (hr : ∀ L p, Good own L p → Good own L (results ++ p)) (h : ∀ L, Good own L p) :
    Good own L (updateBody missing n kids dsts results ++ p) := by
  unfold updateBody
  simp only [List.append_assoc]
  refine good_touch_nil (good_ensureIdx hs (good_looks hs ⟨allowed_rule hs trivial, good_kids hs fun L' hL' => ?_⟩))
  refine good_dsts hs dsts L' fun L2 h1 h2 => ?_
  refine good_replaceAll hs hu _ _ _ (fun i hi _ => ?_) fun L3 h3 => ?_
  · obtain ⟨k, hk, rfl⟩ := List.mem_map.1 hi
    exact h1 _ (hL' k hk).1
  refine good_replaceAll hs hu _ _ _ (fun i hi _ => ?_) fun L4 h4 => ?_
  · refine h3 _ ?_ nofun
    rcases List.mem_append.1 hi with hi | hi
    · obtain ⟨k, hk, hi⟩ := List.mem_flatMap.1 hi
      exact h1 _ ((hL' k hk).2 i hi)
    · obtain ⟨d, hd, rfl⟩ := List.mem_map.1 hi
      exact h2 d hd
  exact hr _ _ (good_checkSplit hs (good_save hs nofun (h L4)))

theorem good_updateFail {own : Held} {L : List Lock} {p : List RInstr} {missing : Bool} {n : Nat}
    {kids : List (Nat × List Nat)} (hs : Has own .segments) (h : ∀ L, Good own L p) :
    Good own L (updateFail missing n kids ++ p) := by
  unfold updateFail
  simp only [List.append_assoc]
  refine good_touch_nil (good_ensureIdx hs (good_looks hs ⟨allowed_rule hs trivial, good_kids hs fun L' _ => ?_⟩))
  have e1 : (kids.map fun k => RInstr.unload (.seg true k.1)) = (kids.map fun k => Lock.seg true k.1).map .unload := by
    rw [List.map_map]; rfl
  have e2 : ((kids.flatMap (·.2)).map fun j => RInstr.unload (.seg false j)) =
      ((kids.flatMap (·.2)).map (Lock.seg false)).map .unload := by
    rw [List.map_map]; rfl
  rw [e1, e2]
  exact good_unloads (fun L => good_unloads h _ L) _ _

/-! ### Splitting -/

theorem good_reshape {own : Held} {L : List Lock} {p : List RInstr} {b : Bool} (hw : HasW own .segments)
    (h : Good own L p) : Good own L (reshape b ++ p) :=
  ⟨allowed_w hw, allowed_w hw, allowed_w hw, allowed_w hw, h⟩

theorem good_splitAct {own : Held} {L : List Lock} {p : List RInstr} {b : Bool} {a : SplitAct}
    (hw : HasW own .segments) (h : Good own L p) : Good own L (splitAct b a ++ p) := by
  have hw1 : ∀ l, HasW (l :: own) .segments := fun l => hasW_tail hw
  cases a with
  | keep i => exact ⟨allowed_w hw, good_touch_w hw h⟩
  | split i =>
    have hrel : Good ((Lock.seg b i, true) :: own) L (.act (.rel (.seg b i) true) ::
        ((if b then [] else touch (.table b) true []) ++ p)) := by
      refine ⟨nofun, ?_⟩
      rw [List.erase_cons_head]
      cases b
      · exact good_touch_nil h
      · exact h
    unfold splitAct
    simp only [List.append_assoc]
    refine ⟨allowed_w hw, good_reshape (own := (Lock.seg b i, true) :: own) (hw1 _)
      (good_touch_w (hw1 _) (good_touch_w (hw1 _) ?_))⟩
    cases b
    · exact hrel
    · exact good_touch_w (hw1 _) hrel
  | merge i =>
    unfold splitAct
    simp only [List.append_assoc]
    refine ⟨allowed_w hw, good_reshape (own := (Lock.seg b i, true) :: (Lock.seg b (i + 1), true) :: own) (hasW_tail (hw1 _))
      (good_touch_w (hasW_tail (hw1 _)) (good_touch_w (hasW_tail (hw1 _)) ⟨nofun, ?_⟩))⟩
    rw [List.erase_cons_head]
    refine ⟨nofun, ?_⟩
    rw [List.erase_cons_head]
    exact h

theorem good_splitBody {own : Held} {L : List Lock} {p : List RInstr} {scores : List SplitAct} {upd : List Nat}
    {n m : Nat} {index : List SplitAct} (hw : HasW own .segments) (hu : HasW own .update) (h : Good own L p) :
    Good own L (splitBody scores upd n m index ++ p) := by
  unfold splitBody
  simp only [List.append_assoc]
  have hs := has_of_w hw
  refine good_touch_nil (good_flatMap (fun a p hp => good_splitAct hw hp) ?_ _)
  refine ⟨allowed_w hw, good_look hs ⟨allowed_w hw, good_writePar hs hu (good_verifyLooks hw (good_verifyLooks hw ?_))⟩⟩
  refine good_flatMap (fun a p hp => good_splitAct hw hp) ?_ _
  exact ⟨allowed_w hw, good_save hs (fun _ => hw) h⟩

/-! ### Loading -/

/-- The locks while the segments are loaded. -/
def withLocks (upd wrt : Bool) (own : Held) : Held :=
  (.segments, wrt) :: ((if upd then [(Lock.update, true)] else []) ++ own)

theorem good_withSegments {own : Held} {L : List Lock} {p body : List RInstr} {upd wrt : Bool} {how : Loading}
    (hb : Good (withLocks upd wrt own) L (body ++ p)) (hp : Good own L p) :
    Good own L (withSegments upd wrt how body ++ p) := by
  -- the middle part, with the segments locked for writing
  have hseg : ∀ own' : Held, HasW ((Lock.segments, true) :: own') .segments := fun _ => hasW_head
  have key : ∀ own' : Held, own' = (if upd then [(Lock.update, true)] else []) ++ own →
      Good ((.segments, wrt) :: (.loading, true) :: own') L
        ((match how with
          | .cached => .act (.rel .loading true) :: body
          | .failed =>
            (if wrt then [] else [.act (.rel .segments false), .act (.acq .segments true)]) ++ [.use (rd .names)] ++
            [.act (.rel .segments true)] ++ (if upd then [.act (.rel .update true)] else []) ++
            [.act (.rel .loading true)]
          | .read =>
            (if wrt then [] else [.act (.rel .segments false), .act (.acq .segments true)]) ++
            [.use (rd .names), .use (wr .head), .use (wr .names)] ++
            (if wrt then [] else [.act (.rel .segments true), .act (.acq .segments false)]) ++
            .act (.rel .loading true) :: body
          | .rebuilt segs =>
            (if wrt then [] else [.act (.rel .segments false), .act (.acq .segments true)]) ++ [.use (rd .names)] ++
            (if upd then rebuildIndex segs else []) ++ [.use (wr .head), .use (wr .names)] ++
            (if wrt then [] else [.act (.rel .segments true), .act (.acq .segments false)]) ++
            .act (.rel .loading true) :: body) ++ p) := by
    intro own' he
    have hb' : Good ((.segments, wrt) :: own') L (body ++ p) := he ▸ hb
    have hloaded : Good ((.segments, wrt) :: (.loading, true) :: own') L (.act (.rel .loading true) :: (body ++ p)) := by
      refine ⟨nofun, ?_⟩
      rw [List.erase_cons_tail (by simp), List.erase_cons_head]
      exact hb'
    have hdown : Good ((.segments, true) :: (.loading, true) :: own') L
        ((if wrt then [] else [.act (.rel .segments true), .act (.acq .segments false)]) ++
          (.act (.rel .loading true) :: (body ++ p))) := by
      cases wrt
      · refine ⟨nofun, ?_⟩
        rw [List.erase_cons_head]
        exact hloaded
      · exact hloaded
    have hup : ∀ q, Good ((.segments, true) :: (.loading, true) :: own') L q →
        Good ((.segments, wrt) :: (.loading, true) :: own') L
          ((if wrt then [] else [.act (.rel .segments false), .act (.acq .segments true)]) ++ q) := by
      intro q hq
      cases wrt
      · refine ⟨nofun, ?_⟩
        rw [List.erase_cons_head]
        exact hq
      · exact hq
    cases how with
    | cached => exact hloaded
    | failed =>
      simp only [List.append_assoc]
      refine hup _ ⟨allowed_w (hseg _), nofun, ?_⟩
      rw [List.erase_cons_head]
      cases upd
      · refine ⟨nofun, ?_⟩
        rw [List.erase_cons_head, he]
        exact hp
      · refine ⟨nofun, nofun, ?_⟩
        rw [he, List.erase_cons_tail (by simp)]
        show Good (List.erase ((Lock.loading, true) :: List.erase ((Lock.update, true) :: ([] ++ own)) _) _) L p
        rw [List.erase_cons_head, List.erase_cons_head]
        exact hp
    | read =>
      simp only [List.append_assoc]
      exact hup _ ⟨allowed_w (hseg _), allowed_w (hseg _), allowed_w (hseg _), hdown⟩
    | rebuilt segs =>
      simp only [List.append_assoc]
      refine hup _ ⟨allowed_w (hseg _), ?_⟩
      have hend : Good ((.segments, true) :: (.loading, true) :: own') L ([.use (wr .head), .use (wr .names)] ++
          ((if wrt then [] else [.act (.rel .segments true), .act (.acq .segments false)]) ++
          (.act (.rel .loading true) :: (body ++ p)))) := ⟨allowed_w (hseg _), allowed_w (hseg _), hdown⟩
      cases upd
      · exact hend
      · exact good_rebuildIndex (hseg _) hend
  unfold withSegments
  rw [List.append_assoc, List.append_assoc]
  have hread : ∀ own' : Held, Allowed (known [] ((.segments, wrt) :: own') L) (rd .head) :=
    fun own' => allowed_rule has_head trivial
  cases upd
  · exact ⟨hread _, key _ rfl⟩
  · exact ⟨hread _, key _ rfl⟩

theorem good_unlock {own : Held} {L : List Lock} {p : List RInstr} {upd wrt : Bool} (h : Good own L p) :
    Good (withLocks upd wrt own) L (unlock upd wrt ++ p) := by
  refine ⟨nofun, ?_⟩
  unfold withLocks
  rw [List.erase_cons_head]
  cases upd
  · exact h
  · refine ⟨nofun, ?_⟩
    show Good (List.erase ((Lock.update, true) :: own) _) L p
    rw [List.erase_cons_head]
    exact h

theorem withLocks_has {upd wrt : Bool} {own : Held} : Has (withLocks upd wrt own) .segments := has_head
theorem withLocks_segments {upd : Bool} {own : Held} : HasW (withLocks upd true own) .segments := hasW_head
theorem withLocks_update {wrt : Bool} {own : Held} : HasW (withLocks true wrt own) .update := hasW_tail hasW_head

theorem good_reader {own : Held} {L : List Lock} {p body : List RInstr} {how : Loading}
    (hb : ∀ own q, Has own .segments → Good own L q → Good own L (body ++ q)) (hp : Good own L p) :
    Good own L (reader how body ++ p) := by
  refine good_withSegments ?_ hp
  rw [List.append_assoc]
  exact hb _ _ withLocks_has (good_unlock hp)

theorem good_updater {own : Held} {L : List Lock} {p body : List RInstr} {how : Loading}
    (hb : ∀ own q, Has own .segments → HasW own .update → (∀ L, Good own L q) → Good own L (body ++ q))
    (hp : ∀ L, Good own L p) : Good own L (updater how body ++ p) := by
  refine good_withSegments ?_ (hp L)
  rw [List.append_assoc]
  exact hb _ _ withLocks_has withLocks_update fun L => good_unlock (hp L)

theorem good_rankBody {own : Held} {L : List Lock} {p : List RInstr} {segs : List Nat} (hs : Has own .segments)
    (h : Good own L p) : Good own L (rankBody segs ++ p) := by
  unfold rankBody
  simp only [List.append_assoc]
  exact good_touch_nil (good_look hs (good_readEach hs h))

theorem good_populateBody {L : List Lock} {p : List RInstr} {empty : Bool}
    {rounds : List (List Nat × List Nat)} {n m : Nat} {own : Held} (h : Good own L p) :
    Good (withLocks true true own) L (populateBody empty rounds n m ++ p) := by
  have hw : HasW (withLocks true true own) .segments := withLocks_segments
  have hs := has_of_w hw
  have hu : HasW (withLocks true true own) .update := withLocks_update
  unfold populateBody
  simp only [List.append_assoc]
  refine good_touch_w hw (good_touch_w hw ?_)
  have hend : Good (withLocks true true own) L ([.act (.rel .update true), .act (.rel .segments true)] ++ p) := by
    refine ⟨nofun, nofun, ?_⟩
    show Good (List.erase (List.erase ((Lock.segments, true) :: (Lock.update, true) :: own) _) _) L p
    rw [List.erase_cons_tail (by simp), List.erase_cons_head, List.erase_cons_head]
    exact h
  have hrest := good_inserts (rounds := rounds) hs hu (good_save (wrt := true) hs (fun _ => hw)
    (good_verifyTables (n := n) (m := m) hw hend))
  cases empty
  · exact good_touch_nil hrest
  · exact hrest

theorem guarded_safe (op : Op) (h : Guarded op) : Safe false [] [] [] (program op) := by
  have hnil : ∀ L, Good [] L [] := fun L => trivial
  rw [← List.append_nil (program op)]
  cases op with
  | verify | populateUnloaded | repairCleared => exact h.elim
  | getElements how n index missing found =>
    refine good_reader (fun own q hs hq => ?_) (hnil _)
    rw [List.append_assoc]
    exact good_touch_nil (good_lookup hs hq)
  | getRank how segs => exact good_reader (fun own q hs hq => good_rankBody hs hq) (hnil _)
  | getRankScoreDesc how first segs =>
    refine good_reader (fun own q hs hq => ?_) (hnil _)
    simp only [List.append_assoc]
    refine good_touch_nil (good_look hs ⟨allowed_rule hs trivial, allowed_rule (has_tail hs) (has_own has_head), ?_⟩)
    refine good_readEach (own := (Lock.seg false first, false) :: own) (has_tail hs)
      ⟨allowed_rule (has_tail hs) (.inr (has_own has_head)), nofun, ?_⟩
    rw [List.erase_cons_head]
    exact hq
  | getPercentile how s near =>
    refine good_reader (fun own q hs hq => ?_) (hnil _)
    simp only [List.append_assoc]
    exact good_touch_nil (good_look hs (good_findIn hs hq))
  | len how => exact good_reader (fun own q hs hq => good_look hs hq) (hnil _)
  | stats how elements =>
    cases elements with
    | none =>
      refine good_reader (fun own q hs hq => ?_) (hnil _)
      rw [List.append_assoc]
      exact good_look hs ⟨allowed_rule hs trivial, hq⟩
    | some e =>
      obtain ⟨h1, s1, h2, s2⟩ := e
      refine good_reader (fun own q hs hq => ?_) (hnil _)
      simp only [List.append_assoc]
      exact good_look hs ⟨allowed_rule hs trivial, good_reader (fun own q hs hq => good_rankBody hs hq)
        (good_reader (fun own q hs hq => good_rankBody hs hq) hq)⟩
  | verifyElements how scores index =>
    unfold program
    rw [List.append_assoc]
    refine good_touch_nil (good_updater (fun own q hs hu hq => ?_) hnil)
    simp only [List.append_assoc]
    exact good_touch_nil (good_look hs (good_readSegs hs (good_look hs (good_readSegs hs (hq _)))))
  | backup how segs =>
    refine good_updater (fun own q hs hu hq => ?_) hnil
    exact good_rankBody hs (hq _)
  | cloneFrom how segs => exact good_reader (fun own q hs hq => good_rankBody hs hq) (hnil _)
  | insert how rounds =>
    refine good_updater (fun own q hs hu hq => ?_) hnil
    simp only [List.append_assoc]
    exact good_inserts hs hu (good_checkSplit hs (good_save hs nofun (hq _)))
  | updateElements how missing n kids dsts results =>
    refine good_updater (fun own q hs hu hq => good_updateBody hs hu (fun L p hp => ?_) hq) hnil
    cases results with
    | none => exact hp
    | some r => exact good_lookup hs hp
  | updateFailed how missing n kids =>
    exact good_updater (fun own q hs hu hq => good_updateFail hs hq) hnil
  | deleteElements how n found missing scores index =>
    refine good_updater (fun own q hs hu hq => ?_) hnil
    simp only [List.append_assoc]
    refine good_touch_nil (good_touch_nil (good_looks hs ⟨allowed_rule hs trivial, good_readSegs hs (good_ensureIdx hs
      (good_touch (fun x hx => ?_) (good_writePar hs hu (good_writeSegs hs hu (good_checkSplit hs
        (good_save hs nofun (hq _)))))))⟩))
    rw [List.mem_singleton] at hx
    subst hx
    exact allowed_rule (has_tail hs) (has_own has_head)
  | split how scores upd n m index =>
    refine good_withSegments ?_ (hnil _)
    rw [List.append_assoc]
    exact good_splitBody withLocks_segments withLocks_update (good_unlock (hnil _))
  | reindex how segs =>
    refine good_withSegments ?_ (hnil _)
    rw [List.append_assoc]
    exact good_rebuildIndex withLocks_segments (good_unlock (hnil _))
  | populate how empty rounds n m => exact good_withSegments (good_populateBody (hnil _)) (hnil _)
  | repair stat how segs empty rounds n m =>
    unfold program
    simp only [List.append_assoc]
    refine good_reader (fun own q hs hq => good_look hs hq) (good_touch_nil (good_withSegments ?_ (hnil _)))
    simp only [List.append_assoc]
    show Good ((Lock.table false, true) :: (Lock.list, true) :: withLocks true true []) [] _
    refine good_readEach (has_tail (has_tail withLocks_has)) ⟨nofun, nofun, ?_⟩
    rw [List.erase_cons_tail (by simp), List.erase_cons_head, List.erase_cons_head]
    exact good_populateBody (hnil _)
  | deleteAll how =>
    refine good_withSegments ?_ (hnil _)
    rw [List.append_assoc]
    exact good_touch_w withLocks_segments (good_unlock (hnil _))
  | releaseSegments =>
    unfold program
    rw [List.append_assoc]
    exact good_touch_nil ⟨allowed_w hasW_head, nofun, nofun, trivial⟩

/-! ### The programs of `Model/Locks` -/

theorem strip_append (p q : List RInstr) : strip (p ++ q) = strip p ++ strip q := List.filterMap_append ..

theorem strip_touch (l : Lock) (w : Bool) (xs : List Access) : strip (touch l w xs) = Locks.touch l w := by
  have h : ∀ xs : List Access, strip (xs.map RInstr.use) = [] := fun xs => by
    induction xs with
    | nil => rfl
    | cons x xs ih => exact ih
  unfold touch
  rw [strip_append]
  show .act (.acq l w) :: strip (xs.map RInstr.use) ++ _ = _
  rw [h]
  rfl

theorem strip_replicate {p : List RInstr} {q : List Instr} (h : strip p = q) : ∀ n,
    strip (List.replicate n p).flatten = (List.replicate n q).flatten
  | 0 => rfl
  | n + 1 => by
    rw [List.replicate_succ, List.flatten_cons, strip_append, h, strip_replicate h n, List.replicate_succ,
      List.flatten_cons]

theorem strip_flatMap {α : Type} {f : α → List RInstr} {g : α → List Instr} (h : ∀ x, strip (f x) = g x) :
    ∀ l : List α, strip (l.flatMap f) = l.flatMap g
  | [] => rfl
  | x :: l => by rw [List.flatMap_cons, strip_append, h, strip_flatMap h l, List.flatMap_cons]

theorem strip_look (b : Bool) : strip (look b) = Locks.touch (.table b) false := strip_touch ..

theorem strip_looks (b : Bool) (n : Nat) : strip (looks b n) = peek b n := strip_replicate (strip_look b) n

theorem strip_verifyLooks (b : Bool) (n : Nat) : strip (verifyLooks b n) = peek b n := by
  refine strip_replicate ?_ n
  unfold verifyLook
  rw [strip_append, strip_touch]
  rfl

theorem peek_one (b : Bool) : Locks.touch (.table b) false = peek b 1 := rfl

theorem strip_par {α : Type} {f : α → List RAct} {g : α → List Act} (h : ∀ x, (f x).filterMap stripAct = g x)
    (l : List α) : strip [.par (l.map f), .join] = [.par (l.map g), .join] := by
  show [Instr.par ((l.map f).map (·.filterMap stripAct)), .join] = _
  rw [List.map_map]
  have : ((fun x => List.filterMap stripAct x) ∘ f) = g := funext h
  rw [this]

/-- Without the accesses. -/
abbrev acts (p : List RAct) : List Act := p.filterMap stripAct

theorem acts_append (p q : List RAct) : acts (p ++ q) = acts p ++ acts q := List.filterMap_append ..

theorem acts_flatMap {α : Type} {f : α → List RAct} {g : α → List Act} (h : ∀ x, acts (f x) = g x) :
    ∀ l : List α, acts (l.flatMap f) = l.flatMap g
  | [] => rfl
  | x :: l => by rw [List.flatMap_cons, acts_append, h, acts_flatMap h l, List.flatMap_cons]

theorem strip_readSegs (b : Bool) (is : List Nat) : strip (readSegs b is) = Locks.readSegs b is :=
  strip_par (fun _ => rfl) is

theorem strip_readEach (b : Bool) (is : List Nat) : strip (readEach b is) = Locks.readEach b is := by
  refine strip_flatMap (fun i => ?_) is
  rw [strip_append, strip_touch]
  rfl

theorem strip_save (w : Bool) : strip (save w) = Locks.save := by
  unfold save Locks.save
  rw [strip_append, strip_append, strip_append, strip_touch, strip_look, strip_look, peek_one, peek_one]
  cases w <;> rfl

theorem strip_rebuildIndex (segs : List Nat) : strip (rebuildIndex segs) = Locks.rebuildIndex segs := by
  unfold rebuildIndex Locks.rebuildIndex
  rw [strip_append, strip_append, strip_append, strip_touch, strip_look, strip_readSegs, strip_save, peek_one]

theorem strip_withSegments {upd wrt : Bool} {how : Loading} {body : List RInstr} {body' : List Instr}
    (h : strip body = body') : strip (withSegments upd wrt how body) = Locks.withSegments upd wrt how body' := by
  subst h
  unfold withSegments Locks.withSegments
  rw [strip_append, strip_append]
  congr 1
  · cases upd <;> rfl
  · cases how with
    | cached => rfl
    | failed => cases upd <;> cases wrt <;> rfl
    | read => cases wrt <;> rfl
    | rebuilt segs =>
      simp only [strip_append]
      cases upd <;> cases wrt <;> simp only [Bool.false_eq_true, if_false, if_true, strip_rebuildIndex] <;> rfl

theorem strip_unlock (upd wrt : Bool) : strip (unlock upd wrt) = Locks.unlock upd wrt := by cases upd <;> rfl

theorem strip_reader {how : Loading} {body : List RInstr} {body' : List Instr} (h : strip body = body') :
    strip (reader how body) = Locks.reader how body' :=
  strip_withSegments (by rw [strip_append, h, strip_unlock])

theorem strip_updater {how : Loading} {body : List RInstr} {body' : List Instr} (h : strip body = body') :
    strip (updater how body) = Locks.updater how body' :=
  strip_withSegments (by rw [strip_append, h, strip_unlock])

theorem strip_ensureIdx (b missing : Bool) : strip (ensureIdx b missing) = Locks.ensureIdx b missing := by
  unfold ensureIdx Locks.ensureIdx
  rw [strip_append, strip_touch]
  cases missing
  · rfl
  · simp only [if_true, strip_touch]

theorem acts_neighbours (is : List Nat) : acts (neighbours is) = Locks.neighbours is := by
  unfold neighbours Locks.neighbours
  rw [acts_append]
  congr 1
  · induction is with
    | nil => rfl
    | cons i is ih =>
      rw [List.flatMap_cons, acts_append, ih]
      rfl
  · generalize is.reverse = js
    induction js with
    | nil => rfl
    | cons i is ih =>
      rw [List.map_cons, List.map_cons, ← ih]
      rfl

theorem acts_findIn (i : Nat) (near : List (List Nat)) : acts (findIn i near) = Locks.findIn i near := by
  unfold findIn Locks.findIn
  rw [acts_append, acts_append, acts_flatMap acts_neighbours]
  rfl

theorem strip_lookup (n : Nat) (index : List Nat) (missing : Bool) (found : List (Nat × List (List Nat))) :
    strip (lookup n index missing found) = Locks.lookup n index missing found := by
  unfold lookup Locks.lookup
  simp only [strip_append, strip_touch, strip_looks, strip_readSegs, strip_ensureIdx, strip_look,
    strip_par (fun p : Nat × List (List Nat) => acts_findIn p.1 p.2)]
  simp only [List.append_assoc]
  rfl

theorem strip_asMain (p : List RAct) : strip (p.map asMain) = (acts p).map .act := by
  induction p with
  | nil => rfl
  | cons a p ih =>
    cases a with
    | act a => exact congrArg (Instr.act a :: ·) ih
    | use x => exact ih

theorem strip_writePar (b : Bool) (is : List Nat) :
    strip [.par (is.map (writeSeg b)), .join] = [.par (is.map (Locks.writeSeg b)), .join] := strip_par (fun _ => rfl) is

theorem strip_writeSegs (b : Bool) (is : List Nat) : strip (writeSegs b is) = Locks.writeSegs b is := by
  have h := strip_writePar b is
  show [Instr.act (.acq (.table b) false), .par ((is.map (writeSeg b)).map (·.filterMap stripAct)),
    .act (.rel (.table b) false), .join] = _
  rw [List.map_map]
  rfl

theorem strip_checkSplit : strip checkSplit = Locks.checkSplit := by
  unfold checkSplit Locks.checkSplit
  rw [strip_append, strip_append, strip_touch, strip_look, strip_look, peek_one, peek_one]

theorem strip_verifyTables (n m : Nat) : strip (verifyTables n m) = Locks.verifyTables n m := by
  unfold verifyTables Locks.verifyTables
  simp only [strip_append, strip_touch, strip_verifyLooks]

theorem strip_inserts (rounds : List (List Nat × List Nat)) : strip (inserts rounds) = Locks.inserts rounds :=
  strip_flatMap (fun r => by rw [strip_append, strip_writeSegs, strip_writeSegs]) rounds

theorem acts_updateKid (i : Nat) (olds : List Nat) : acts (updateKid i olds) = Locks.updateKid i olds := by
  unfold updateKid Locks.updateKid
  rw [acts_append, acts_flatMap (g := fun j =>
    [.acq (.table false) false, .rel (.table false) false, .load (.seg false j) true]) (fun _ => rfl)]
  rfl

theorem strip_replaceAll (b : Bool) : ∀ (is seen : List Nat),
    strip (replaceAll b seen is) = is.flatMap (Locks.replace b)
  | [], _ => rfl
  | i :: is, seen => by
    unfold replaceAll
    rw [strip_append, strip_replaceAll b is, List.flatMap_cons]
    congr 1
    by_cases h : i ∈ seen
    · rw [if_pos h, strip_append, strip_touch]
      rfl
    · rw [if_neg h]
      unfold replace
      rw [strip_append, strip_touch]
      rfl

theorem strip_updateBody {missing : Bool} {n : Nat} {kids : List (Nat × List Nat)} {dsts : List (Bool × Nat)}
    {results : List RInstr} {results' : List Instr} (h : strip results = results') :
    strip (updateBody missing n kids dsts results) = Locks.updateBody missing n kids dsts results' := by
  unfold updateBody Locks.updateBody
  have hd : strip (dsts.flatMap fun d => (if d.1 then look false else []) ++
      [.use (rd (.bounds false (some d.2))), .act (.load (.seg false d.2) true), .use (wr (.elems false (some d.2)))]) =
      dsts.flatMap fun d => (if d.1 then Locks.touch (.table false) false else []) ++
        [.act (.load (.seg false d.2) true)] := by
    refine strip_flatMap (fun d => ?_) dsts
    rw [strip_append]
    cases d.1
    · rfl
    · simp only [if_true, strip_look]; rfl
  simp only [strip_append, strip_touch, strip_ensureIdx, strip_looks, hd, strip_replaceAll, h, strip_checkSplit, strip_save,
    strip_par (fun k : Nat × List Nat => acts_updateKid k.1 k.2), List.flatMap_map]
  simp only [List.append_assoc]
  rfl

theorem strip_updateFail (missing : Bool) (n : Nat) (kids : List (Nat × List Nat)) :
    strip (updateFail missing n kids) = Locks.updateFail missing n kids := by
  unfold updateFail Locks.updateFail
  have hu : ∀ {α : Type} (f : α → Lock) (l : List α), strip (l.map fun x => .unload (f x)) = l.map fun x => .unload (f x) := by
    intro α f l
    induction l with
    | nil => rfl
    | cons x l ih => exact congrArg (Instr.unload (f x) :: ·) ih
  simp only [strip_append, strip_touch, strip_ensureIdx, strip_looks, hu,
    strip_par (fun k : Nat × List Nat => acts_updateKid k.1 k.2)]
  simp only [List.append_assoc]
  rfl

theorem strip_splitAct (b : Bool) (a : SplitAct) : strip (splitAct b a) = Locks.splitAct b a := by
  cases a with
  | keep i => exact strip_touch ..
  | split i =>
    unfold splitAct Locks.splitAct
    simp only [strip_append, strip_touch]
    cases b
    · simp only [Bool.false_eq_true, if_false, strip_touch]; rfl
    · simp only [if_true, strip_touch]; rfl
  | merge i =>
    unfold splitAct Locks.splitAct
    simp only [strip_append, strip_touch]
    rfl

theorem strip_splitBody (scores : List SplitAct) (upd : List Nat) (n m : Nat) (index : List SplitAct) :
    strip (splitBody scores upd n m index) = Locks.splitBody scores upd n m index := by
  unfold splitBody Locks.splitBody
  have hp : strip [.use (rd (.bounds true none)), .par (upd.map (writeSeg true)), .join] =
    [.par (upd.map (Locks.writeSeg true)), .join] := strip_writePar true upd
  simp only [strip_append, strip_touch, strip_look, strip_verifyLooks, strip_save, strip_flatMap (strip_splitAct _), hp,
    peek_one]
  simp only [List.append_assoc]
  rfl

theorem strip_populateBody (empty : Bool) (rounds : List (List Nat × List Nat)) (n m : Nat) :
    strip (populateBody empty rounds n m) = Locks.populateBody empty rounds n m := by
  unfold populateBody Locks.populateBody
  simp only [strip_append, strip_touch, strip_inserts, strip_save, strip_verifyTables]
  cases empty
  · simp only [Bool.false_eq_true, if_false, strip_touch]; rfl
  · rfl

theorem strip_rankBody (segs : List Nat) : strip (rankBody segs) = Locks.rankBody segs := by
  unfold rankBody Locks.rankBody
  rw [strip_append, strip_append, strip_touch, strip_look, strip_readEach, peek_one]

theorem strip_program (op : Op) : strip (program op) = op.program := by
  cases op with
  | getElements how n index missing found =>
    exact strip_reader (by rw [strip_append, strip_touch, strip_lookup])
  | getRank how segs => exact strip_reader (strip_rankBody segs)
  | getRankScoreDesc how first segs =>
    refine strip_reader ?_
    simp only [strip_append, strip_touch, strip_look, strip_readEach, peek_one]
    rfl
  | getPercentile how s near =>
    exact strip_reader (by rw [strip_append, strip_append, strip_touch, strip_look, strip_asMain, acts_findIn, peek_one])
  | len how => exact strip_reader (by rw [strip_look, peek_one])
  | stats how elements =>
    cases elements with
    | none => exact strip_reader (by rw [strip_append, strip_look, peek_one]; rfl)
    | some e =>
      obtain ⟨h1, s1, h2, s2⟩ := e
      refine strip_reader ?_
      simp only [strip_append, strip_look, strip_reader (strip_rankBody _), peek_one]
      rfl
  | verify how n m => exact strip_reader (strip_verifyTables n m)
  | verifyElements how scores index =>
    unfold program Op.program
    rw [strip_append, strip_touch]
    congr 1
    refine strip_updater ?_
    simp only [strip_append, strip_touch, strip_look, strip_readSegs, peek_one]
  | backup how segs => exact strip_updater (strip_rankBody segs)
  | cloneFrom how segs => exact strip_reader (strip_rankBody segs)
  | insert how rounds =>
    exact strip_updater (by rw [strip_append, strip_append, strip_inserts, strip_checkSplit, strip_save])
  | updateElements how missing n kids dsts results =>
    refine strip_updater (strip_updateBody ?_)
    cases results with
    | none => rfl
    | some r => exact strip_lookup ..
  | updateFailed how missing n kids => exact strip_updater (strip_updateFail missing n kids)
  | deleteElements how n found missing scores index =>
    refine strip_updater ?_
    simp only [strip_append, strip_touch, strip_looks, strip_readSegs, strip_ensureIdx, strip_writePar, strip_writeSegs,
      strip_checkSplit, strip_save, peek_one]
    simp only [List.append_assoc]
    rfl
  | split how scores upd n m index =>
    exact strip_withSegments (by rw [strip_append, strip_splitBody, strip_unlock])
  | reindex how segs => exact strip_withSegments (by rw [strip_append, strip_rebuildIndex, strip_unlock])
  | populate how empty rounds n m => exact strip_withSegments (strip_populateBody ..)
  | populateUnloaded rounds n m =>
    unfold program Op.program
    simp only [strip_append, strip_withSegments (body := []) (body' := []) rfl, strip_touch, strip_inserts, strip_save,
      strip_verifyTables]
    rfl
  | repair stat how segs empty rounds n m =>
    unfold program Op.program
    have h := strip_withSegments (upd := true) (wrt := true) (how := how)
      (body := [.act (.acq .list true), .act (.acq (.table false) true)] ++ readEach false segs ++
       [.act (.rel .list true), .act (.rel (.table false) true)] ++ populateBody empty rounds n m) rfl
    simp only [strip_append, strip_readEach, strip_populateBody] at h
    rw [strip_append, strip_append, strip_reader (strip_look false), strip_touch, h]
    rfl
  | repairCleared stat n m =>
    unfold program Op.program
    simp only [strip_append, strip_withSegments (body := []) (body' := []) rfl, strip_touch, strip_save,
      strip_verifyTables, strip_reader (strip_look false)]
    simp only [List.append_assoc]
    rfl
  | deleteAll how => exact strip_withSegments (by rw [strip_append, strip_touch, strip_unlock])
  | releaseSegments =>
    unfold program Op.program
    rw [strip_append, strip_touch]
    rfl

end RankDB.Races

import Verif.Model.Races
import Verif.Proofs.Serial
/-
Which locks protect which memory: a discipline for programs with accesses, that it makes all accesses of different calls
exclude each other, and that the operations keep to it.
-/
namespace RankDB.Races
open Locks

abbrev Held := List (Lock × Bool)

/-! ### The locks for an access -/

def Has (A : Held) (l : Lock) : Prop := ∃ w, (l, w) ∈ A
def HasW (A : Held) (l : Lock) : Prop := (l, true) ∈ A

/-- The locks besides `segments`. -/
def Rule (A : Held) : Kind → Cell → Prop
  | .read, .count b (some i) => Has A (.table b) ∨ Has A (.seg b i)
  | .read, .count b none => Has A (.table b)
  | .read, .elems b (some i) => Has A (.seg b i)
  | .read, .elems _ none => False
  | .read, .idx b => Has A (.table b)
  | .read, _ => True
  | .write, .count b (some i) => HasW A (.table b) ∧ HasW A (.seg b i)
  | .write, .elems b (some i) => HasW A (.seg b i)
  | .write, .idx b => HasW A (.table b)
  | .write, _ => False
  | .rewrite, .bounds _ _ => HasW A .update
  | .rewrite, _ => False

/-- The locks for an access: `segments` for writing, or `segments` and those of the rule. -/
def Allowed (A : Held) (x : Access) : Prop := HasW A .segments ∨ Has A .segments ∧ Rule A x.kind x.cell

theorem has_mono {A B : Held} (h : ∀ x ∈ A, x ∈ B) {l : Lock} (hl : Has A l) : Has B l :=
  hl.elim fun w hw => ⟨w, h _ hw⟩

theorem rule_mono {A B : Held} (h : ∀ x ∈ A, x ∈ B) {k : Kind} {c : Cell} (hr : Rule A k c) : Rule B k c := by
  unfold Rule at hr ⊢
  split at hr
  all_goals first
    | exact hr.imp (has_mono h) (has_mono h)
    | exact has_mono h hr
    | exact hr.elim
    | trivial
    | exact ⟨h _ hr.1, h _ hr.2⟩
    | exact h _ hr

theorem allowed_mono {A B : Held} (h : ∀ x ∈ A, x ∈ B) {x : Access} (hx : Allowed A x) : Allowed B x :=
  hx.imp (h _) fun hx => ⟨has_mono h hx.1, rule_mono h hx.2⟩

/-- Locks of different calls. -/
def Apart (A B : Held) : Prop := ∀ l w, ((l, true) ∈ A → (l, w) ∉ B) ∧ ((l, true) ∈ B → (l, w) ∉ A)

theorem apart_left {A B : Held} (h : Apart A B) {l : Lock} (ha : HasW A l) (hb : Has B l) : False :=
  hb.elim fun w hw => (h l w).1 ha hw

theorem apart_right {A B : Held} (h : Apart A B) {l : Lock} (ha : Has A l) (hb : HasW B l) : False :=
  ha.elim fun w hw => (h l w).2 hb hw

theorem has_of_w {A : Held} {l : Lock} (h : HasW A l) : Has A l := ⟨true, h⟩

theorem segments_of_allowed {A : Held} {x : Access} (h : Allowed A x) : Has A .segments :=
  h.elim has_of_w fun h => h.1

/-- What two accesses can be that are allowed at the same time. -/
def Harmless (x y : Access) : Prop :=
  (x.kind = .read ∧ y.kind = .read) ∨ (x.kind = .rewrite ∧ y.kind = .read) ∨ (x.kind = .read ∧ y.kind = .rewrite)

theorem harmless {A B : Held} (h : Apart A B) {x y : Access} (hx : Allowed A x) (hy : Allowed B y)
    (ho : x.cell.overlaps y.cell = true) : Harmless x y := by
  rcases hx with hx | ⟨hxs, hx⟩
  · exact (apart_left h hx (segments_of_allowed hy)).elim
  rcases hy with hy | ⟨hys, hy⟩
  · exact (apart_right h hxs hy).elim
  obtain ⟨k, c⟩ := x
  obtain ⟨k', c'⟩ := y
  dsimp only at hx hy ho
  have hl : ∀ l, HasW A l → Has B l → False := fun l => apart_left h
  have hr : ∀ l, Has A l → HasW B l → False := fun l => apart_right h
  cases c <;> cases c' <;> simp only [Cell.overlaps] at ho <;> first | exact absurd ho (by decide) | skip
  case head.head => cases k <;> cases k' <;> first | exact .inl ⟨rfl, rfl⟩ | exact hx.elim | exact hy.elim
  case names.names => cases k <;> cases k' <;> first | exact .inl ⟨rfl, rfl⟩ | exact hx.elim | exact hy.elim
  case rows.rows => cases k <;> cases k' <;> first | exact .inl ⟨rfl, rfl⟩ | exact hx.elim | exact hy.elim
  case idx.idx b b' =>
    have hb := eq_of_beq ho
    subst hb
    cases k <;> cases k' <;> first
      | exact .inl ⟨rfl, rfl⟩
      | exact hx.elim
      | exact hy.elim
      | exact (hr _ hx hy).elim
      | exact (hl _ hx hy).elim
      | exact (hl _ hx (has_of_w hy)).elim
  case bounds.bounds b i b' j =>
    cases k <;> cases k' <;> first
      | exact .inl ⟨rfl, rfl⟩
      | exact .inr (.inl ⟨rfl, rfl⟩)
      | exact .inr (.inr ⟨rfl, rfl⟩)
      | exact hx.elim
      | exact hy.elim
      | exact (hl _ hx (has_of_w hy)).elim
  case elems.elems b i b' j =>
    rw [Bool.and_eq_true] at ho
    have hb := eq_of_beq ho.1
    subst hb
    have hm := ho.2
    cases i <;> cases j <;> cases k <;> cases k' <;> first
      | exact .inl ⟨rfl, rfl⟩
      | exact hx.elim
      | exact hy.elim
      | (have hij := eq_of_beq hm
         subst hij
         first
         | exact (hr _ hx hy).elim
         | exact (hl _ hx hy).elim
         | exact (hl _ hx (has_of_w hy)).elim)
  case count.count b i b' j =>
    rw [Bool.and_eq_true] at ho
    have hb := eq_of_beq ho.1
    subst hb
    have hm := ho.2
    cases i <;> cases j <;> cases k <;> cases k' <;> first
      | exact .inl ⟨rfl, rfl⟩
      | exact hx.elim
      | exact hy.elim
      | exact (hr _ hx hy.1).elim
      | exact (hl _ hx.1 hy).elim
      | (have hij := eq_of_beq hm
         subst hij
         first
         | exact (hx.elim (fun h => hr _ h hy.1) fun h => hr _ h hy.2).elim
         | exact (hy.elim (fun h => hl _ hx.1 h) fun h => hl _ hx.2 h).elim
         | exact (hl _ hx.1 (has_of_w hy.1)).elim)

/-! ### The discipline -/

/-- The locks of the caller its goroutines may rely on. -/
def isBase : Lock → Bool
  | .segments => true
  | .update => true
  | _ => false

/-- The locks a goroutine knows of: its own, those of the call, and those of the caller. -/
def known (base own : Held) (L : List Lock) : Held := base ++ (own ++ L.map fun l => (l, true))

/-- What a started goroutine will have loaded. -/
def loads : List RAct → List Lock
  | [] => []
  | .act (.load l true) :: p => l :: loads p
  | _ :: p => loads p

/-- All accesses of a started goroutine have their locks. -/
def KidSafe (base : Held) : Held → List Lock → List RAct → Prop
  | _, _, [] => True
  | own, L, .act (.acq l w) :: p => KidSafe base ((l, w) :: own) L p
  | own, L, .act (.rel l w) :: p => KidSafe base (own.erase (l, w)) L p
  | own, L, .act (.load l ok) :: p => KidSafe base own (if ok then l :: L else L) p
  | own, L, .use x :: p => Allowed (known base own L) x ∧ KidSafe base own L p

/-- All accesses of the caller and its goroutines have their locks. `busy`: it may have goroutines, which will have
loaded `J` when they have ended. -/
def Safe : Bool → List Lock → Held → List Lock → List RInstr → Prop
  | _, _, _, _, [] => True
  | busy, J, own, L, .act (.acq l w) :: p => Safe busy J ((l, w) :: own) L p
  | busy, J, own, L, .act (.rel l w) :: p => (busy = true → isBase l = false) ∧ Safe busy J (own.erase (l, w)) L p
  | busy, J, own, L, .act (.load l ok) :: p => Safe busy J own (if ok then l :: L else L) p
  | busy, J, own, L, .unload l :: p => busy = false ∧ Safe busy J own (L.filter (· != l)) p
  | busy, _, own, L, .par ps :: p =>
    busy = false ∧ (∀ k ∈ ps, KidSafe (own.filter fun h => isBase h.1) [] L k) ∧ Safe true (ps.flatMap loads) own L p
  | _, J, own, L, .join :: p => Safe false [] own (J ++ L) p
  | busy, J, own, L, .use x :: p => Allowed (known [] own L) x ∧ Safe busy J own L p

/-- A call that keeps to the discipline. -/
structure CallSafe (c : RCall) : Prop where
  safe : ∃ busy J L base, Safe busy J c.main.own L c.main.prog ∧ (∀ l ∈ L, l ∈ c.shared) ∧
    (busy = false → c.kids = [] ∧ J = []) ∧
    (∀ h ∈ base, h ∈ c.main.own ∧ isBase h.1 = true) ∧
    (∀ k ∈ c.kids, ∃ Lk, (∀ l ∈ Lk, l ∈ c.shared) ∧ KidSafe base k.own Lk k.prog) ∧
    ∀ l ∈ J, l ∈ c.shared ∨ ∃ k ∈ c.kids, l ∈ loads k.prog

theorem kid_allowed {base own : Held} {L : List Lock} {p : List RAct} {x : Access} (h : KidSafe base own L p)
    (hp : p.head? = some (.use x)) : Allowed (known base own L) x := by
  cases p with
  | nil => cases hp
  | cons a p => cases hp; exact h.1

theorem main_allowed {busy : Bool} {J : List Lock} {own : Held} {L : List Lock} {p : List RInstr} {x : Access}
    (h : Safe busy J own L p) (hp : p.head? = some (.use x)) : Allowed (known [] own L) x := by
  cases p with
  | nil => cases hp
  | cons a p => cases hp; exact h.1

theorem mem_held_plain {c : RCall} {h : Lock × Bool} : h ∈ held c.plain ↔
    h ∈ c.main.own ∨ (∃ k ∈ c.kids, h ∈ k.own) ∨ (∃ l ∈ c.shared, (l, true) = h) := by
  rw [mem_held]
  simp only [RCall.plain, List.mem_map]
  constructor
  · rintro (h | ⟨k, ⟨k', hk, rfl⟩, h⟩ | h)
    · exact .inl h
    · exact .inr (.inl ⟨k', hk, h⟩)
    · refine .inr (.inr ?_); simpa using h
  · rintro (h | ⟨k, hk, h⟩ | h)
    · exact .inl h
    · exact .inr (.inl ⟨_, ⟨k, hk, rfl⟩, h⟩)
    · refine .inr (.inr ?_); simpa using h

/-- The locks of the call are those for the access it is about to make. -/
theorem about_allowed {c : RCall} (hc : CallSafe c) {x : Access} (h : About c x) : Allowed (held c.plain) x := by
  obtain ⟨busy, J, L, base, hs, hL, -, hb, hk, -⟩ := hc.safe
  rcases h with h | ⟨k, hkm, h⟩
  · refine allowed_mono (fun y hy => ?_) (main_allowed hs h)
    rw [mem_held_plain]
    rcases List.mem_append.1 hy with hy | hy
    · cases hy
    rcases List.mem_append.1 hy with hy | hy
    · exact .inl hy
    · obtain ⟨l, hl, rfl⟩ := List.mem_map.1 hy
      exact .inr (.inr ⟨l, hL l hl, rfl⟩)
  · obtain ⟨Lk, hLk, hks⟩ := hk k hkm
    refine allowed_mono (fun y hy => ?_) (kid_allowed hks h)
    rw [mem_held_plain]
    rcases List.mem_append.1 hy with hy | hy
    · exact .inl (hb y hy).1
    rcases List.mem_append.1 hy with hy | hy
    · exact .inr (.inl ⟨k, hkm, hy⟩)
    · obtain ⟨l, hl, rfl⟩ := List.mem_map.1 hy
      exact .inr (.inr ⟨l, hLk l hl, rfl⟩)

/-! ### Steps -/

inductive Stepped (hs : Held) (ps : List Lock) : RCall → RCall → Prop
  | use {own : Held} {pend : Bool} {x : Access} {p : List RInstr} {kids : List (Gor RAct)} {sh : List Lock} :
      Stepped hs ps ⟨⟨own, pend, .use x :: p⟩, kids, sh⟩ ⟨⟨own, pend, p⟩, kids, sh⟩
  | act {own : Held} {pend : Bool} {a : Act} {p : List RInstr} {kids : List (Gor RAct)} {sh : List Lock}
      {r : Held × Bool × Bool × List Lock} (h : Did hs ps sh own pend a r) :
      Stepped hs ps ⟨⟨own, pend, .act a :: p⟩, kids, sh⟩
        ⟨⟨r.1, r.2.1, if r.2.2.1 then p else .act a :: p⟩, kids, r.2.2.2⟩
  | unload {own : Held} {pend : Bool} {l : Lock} {p : List RInstr} {kids : List (Gor RAct)} {sh : List Lock} :
      Stepped hs ps ⟨⟨own, pend, .unload l :: p⟩, kids, sh⟩ ⟨⟨own, pend, p⟩, kids, sh.filter (· != l)⟩
  | par {own : Held} {pend : Bool} {qs : List (List RAct)} {p : List RInstr} {kids : List (Gor RAct)} {sh : List Lock} :
      Stepped hs ps ⟨⟨own, pend, .par qs :: p⟩, kids, sh⟩ ⟨⟨own, pend, p⟩, kids ++ qs.map Gor.start, sh⟩
  | join {own : Held} {pend : Bool} {p : List RInstr} {kids : List (Gor RAct)} {sh : List Lock}
      (h : ∀ k ∈ kids, k.prog = []) :
      Stepped hs ps ⟨⟨own, pend, .join :: p⟩, kids, sh⟩ ⟨⟨own, pend, p⟩, [], sh⟩
  | kidUse {main : Gor RInstr} {a b : List (Gor RAct)} {own : Held} {pend : Bool} {x : Access} {p : List RAct}
      {sh : List Lock} :
      Stepped hs ps ⟨main, a ++ ⟨own, pend, .use x :: p⟩ :: b, sh⟩ ⟨main, a ++ ⟨own, pend, p⟩ :: b, sh⟩
  | kid {main : Gor RInstr} {a b : List (Gor RAct)} {own : Held} {pend : Bool} {x : Act} {p : List RAct}
      {sh : List Lock} {r : Held × Bool × Bool × List Lock} (h : Did hs ps sh own pend x r) :
      Stepped hs ps ⟨main, a ++ ⟨own, pend, .act x :: p⟩ :: b, sh⟩
        ⟨main, a ++ ⟨r.1, r.2.1, if r.2.2.1 then p else .act x :: p⟩ :: b, r.2.2.2⟩

theorem exec_stepped {st st' : RState} {i j : Nat} (h : exec st i j = some st') :
    ∃ a c b c', st = a ++ c :: b ∧ st' = a ++ c' :: b ∧
      Stepped ((plain st).flatMap held) ((plain st).flatMap pending) c c' := by
  unfold exec at h
  cases hc : st[i]? with
  | none => rw [hc] at h; cases h
  | some c =>
    rw [hc] at h
    dsimp only at h
    obtain ⟨a, b, hst, hi⟩ := split_at hc
    obtain ⟨c', hc', rfl⟩ := Option.map_eq_some_iff.1 h
    refine ⟨a, c, b, c', hst, ?_, ?_⟩
    · rw [hst, ← hi, set_at]
    · obtain ⟨⟨own, pend, prog⟩, kids, sh⟩ := c
      cases j with
      | zero =>
        dsimp only at hc'
        unfold stepMain at hc'
        dsimp only at hc'
        match prog, hc' with
        | .use x :: p, hc' => cases hc'; exact .use
        | .act x :: p, hc' =>
          obtain ⟨r, hr, rfl⟩ := Option.map_eq_some_iff.1 hc'
          exact .act (act_did hr)
        | .unload l :: p, hc' => cases hc'; exact .unload
        | .par qs :: p, hc' => cases hc'; exact .par
        | .join :: p, hc' =>
          dsimp only at hc'
          by_cases hk : (kids.all (·.prog.isEmpty)) = true
          · rw [if_pos hk] at hc'
            cases hc'
            refine .join fun k hk' => ?_
            simpa using List.all_eq_true.1 hk k hk'
          · rw [if_neg hk] at hc'; cases hc'
      | succ j =>
        dsimp only at hc'
        unfold stepKid at hc'
        dsimp only at hc'
        cases hk : kids[j]? with
        | none => rw [hk] at hc'; cases hc'
        | some k =>
          rw [hk] at hc'
          obtain ⟨ka, kb, hks, hj⟩ := split_at hk
          obtain ⟨kown, kpend, kprog⟩ := k
          match kprog, hc', hks with
          | .use x :: p, hc', hks =>
            cases hc'
            subst hks
            rw [← hj, set_at]
            exact .kidUse
          | .act x :: p, hc', hks =>
            obtain ⟨r, hr, rfl⟩ := Option.map_eq_some_iff.1 hc'
            subst hks
            rw [← hj, set_at]
            exact .kid (act_did hr)

/-- A step is one of the locks or leaves them as they are. -/
theorem stepped_plain {hs : Held} {ps : List Lock} {c c' : RCall} (h : Stepped hs ps c c') :
    c'.plain = c.plain ∨ Locks.Stepped hs ps c.plain c'.plain := by
  cases h with
  | use => exact .inl rfl
  | kidUse =>
    left
    simp only [RCall.plain, List.map_append, List.map_cons]
    rfl
  | @act own pend a p kids sh r h =>
    right
    have := Locks.Stepped.act (p := strip p) (kids := (RCall.plain ⟨⟨own, pend, p⟩, kids, sh⟩).kids) h
    unfold RCall.plain strip at this ⊢
    dsimp only at this ⊢
    cases hr : r.2.2.1
    · rw [hr] at this; exact this
    · rw [hr] at this; exact this
  | unload => exact .inr .unload
  | @par own pend qs p kids sh =>
    right
    have := @Locks.Stepped.par hs ps own pend (qs.map (·.filterMap stripAct)) (strip p)
      (RCall.plain ⟨⟨own, pend, p⟩, kids, sh⟩).kids sh
    simp only [RCall.plain, List.map_append, List.map_map] at this ⊢
    exact this
  | @join own pend p kids sh h =>
    right
    refine Locks.Stepped.join fun k hk => ?_
    obtain ⟨k', hk', rfl⟩ := List.mem_map.1 hk
    show k'.prog.filterMap stripAct = []
    rw [h k' hk']
    rfl
  | @kid main a b own pend x p sh r h =>
    right
    have := @Locks.Stepped.kid hs ps (RCall.plain ⟨main, a, sh⟩).main (RCall.plain ⟨main, a, sh⟩).kids
      (RCall.plain ⟨main, b, sh⟩).kids own pend x (p.filterMap stripAct) sh r h
    simp only [RCall.plain, List.map_append, List.map_cons] at this ⊢
    cases hr : r.2.2.1
    · rw [hr] at this; exact this
    · rw [hr] at this; exact this

theorem plain_held (st : RState) : (plain st).flatMap held = st.flatMap fun c => held c.plain := by
  unfold plain
  rw [List.flatMap_map]

theorem excl_step {st st' : RState} {i j : Nat} (he : Excl ((plain st).flatMap held)) (h : exec st i j = some st') :
    Excl ((plain st').flatMap held) := by
  obtain ⟨a, c, b, c', rfl, rfl, hs⟩ := exec_stepped h
  rcases stepped_plain hs with hp | hp
  · have : plain (a ++ c' :: b) = plain (a ++ c :: b) := by
      unfold plain
      rw [List.map_append, List.map_cons, hp, List.map_append, List.map_cons]
    rw [this]; exact he
  · have hg := stepped_grow_any hp
    unfold plain at he hg ⊢
    rw [List.map_append, List.map_cons, List.flatMap_append, List.flatMap_cons] at he hg ⊢
    exact excl_grow he rfl hg

/-! ### The discipline is kept -/

theorem did_kid {hs : Held} {ps sh : List Lock} {own : Held} {pend : Bool} {a : Act}
    {r : Held × Bool × Bool × List Lock} (h : Did hs ps sh own pend a r) : ∀ l ∈ sh, l ∈ r.2.2.2 := by
  cases h with
  | load l => exact fun l' h => List.mem_cons_of_mem _ h
  | _ => exact fun l' h => h

theorem loads_cons {a : RAct} {p : List RAct} {l : Lock} (h : l ∈ loads (a :: p)) :
    a = .act (.load l true) ∨ l ∈ loads p := by
  unfold loads at h
  split at h
  · next heq => cases heq
  · next l' p' heq => 
    cases heq
    rcases List.mem_cons.1 h with rfl | h
    · exact .inl rfl
    · exact .inr h
  · next heq => cases heq; exact .inr h

theorem loads_of_cons {a : RAct} {p : List RAct} {l : Lock} (h : l ∈ loads p) : l ∈ loads (a :: p) := by
  unfold loads
  split
  · simp_all
  · next heq => cases heq; exact List.mem_cons_of_mem _ h
  · next heq => cases heq; exact h

theorem stepped_safe {hs : Held} {ps : List Lock} {c c' : RCall} (hc : CallSafe c) (h : Stepped hs ps c c') :
    CallSafe c' := by
  obtain ⟨busy, J, L, base, hS, hL, hbusy, hbase, hkids, hJ⟩ := hc.safe
  cases h with
  | use => exact ⟨busy, J, L, base, hS.2, hL, hbusy, hbase, hkids, hJ⟩
  | @act own pend a p kids sh r hd =>
    dsimp only at *
    have hsh := did_kid hd
    have hkids' : ∀ k ∈ kids, ∃ Lk, (∀ l ∈ Lk, l ∈ r.2.2.2) ∧ KidSafe base k.own Lk k.prog := fun k hk => by
      obtain ⟨Lk, h1, h2⟩ := hkids k hk
      exact ⟨Lk, fun l hl => hsh l (h1 l hl), h2⟩
    have hJ' : ∀ l ∈ J, l ∈ r.2.2.2 ∨ ∃ k ∈ kids, l ∈ loads k.prog := fun l hl => (hJ l hl).imp (hsh l) id
    have hL' : ∀ l ∈ L, l ∈ r.2.2.2 := fun l hl => hsh l (hL l hl)
    cases hd with
    | read l h1 h2 =>
      exact ⟨busy, J, L, base, hS, hL', hbusy, fun h hb => ⟨List.mem_cons_of_mem _ (hbase h hb).1, (hbase h hb).2⟩,
        hkids', hJ'⟩
    | write l h1 =>
      exact ⟨busy, J, L, base, hS, hL', hbusy, fun h hb => ⟨List.mem_cons_of_mem _ (hbase h hb).1, (hbase h hb).2⟩,
        hkids', hJ'⟩
    | announce l hp => exact ⟨busy, J, L, base, hS, hL', hbusy, hbase, hkids', hJ'⟩
    | release l w hl =>
      obtain ⟨hb', hS⟩ := hS
      cases busy with
      | true =>
        refine ⟨true, J, L, base, hS, hL', hbusy, fun h hb => ⟨?_, (hbase h hb).2⟩, hkids', hJ'⟩
        refine mem_erase_ne (hbase h hb).1 fun he => ?_
        have h1 := (hbase h hb).2
        have h2 : isBase l = false := hb' rfl
        rw [he] at h1
        rw [h1] at h2
        cases h2
      | false =>
        obtain ⟨hk, hj⟩ := hbusy rfl
        subst hk
        exact ⟨false, J, L, [], hS, hL', fun _ => ⟨rfl, hj⟩, nofun, nofun, hJ'⟩
    | has l ok hl =>
      refine ⟨busy, J, _, base, hS, ?_, hbusy, hbase, hkids', hJ'⟩
      cases ok
      · exact hL'
      · exact fun l' h => (List.mem_cons.1 h).elim (fun e => e ▸ hl) (hL' l')
    | load l h1 h2 =>
      refine ⟨busy, J, _, base, hS, ?_, hbusy, hbase, hkids', hJ'⟩
      exact fun l' h => (List.mem_cons.1 h).elim (fun e => e ▸ List.mem_cons_self ..) (hL' l')
    | loadFails l h1 => exact ⟨busy, J, L, base, hS, hL', hbusy, hbase, hkids', hJ'⟩
    | announceLoad l ok hp h2 => exact ⟨busy, J, L, base, hS, hL', hbusy, hbase, hkids', hJ'⟩
  | @unload own pend l p kids sh =>
    obtain ⟨hb, hS⟩ := hS
    subst hb
    obtain ⟨hk, hj⟩ := hbusy rfl
    dsimp only at hk
    subst hk hj
    refine ⟨false, [], L.filter (· != l), [], hS, ?_, fun _ => ⟨rfl, rfl⟩, nofun, nofun, nofun⟩
    intro l' hl'
    rw [List.mem_filter] at hl'
    exact List.mem_filter.2 ⟨hL l' hl'.1, hl'.2⟩
  | @par own pend qs p kids sh =>
    obtain ⟨hb, hk, hS⟩ := hS
    subst hb
    obtain ⟨hkn, hj⟩ := hbusy rfl
    dsimp only at hkn
    subst hkn hj
    refine ⟨true, _, L, own.filter fun h => isBase h.1, hS, hL, nofun, fun h hh => List.mem_filter.1 hh, ?_, ?_⟩
    · intro k hk'
      obtain ⟨q, hq, rfl⟩ := List.mem_map.1 (by simpa using hk' : k ∈ qs.map Gor.start)
      exact ⟨L, hL, hk q hq⟩
    · intro l hl
      obtain ⟨q, hq, hl⟩ := List.mem_flatMap.1 hl
      exact .inr ⟨Gor.start q, by simpa using List.mem_map_of_mem hq, hl⟩
  | @join own pend p kids sh h =>
    refine ⟨false, [], J ++ L, [], hS, ?_, fun _ => ⟨rfl, rfl⟩, nofun, nofun, nofun⟩
    intro l hl
    rcases List.mem_append.1 hl with hl | hl
    · rcases hJ l hl with h' | ⟨k, hk, h'⟩
      · exact h'
      · rw [h k hk] at h'; cases h'
    · exact hL l hl
  | @kidUse main a b own pend x p sh =>
    refine ⟨busy, J, L, base, hS, hL, fun hb => ?_, hbase, ?_, ?_⟩
    · exact absurd (hbusy hb).1 (by simp)
    · intro k hk
      rcases List.mem_append.1 hk with hk | hk
      · exact hkids k (List.mem_append_left _ hk)
      rcases List.mem_cons.1 hk with rfl | hk
      · obtain ⟨Lk, h1, h2⟩ := hkids ⟨own, pend, .use x :: p⟩ (by simp)
        exact ⟨Lk, h1, h2.2⟩
      · exact hkids k (List.mem_append_right _ (List.mem_cons_of_mem _ hk))
    · intro l hl
      refine (hJ l hl).imp id fun ⟨k, hk, hkl⟩ => ?_
      rcases List.mem_append.1 hk with hk | hk
      · exact ⟨k, List.mem_append_left _ hk, hkl⟩
      rcases List.mem_cons.1 hk with rfl | hk
      · exact ⟨⟨own, pend, p⟩, by simp, (loads_cons hkl).elim nofun id⟩
      · exact ⟨k, List.mem_append_right _ (List.mem_cons_of_mem _ hk), hkl⟩
  | @kid main a b own pend x p sh r hd =>
    have hsh := did_kid hd
    refine ⟨busy, J, L, base, hS, fun l hl => hsh l (hL l hl), fun hb => ?_, hbase, ?_, ?_⟩
    · exact absurd (hbusy hb).1 (by simp)
    · intro k hk
      have hold : ∀ k ∈ a ++ ⟨own, pend, .act x :: p⟩ :: b, ∃ Lk, (∀ l ∈ Lk, l ∈ r.2.2.2) ∧
          KidSafe base k.own Lk k.prog := fun k hk => by
        obtain ⟨Lk, h1, h2⟩ := hkids k hk
        exact ⟨Lk, fun l hl => hsh l (h1 l hl), h2⟩
      rcases List.mem_append.1 hk with hk | hk
      · exact hold k (List.mem_append_left _ hk)
      rcases List.mem_cons.1 hk with rfl | hk
      · obtain ⟨Lk, h1, h2⟩ := hold ⟨own, pend, .act x :: p⟩ (by simp)
        cases hd with
        | read l h1' h2' => exact ⟨Lk, h1, h2⟩
        | write l h1' => exact ⟨Lk, h1, h2⟩
        | announce l hp => exact ⟨Lk, h1, h2⟩
        | release l w hl => exact ⟨Lk, h1, h2⟩
        | has l ok hl =>
          refine ⟨_, ?_, h2⟩
          cases ok
          · exact h1
          · exact fun l' h => (List.mem_cons.1 h).elim (fun e => e ▸ hl) (h1 l')
        | load l h1' h2' =>
          refine ⟨_, ?_, h2⟩
          exact fun l' h => (List.mem_cons.1 h).elim (fun e => e ▸ List.mem_cons_self ..) (h1 l')
        | loadFails l h1' => exact ⟨Lk, h1, h2⟩
        | announceLoad l ok hp h2' => exact ⟨Lk, h1, h2⟩
      · exact hold k (List.mem_append_right _ (List.mem_cons_of_mem _ hk))
    · intro l hl
      rcases hJ l hl with h' | ⟨k, hk, hkl⟩
      · exact .inl (hsh l h')
      rcases List.mem_append.1 hk with hk | hk
      · exact .inr ⟨k, List.mem_append_left _ hk, hkl⟩
      rcases List.mem_cons.1 hk with rfl | hk
      · have hkeep : l ∈ loads p → l ∈ r.2.2.2 ∨ ∃ k ∈ a ++ ⟨r.1, r.2.1, if r.2.2.1 then p else .act x :: p⟩ :: b,
            l ∈ loads k.prog := fun hp => .inr ⟨_, List.mem_append_right _ (List.mem_cons_self ..), by
          show l ∈ loads (if r.2.2.1 then p else RAct.act x :: p)
          cases r.2.2.1
          · exact loads_of_cons hp
          · exact hp⟩
        rcases loads_cons hkl with he | hp
        · cases he
          cases hd with
          | has l ok hl => exact .inl hl
          | load l h1' h2' => exact .inl (List.mem_cons_self ..)
          | announceLoad l ok hp h2' =>
            exact .inr ⟨_, List.mem_append_right _ (List.mem_cons_self ..), hkl⟩
        · exact hkeep hp
      · exact .inr ⟨k, List.mem_append_right _ (List.mem_cons_of_mem _ hk), hkl⟩

/-! ### Programs that keep to the discipline do not race -/

structure Inv (st : RState) : Prop where
  calls : ∀ c ∈ st, CallSafe c
  excl : Excl ((plain st).flatMap held)

theorem inv_step {st st' : RState} {i j : Nat} (hi : Inv st) (h : exec st i j = some st') : Inv st' := by
  refine ⟨?_, excl_step hi.excl h⟩
  obtain ⟨a, c, b, c', rfl, rfl, hs⟩ := exec_stepped h
  intro d hd
  rcases List.mem_append.1 hd with hd | hd
  · exact hi.calls d (List.mem_append_left _ hd)
  rcases List.mem_cons.1 hd with rfl | hd
  · exact stepped_safe (hi.calls c (by simp)) hs
  · exact hi.calls d (List.mem_append_right _ (List.mem_cons_of_mem _ hd))

theorem inv_run {st st' : RState} (hi : Inv st) (h : Run st st') : Inv st' := by
  induction h with
  | refl => exact hi
  | step _ i j hs ih => exact inv_step ih hs

theorem inv_init {ps : List (List RInstr)} (h : ∀ p ∈ ps, Safe false [] [] [] p) :
    Inv (ps.map fun p => ⟨.start p, [], []⟩) := by
  refine ⟨?_, ?_⟩
  · intro c hc
    obtain ⟨p, hp, rfl⟩ := List.mem_map.1 hc
    exact ⟨false, [], [], [], h p hp, nofun, fun _ => ⟨rfl, rfl⟩, nofun, nofun, nofun⟩
  · have hnil : (plain (ps.map fun p => (⟨.start p, [], []⟩ : RCall))).flatMap held = [] := by
      rw [List.flatMap_eq_nil_iff]
      intro c hc
      unfold plain at hc
      rw [List.map_map] at hc
      obtain ⟨p, _, rfl⟩ := List.mem_map.1 hc
      rfl
    intro l hl
    rw [hnil] at hl
    cases hl

theorem inv_harmless {st : RState} (hi : Inv st) {i j : Nat} {c d : RCall} (hij : i ≠ j) (hc : st[i]? = some c)
    (hd : st[j]? = some d) {x y : Access} (hx : About c x) (hy : About d y) (ho : x.cell.overlaps y.cell = true) :
    Harmless x y := by
  have hpc : (plain st)[i]? = some c.plain := by unfold plain; rw [List.getElem?_map, hc]; rfl
  have hpd : (plain st)[j]? = some d.plain := by unfold plain; rw [List.getElem?_map, hd]; rfl
  refine harmless (fun l w => ⟨fun h1 h2 => hij ?_, fun h1 h2 => hij ?_⟩)
    (about_allowed (hi.calls c (List.mem_of_getElem? hc)) hx)
    (about_allowed (hi.calls d (List.mem_of_getElem? hd)) hy) ho
  · exact excl_index hi.excl hpc hpd h1 h2
  · exact (excl_index hi.excl hpd hpc h1 h2).symm

end RankDB.Races

import Verif.Spec.Heap
import Verif.Proofs.Elements
/-
Goroutines that write only to arrays of their own do not see each other, and what the functions on slices do.
-/
namespace RankDB.Heap
open Elements

/-- `p` run alone by goroutine `t` ends after `n` steps with `x`. It reads only arrays with `own` or `shared`, writes
only arrays with `own`, and stays in range. -/
inductive Does (own shared : Arr → Prop) (t : Nat) : Nat → Prog α → Heap → Nat → α → Heap → Nat → Prop
  | ret : Does own shared t 0 (.ret x) h c x h c
  | load : (own a ∨ shared a) → (h a)[i]? = some e → Does own shared t n (k e) h c x h' c' →
      Does own shared t (n + 1) (.load a i k) h c x h' c'
  | store : own a → i < (h a).length → Does own shared t n k (h.put a ((h a).set i e)) c x h' c' →
      Does own shared t (n + 1) (.store a i e k) h c x h' c'
  | make : own (.made t c) →
      Does own shared t n (k (.made t c)) (h.put (.made t c) (List.replicate len default)) (c + 1) x h' c' →
      Does own shared t (n + 1) (.make len k) h c x h' c'

variable {own shared : Arr → Prop} {t : Nat}

theorem put_self (h : Heap) (a : Arr) : h.put a (h a) = h := by
  funext b; unfold Heap.put; split
  · next e => rw [e]
  · rfl

@[simp] theorem put_same (h : Heap) (a : Arr) (l : List Element) : h.put a l a = l := by simp [Heap.put]

theorem put_ne (h : Heap) {a b : Arr} (l : List Element) (hb : b ≠ a) : h.put a l b = h b := by simp [Heap.put, hb]

@[simp] theorem put_put (h : Heap) (a : Arr) (l l' : List Element) : (h.put a l).put a l' = h.put a l' := by
  funext b; unfold Heap.put; split <;> rfl

theorem Does.bind {p : Prog α} {f : α → Prog β} {y : β} (h1 : Does own shared t n p h c x h' c') :
    Does own shared t m (f x) h' c' y h'' c'' → Does own shared t (n + m) (p.bind f) h c y h'' c'' := by
  induction h1 with
  | ret => intro h2; rw [Nat.zero_add]; exact h2
  | load ha hg _ ih => intro h2; rw [Nat.add_right_comm]; exact .load ha hg (ih h2)
  | store ha hg _ ih => intro h2; rw [Nat.add_right_comm]; exact .store ha hg (ih h2)
  | make ha _ ih => intro h2; rw [Nat.add_right_comm]; exact .make ha (ih h2)

/-! ### Any number of goroutines -/

/-- Arrays that a goroutine does not own stay as they are. -/
theorem Does.frame {p : Prog α} (hd : Does own shared t n p h c x h' c') : ∀ a, ¬own a → h' a = h a := by
  induction hd with
  | ret => intros; rfl
  | load _ _ _ ih => exact ih
  | store ha _ _ ih => intro a hn; rw [ih a hn, put_ne]; rintro rfl; exact hn ha
  | make ha _ ih => intro a hn; rw [ih a hn, put_ne]; rintro rfl; exact hn ha

/-- The goroutines in the middle of a run: each one, seen alone with the arrays it may read, will do what it would have
done alone. -/
def Amidst (own : Nat → Arr → Prop) (shared : Arr → Prop) (X : Nat → α) (H : Nat → Heap) (C : Nat → Nat)
    (left : Nat → Nat) (w : World α) : Prop :=
  ∀ t, ∃ v, (∀ a, own t a ∨ shared a → v a = w.heap a) ∧
    Does (own t) shared t (left t) (w.threads t).1 v (w.threads t).2 (X t) (H t) (C t)

theorem amidst_step {own : Nat → Arr → Prop} {shared : Arr → Prop} {X : Nat → α} {H C left} {w : World α}
    (hdis : ∀ t u a, t ≠ u → own t a → ¬own u a) (hsh : ∀ t a, own t a → ¬shared a)
    (hw : Amidst own shared X H C left w) (t : Nat) :
    ∃ w', w.step t = some w' ∧ Amidst own shared X H C (fun u => if u = t then left t - 1 else left u) w' ∧
      ∀ a, shared a → w'.heap a = w.heap a := by
  obtain ⟨v, hv, hd⟩ := hw t
  have others : ∀ (h : Heap) (p : Prog α) (m : Nat), (∀ a, ¬own t a → h a = w.heap a) →
      (∃ v, (∀ a, own t a ∨ shared a → v a = h a) ∧ Does (own t) shared t (left t - 1) p v m (X t) (H t) (C t)) →
      Amidst own shared X H C (fun u => if u = t then left t - 1 else left u) (w.set h t p m) := by
    intro h p m hfr hmine u
    by_cases hu : u = t
    · subst hu
      simpa only [World.set, if_true] using hmine
    · obtain ⟨v', hv', hd'⟩ := hw u
      refine ⟨v', ?_, by simpa only [World.set, if_neg hu] using hd'⟩
      intro a ha
      show v' a = h a
      rw [hv' a ha, hfr a]
      intro ht
      rcases ha with ha | ha
      · exact hdis t u a (fun e => hu e.symm) ht ha
      · exact hsh t a ht ha
  unfold World.step
  generalize hth : w.threads t = th at hd
  obtain ⟨p, c⟩ := th
  simp only at hd
  cases p with
  | ret x =>
    refine ⟨w, rfl, ?_, fun _ _ => rfl⟩
    intro u
    by_cases hu : u = t
    · subst hu
      refine ⟨v, hv, ?_⟩
      rw [hth]
      generalize hl : left u = n at hd
      cases hd
      simp only [hl]
      exact .ret
    · simpa only [if_neg hu] using hw u
  | load a i k =>
    generalize hl : left t = n at hd
    cases hd with
    | load ha hg hk =>
      rw [hv a ha] at hg
      simp only [hg]
      refine ⟨_, rfl, ?_, fun _ _ => rfl⟩
      rw [← hl]
      exact others _ _ _ (fun _ _ => rfl) ⟨v, hv, by rw [hl]; exact hk⟩
  | store a i e k =>
    generalize hl : left t = n at hd
    cases hd with
    | store ha hg hk =>
      rw [hv a (.inl ha)] at hg hk
      simp only [if_pos hg]
      refine ⟨_, rfl, ?_, ?_⟩
      · rw [← hl]
        refine others _ _ _ (fun b hb => put_ne _ _ (by rintro rfl; exact hb ha)) ⟨_, ?_, by rw [hl]; exact hk⟩
        intro b hb
        unfold Heap.put
        split
        · rfl
        · exact hv b hb
      · intro b hb
        exact put_ne _ _ (by rintro rfl; exact hsh t _ ha hb)
  | make len k =>
    generalize hl : left t = n at hd
    cases hd with
    | make ha hk =>
      refine ⟨_, rfl, ?_, ?_⟩
      · rw [← hl]
        refine others _ _ _ (fun b hb => put_ne _ _ (by rintro rfl; exact hb ha)) ⟨_, ?_, by rw [hl]; exact hk⟩
        intro b hb
        unfold Heap.put
        split
        · rfl
        · exact hv b hb
      · intro b hb
        exact put_ne _ _ (by rintro rfl; exact hsh t _ ha hb)

theorem amidst_run {own : Nat → Arr → Prop} {shared : Arr → Prop} {X : Nat → α} {H C}
    (hdis : ∀ t u a, t ≠ u → own t a → ¬own u a) (hsh : ∀ t a, own t a → ¬shared a) :
    ∀ {sched : List Nat} {left : Nat → Nat} {w : World α}, Amidst own shared X H C left w →
    ∃ w', w.run sched = some w' ∧ Amidst own shared X H C (fun u => left u - sched.count u) w' ∧
      ∀ a, shared a → w'.heap a = w.heap a
  | [], left, w, hw => ⟨w, rfl, by simpa using hw, fun _ _ => rfl⟩
  | t :: sched, left, w, hw => by
    obtain ⟨w1, h1, h2, h3⟩ := amidst_step hdis hsh hw t
    obtain ⟨w', h4, h5, h6⟩ := amidst_run hdis hsh (sched := sched) h2
    refine ⟨w', by simp only [World.run, h1, h4], ?_, fun a ha => by rw [h6 a ha, h3 a ha]⟩
    have e : (fun u => left u - (t :: sched).count u) =
        fun u => (if u = t then left t - 1 else left u) - sched.count u := by
      funext u
      rw [List.count_cons]
      by_cases hu : u = t
      · subst hu; simp; omega
      · rw [if_neg hu, if_neg (by simpa using fun e => hu e.symm)]; simp
    rw [e]
    exact h5

/-! ### Functions on slices -/

/-- `Does` for some number of steps. -/
def Runs (own shared : Arr → Prop) (t : Nat) (p : Prog α) (h : Heap) (c : Nat) (x : α) (h' : Heap) (c' : Nat) : Prop :=
  ∃ n, Does own shared t n p h c x h' c'

theorem Runs.ret : Runs own shared t (.ret x) h c x h c := ⟨0, .ret⟩

theorem Runs.load {k : Element → Prog α} (ha : own a ∨ shared a) (hg : (h a)[i]? = some e)
    (hk : Runs own shared t (k e) h c x h' c') : Runs own shared t (.load a i k) h c x h' c' :=
  let ⟨_, hn⟩ := hk; ⟨_, .load ha hg hn⟩

theorem Runs.store {k : Prog α} (ha : own a) (hg : i < (h a).length)
    (hk : Runs own shared t k (h.put a ((h a).set i e)) c x h' c') : Runs own shared t (.store a i e k) h c x h' c' :=
  let ⟨_, hn⟩ := hk; ⟨_, .store ha hg hn⟩

theorem Runs.make {k : Arr → Prog α} (ha : own (.made t c))
    (hk : Runs own shared t (k (.made t c)) (h.put (.made t c) (List.replicate len default)) (c + 1) x h' c') :
    Runs own shared t (.make len k) h c x h' c' :=
  let ⟨_, hn⟩ := hk; ⟨_, .make ha hn⟩

theorem Runs.bind {p : Prog α} {f : α → Prog β} {y : β} (h1 : Runs own shared t p h c x h' c')
    (h2 : Runs own shared t (f x) h' c' y h'' c'') : Runs own shared t (p.bind f) h c y h'' c'' :=
  let ⟨_, a⟩ := h1; let ⟨_, b⟩ := h2; ⟨_, a.bind b⟩

theorem readN_spec (ha : own a ∨ shared a) : ∀ {L P S : List Element}, h a = P ++ L ++ S → i = P.length → n = L.length →
    Runs own shared t (readN a i n) h c L h c
  | [], P, S, _, hi, hn => by subst hn; exact .ret
  | e :: L, P, S, he, hi, hn => by
    subst hn
    refine .load (e := e) ha (by rw [he, hi]; simp) ?_
    refine .bind (readN_spec ha (L := L) (P := P ++ [e]) (S := S) (by simp [he]) (by simp [hi]) rfl) .ret

theorem writeL_spec (ha : own a) : ∀ {l O P S : List Element} {h : Heap}, h a = P ++ O ++ S → O.length = l.length →
    i = P.length → Runs own shared t (writeL a i l) h c () (h.put a (P ++ l ++ S)) c
  | [], O, P, S, h, he, hO, hi => by
    cases O with
    | nil => rw [← he, put_self]; exact .ret
    | cons => cases hO
  | e :: l, O, P, S, h, he, hO, hi => by
    cases O with
    | nil => cases hO
    | cons o O =>
      refine .store ha (by rw [he, hi]; simp) ?_
      have hs : (h a).set i e = (P ++ [e]) ++ O ++ S := by rw [he, hi]; simp
      rw [hs]
      have := writeL_spec (c := c) (i := i + 1) ha (l := l) (O := O) (P := P ++ [e]) (S := S)
        (h := h.put a ((P ++ [e]) ++ O ++ S)) (by simp) (by simpa using hO) (by simp [hi])
      simpa using this

/-- The slice has these elements. -/
def Holds (h : Heap) (s : Slice) (l : List Element) : Prop :=
  s.len = l.length ∧ ∃ S, h s.arr = l ++ S ∧ s.cap = l.length + S.length

/-- The array is not one that goroutine `t` will make. -/
def Old (t c : Nat) (a : Arr) : Prop := ∀ k, c ≤ k → a ≠ .made t k

/-- A slice in array `a` became `s'` with elements `l`; besides `a` only new arrays are written. -/
structure Post (t : Nat) (a : Arr) (c : Nat) (h : Heap) (l : List Element) (s' : Slice) (h' : Heap) (c' : Nat) : Prop where
  holds : Holds h' s' l
  le : c ≤ c'
  arr : s'.arr = a ∨ ∃ k, c ≤ k ∧ k < c' ∧ s'.arr = .made t k
  frame : ∀ b, b ≠ a → Old t c b → h' b = h b

theorem Post.old (p : Post t a c h l s' h' c') (ho : Old t c a) : Old t c' s'.arr := by
  intro k hk
  rcases p.arr with e | ⟨j, h1, h2, e⟩
  · rw [e]; exact ho k (Nat.le_trans p.le hk)
  · rw [e]; intro e'; injection e'; omega

theorem Post.trans (p : Post t a c h l s' h' c') (q : Post t s'.arr c' h' l' s'' h'' c'') :
    Post t a c h l' s'' h'' c'' where
  holds := q.holds
  le := Nat.le_trans p.le q.le
  arr := by
    have h1 := p.le
    have h2 := q.le
    rcases q.arr with e | ⟨k, e1, e2, e⟩
    · rw [e]
      rcases p.arr with e' | ⟨k, f1, f2, f⟩
      · exact .inl e'
      · exact .inr ⟨k, f1, by omega, f⟩
    · exact .inr ⟨k, by omega, e2, e⟩
  frame := by
    intro b hb ho
    rw [q.frame b ?_ ?_, p.frame b hb ho]
    · rcases p.arr with e | ⟨k, f1, f2, f⟩
      · rw [e]; exact hb
      · rw [f]; exact ho k f1
    · intro k hk; exact ho k (Nat.le_trans p.le hk)

theorem Post.owned (p : Post t a c h l s' h' c') (ha : own a) (hm : ∀ k, own (.made t k)) : own s'.arr := by
  rcases p.arr with e | ⟨j, _, _, e⟩ <;> rw [e]
  · exact ha
  · exact hm j

/-- In the same array. -/
theorem Post.same {s : Slice} (hl : s'.len = l.length) (ha : s'.arr = s.arr) (hh : h' = h.put s.arr (l ++ S))
    (hc : s'.cap = l.length + S.length) : Post t s.arr c h l s' h' c :=
  ⟨⟨hl, S, by rw [ha, hh, put_same], hc⟩, Nat.le_refl _, .inl ha, fun b hb _ => by rw [hh, put_ne _ _ hb]⟩

theorem freshP_spec (hm : ∀ k, own (.made t k)) (l : List Element) (spare : Nat) (a : Arr) (h : Heap) (c : Nat) :
    ∃ s' h' c', Runs own shared t (freshP l spare) h c s' h' c' ∧ Post t a c h l s' h' c' := by
  refine ⟨⟨.made t c, l.length, l.length + spare⟩, h.put (.made t c) (l ++ List.replicate spare default), c + 1, ?_, ?_⟩
  · refine .make (hm c) ?_
    have := writeL_spec (own := own) (shared := shared) (t := t) (c := c + 1) (i := 0) (hm c) (l := l)
      (O := List.replicate l.length default) (P := []) (S := List.replicate spare default)
      (h := h.put (.made t c) (List.replicate (l.length + spare) default))
      (by simp [← List.replicate_append_replicate]) (by simp) rfl
    refine .bind this ?_
    simp only [put_put, List.nil_append]
    exact .ret
  · exact ⟨⟨rfl, List.replicate spare default, by simp, by simp⟩, by omega, .inr ⟨c, by omega, by omega, rfl⟩,
      fun b hb ho => put_ne _ _ (ho c (Nat.le_refl _))⟩

theorem append1_spec {s : Slice} (hm : ∀ k, own (.made t k)) (ha : own s.arr) (ho : Old t c s.arr) (hs : Holds h s l)
    (e : Element) (spare : Nat) :
    ∃ s' h' c', Runs own shared t (append1 s e spare) h c s' h' c' ∧ Post t s.arr c h (l ++ [e]) s' h' c' := by
  obtain ⟨hl, S, hS, hc⟩ := hs
  unfold append1
  split
  · next hlt =>
    cases S with
    | nil => simp at hc; omega
    | cons o S =>
      refine ⟨_, _, _, .store ha (by rw [hS, hl]; simp) .ret, ?_⟩
      refine Post.same (S := S) (by simp [hl]) rfl ?_ (by simp [hc]; omega)
      rw [hS, hl]; simp
  · next hge =>
    refine ⟨⟨.made t c, s.len + 1, s.len + 1 + spare⟩, h.put (.made t c) ((l ++ [e]) ++ List.replicate spare default),
      c + 1, .make (hm c) ?_, ?_⟩
    · refine .bind (readN_spec (L := l) (P := []) (S := S) (.inl ha) (by rw [put_ne _ _ (ho c (Nat.le_refl _)), hS]; simp)
        rfl hl) ?_
      have := writeL_spec (own := own) (shared := shared) (t := t) (c := c + 1) (i := 0) (hm c) (l := l)
        (O := List.replicate l.length default) (P := []) (S := default :: List.replicate spare default)
        (h := h.put (.made t c) (List.replicate (s.len + 1 + spare) default))
        (by rw [hl, Nat.add_assoc, ← List.replicate_append_replicate, Nat.add_comm 1 spare]; simp [List.replicate_succ])
        (by simp) rfl
      refine .bind this ?_
      refine .store (hm c) (by simp [hl]) ?_
      simp only [put_put, put_same, List.nil_append, hl]
      rw [List.set_append_right _ _ (Nat.le_refl _)]
      simp only [Nat.sub_self, List.set_cons_zero, List.append_assoc, List.singleton_append]
      exact .ret
    · exact ⟨⟨by simp [hl], List.replicate spare default, by simp, by simp [hl]⟩, by omega,
        .inr ⟨c, by omega, by omega, rfl⟩, fun b hb ho => put_ne _ _ (ho c (Nat.le_refl _))⟩

theorem insertPos_spec {a : Arr} (ha : own a ∨ shared a) (e : Element) : ∀ {L P S : List Element}, h a = P ++ L ++ S →
    i = P.length → n = L.length → Runs own shared t (insertPos a e i n) h c (i + (Elements.insert L e).2) h c
  | [], P, S, _, hi, hn => by subst hn; exact .ret
  | x :: L, P, S, he, hi, hn => by
    subst hn
    refine .load (e := x) ha (by rw [he, hi]; simp) ?_
    unfold Elements.insert
    split
    · have := insertPos_spec (h := h) (c := c) (i := i + 1) (n := L.length) ha e
        (L := L) (P := P ++ [x]) (S := S) (by simp [he]) (by simp [hi]) rfl
      simpa [Nat.add_assoc, Nat.add_comm] using this
    · exact .ret

theorem insert_at : ∀ (L : List Element) (e : Element), (Elements.insert L e).2 ≤ L.length ∧
    (Elements.insert L e).1 = L.take (Elements.insert L e).2 ++ e :: L.drop (Elements.insert L e).2
  | [], e => by simp [Elements.insert]
  | x :: L, e => by
    unfold Elements.insert
    split
    · have := insert_at L e
      simp only [List.length_cons]
      refine ⟨by omega, ?_⟩
      simp only [List.take_succ_cons, List.drop_succ_cons, List.cons_append]
      rw [← this.2]
    · simp

theorem insertP_spec {s : Slice} (hm : ∀ k, own (.made t k)) (ha : own s.arr) (ho : Old t c s.arr) (hs : Holds h s l)
    (e : Element) (spare : Nat) :
    ∃ s' h' c', Runs own shared t (insertP s e spare) h c (s', (Elements.insert l e).2) h' c' ∧
      Post t s.arr c h (Elements.insert l e).1 s' h' c' := by
  obtain ⟨hle, hins⟩ := insert_at l e
  obtain ⟨hl, S, hS, hc⟩ := (show Holds h s l from hs)
  have hp : Runs own shared t (insertPos s.arr e 0 s.len) h c (Elements.insert l e).2 h c := by
    have := insertPos_spec (own := own) (shared := shared) (t := t) (c := c) (i := 0) (n := s.len) (.inl ha) e
      (h := h) (L := l) (P := []) (S := S) (by simpa using hS) rfl hl
    simpa using this
  generalize hi : (Elements.insert l e).2 = i at *
  by_cases hlt : i < s.len
  · obtain ⟨s1, h1, c1, r1, p1⟩ := append1_spec (shared := shared) hm ha ho hs default spare
    obtain ⟨hl1, S1, hS1, hc1⟩ := p1.holds
    have own1 : own s1.arr := p1.owned ha hm
    have split1 : h1 s1.arr = (l.take i) ++ (l.drop i) ++ (default :: S1) := by rw [hS1]; simp
    have split2 : h1 s1.arr = (l.take i ++ (l.drop i).take 1) ++ ((l.drop i).drop 1 ++ [default]) ++ S1 := by
      rw [hS1, List.append_assoc (l.take i), ← List.append_assoc ((l.drop i).take 1), List.take_append_drop,
        ← List.append_assoc (l.take i), List.take_append_drop]
    refine ⟨s1, h1.put s1.arr ((l.take i ++ e :: l.drop i) ++ S1), c1, ?_, ?_⟩
    · refine .bind hp ?_
      rw [if_pos hlt]
      refine .bind r1 ?_
      refine .bind (readN_spec (.inl own1) split1 (by simp; omega) (by simp [hl])) ?_
      refine .bind (writeL_spec own1 split2 ?_ ?_) ?_
      · simp; omega
      · simp; omega
      · refine .store own1 (by simp; omega) ?_
        simp only [put_put, put_same]
        have : ((l.take i ++ (l.drop i).take 1) ++ l.drop i ++ S1).set i e = (l.take i ++ e :: l.drop i) ++ S1 := by
          have hd : l.drop i = l[i]'(by omega) :: l.drop (i + 1) := List.drop_eq_getElem_cons (by omega)
          have : (l.drop i).take 1 = [l[i]'(by omega)] := by rw [hd]; rfl
          rw [this, List.append_assoc, List.append_assoc, List.set_append_right _ _ (by simp; omega)]
          have : i - (l.take i).length = 0 := by simp; omega
          rw [this]; simp
        rw [this]
        exact .ret
    · rw [hins]
      refine p1.trans (Post.same (S := S1) ?_ rfl rfl ?_)
      · rw [hl1]; simp; omega
      · rw [hc1]; simp; omega
  · have : i = l.length := by omega
    obtain ⟨s1, h1, c1, r1, p1⟩ := append1_spec (shared := shared) hm ha ho hs e spare
    refine ⟨s1, h1, c1, .bind hp ?_, ?_⟩
    · rw [if_neg hlt]; exact .bind r1 .ret
    · rw [hins, this]; simpa using p1

theorem idPos_spec {a : Arr} (ha : own a ∨ shared a) (id : Nat) : ∀ {L P S : List Element}, h a = P ++ L ++ S →
    i = P.length → n = L.length →
    Runs own shared t (idPos a id i n) h c ((findIdx L id).map (i + ·)) h c
  | [], P, S, _, hi, hn => by subst hn; exact .ret
  | x :: L, P, S, he, hi, hn => by
    subst hn
    refine .load (e := x) ha (by rw [he, hi]; simp) ?_
    unfold findIdx
    split
    · exact .ret
    · have := idPos_spec (h := h) (c := c) (i := i + 1) (n := L.length) ha id
        (L := L) (P := P ++ [x]) (S := S) (by simp [he]) (by simp [hi]) rfl
      have e : ((findIdx L id).map (· + 1)).map (i + ·) = (findIdx L id).map (i + 1 + ·) := by
        rw [Option.map_map]; congr 1; funext k; simp; omega
      rw [e]; exact this

theorem scorePos_spec {a : Arr} (ha : own a ∨ shared a) (id : Nat) : ∀ {L P S : List Element}, h a = P ++ L ++ S →
    i = P.length → n = L.length →
    Runs own shared t (scorePos a id i n) h c ((findScoreIdx L id).map (i + ·)) h c
  | [], P, S, _, hi, hn => by subst hn; exact .ret
  | x :: L, P, S, he, hi, hn => by
    subst hn
    refine .load (e := x) ha (by rw [he, hi]; simp) ?_
    unfold findScoreIdx
    split
    · exact .ret
    · have := scorePos_spec (h := h) (c := c) (i := i + 1) (n := L.length) ha id
        (L := L) (P := P ++ [x]) (S := S) (by simp [he]) (by simp [hi]) rfl
      have e : ((findScoreIdx L id).map (· + 1)).map (i + ·) = (findScoreIdx L id).map (i + 1 + ·) := by
        rw [Option.map_map]; congr 1; funext k; simp; omega
      rw [e]; exact this

theorem delete_at : ∀ (L : List Element) (id : Nat),
    match findIdx L id with
    | none => Elements.delete L id = none
    | some i => ∃ A e B, L = A ++ e :: B ∧ A.length = i ∧ Elements.delete L id = some (A ++ B)
  | [], id => by simp [findIdx, Elements.delete]
  | x :: L, id => by
    have ih := delete_at L id
    unfold findIdx Elements.delete
    by_cases hx : (x.id == id) = true
    · simp only [if_pos hx]
      exact ⟨[], x, L, rfl, rfl, rfl⟩
    · simp only [if_neg hx]
      cases hf : findIdx L id with
      | none => rw [hf] at ih; simp only at ih; simp [ih]
      | some i =>
        rw [hf] at ih
        obtain ⟨A, e, B, h1, h2, h3⟩ := ih
        exact ⟨x :: A, e, B, by rw [h1]; rfl, by simp [h2], by rw [h3]; rfl⟩

theorem deleteP_spec {s : Slice} (ha : own s.arr) (hs : Holds h s l) (id : Nat) :
    match Elements.delete l id with
    | none => Runs own shared t (deleteP s id) h c none h c
    | some l' => ∃ s' h', Runs own shared t (deleteP s id) h c (some s') h' c ∧ Post t s.arr c h l' s' h' c := by
  obtain ⟨hl, S, hS, hc⟩ := (show Holds h s l from hs)
  have hp := idPos_spec (own := own) (shared := shared) (t := t) (c := c) (i := 0) (n := s.len) (.inl ha) id
    (h := h) (L := l) (P := []) (S := S) (by simpa using hS) rfl hl
  have hd := delete_at l id
  cases hf : findIdx l id with
  | none =>
    rw [hf] at hp hd
    simp only at hd
    rw [hd]
    exact .bind hp .ret
  | some i =>
    rw [hf] at hp hd
    obtain ⟨A, e, B, h1, h2, h3⟩ := hd
    rw [h3]
    simp only [Option.map_some, Nat.zero_add] at hp
    have hS1 : h s.arr = (A ++ [e]) ++ B ++ S := by rw [hS, h1]; simp
    have hr := readN_spec (own := own) (shared := shared) (t := t) (c := c) (i := i + 1) (n := s.len - (i + 1)) (.inl ha) hS1
      (by simp [h2]) (by rw [hl, h1]; simp; omega)
    cases hB : B.reverse with
    | nil =>
      have hB : B = [] := by simpa using hB
      subst hB
      have hw := writeL_spec (own := own) (shared := shared) (t := t) (c := c) (i := i) ha (l := []) (O := []) (P := A)
        (S := e :: S) (h := h) (by rw [hS1]; simp) rfl h2.symm
      refine ⟨_, _, .bind hp (.bind hr (.bind hw .ret)), Post.same (S := e :: S) ?_ rfl (by simp) ?_⟩
      · simp [hl, h1]
      · rw [hc, h1]; simp; omega
    | cons b B' =>
      have hB : B = B'.reverse ++ [b] := by
        have := congrArg List.reverse hB; simpa using this
      have hw := writeL_spec (own := own) (shared := shared) (t := t) (c := c) (i := i) ha (l := B) (O := e :: B'.reverse)
        (P := A) (S := b :: S) (h := h) (by rw [hS1, hB]; simp) (by rw [hB]; simp) h2.symm
      refine ⟨_, _, .bind hp (.bind hr (.bind hw .ret)), Post.same (S := b :: S) ?_ rfl rfl ?_⟩
      · simp [hl, h1]
      · rw [hc, h1]; simp; omega

theorem updateP_spec {s : Slice} (hm : ∀ k, own (.made t k)) (ha : own s.arr) (ho : Old t c s.arr) (hs : Holds h s l)
    (e : Element) (now spare : Nat) :
    match Elements.update now l e with
    | none => Runs own shared t (updateP s e now spare) h c none h c
    | some r => ∃ s' i h' c', Runs own shared t (updateP s e now spare) h c (some (s', i)) h' c' ∧
        Post t s.arr c h r.1 s' h' c' := by
  have hd := deleteP_spec (shared := shared) (t := t) (c := c) ha hs (touch now e).id
  unfold Elements.update
  cases hx : Elements.delete l (touch now e).id with
  | none => rw [hx] at hd; simp only at hd ⊢; rw [hx]; exact .bind hd .ret
  | some l' =>
    rw [hx] at hd
    obtain ⟨s1, h1, r1, p1⟩ := hd
    obtain ⟨s2, h2, c2, r2, p2⟩ := insertP_spec (shared := shared) hm (p1.owned ha hm) (p1.old ho) p1.holds (touch now e) spare
    simp only [hx]
    exact ⟨s2, _, h2, c2, .bind r1 (.bind r2 .ret), p1.trans p2⟩

theorem touch_touch (now : Nat) (e : Element) : touch now (touch now e) = touch now e := by
  unfold touch; split
  · simp only; split <;> rfl
  · rfl

theorem addP_spec {s : Slice} (hm : ∀ k, own (.made t k)) (ha : own s.arr) (ho : Old t c s.arr) (hs : Holds h s l)
    (e : Element) (now spare : Nat) :
    ∃ s' i h' c', Runs own shared t (addP s e now spare) h c (s', i) h' c' ∧
      Post t s.arr c h (Elements.add now l e).1 s' h' c' := by
  obtain ⟨hl, S, hS, hc⟩ := (show Holds h s l from hs)
  have hp := idPos_spec (own := own) (shared := shared) (t := t) (c := c) (i := 0) (n := s.len) (.inl ha) (touch now e).id
    (h := h) (L := l) (P := []) (S := S) (by simpa using hS) rfl hl
  have hd := delete_at l (touch now e).id
  unfold Elements.add
  cases hf : findIdx l (touch now e).id with
  | none =>
    rw [hf] at hp
    obtain ⟨s2, h2, c2, r2, p2⟩ := insertP_spec (shared := shared) hm ha ho hs (touch now e) spare
    simp only [hf]
    exact ⟨s2, _, h2, c2, .bind hp r2, p2⟩
  | some i =>
    rw [hf] at hp hd
    obtain ⟨A, x, B, h1, h2, h3⟩ := hd
    have hu := updateP_spec (shared := shared) hm ha ho hs (touch now e) now spare
    simp only [hf]
    cases hx : Elements.update now l (touch now e) with
    | none => simp [Elements.update, touch_touch, h3] at hx
    | some r =>
      rw [hx] at hu
      obtain ⟨s2, i2, h2, c2, r2, p2⟩ := hu
      simp only
      exact ⟨s2, i2, h2, c2, .bind hp (.bind r2 .ret), p2⟩

theorem mergeNew_spec {a b d : Arr} (ha : own a ∨ shared a) (hb : own b ∨ shared b) (hd : own d) (had : a ≠ d) (hbd : b ≠ d) :
    ∀ {fuel : Nat} {X Y PX PY W O SX SY : List Element} {h : Heap}, h a = PX ++ X ++ SX → h b = PY ++ Y ++ SY →
    h d = W ++ O → O.length = X.length + Y.length → X.length + Y.length ≤ fuel → i = PX.length → n = X.length →
    j = PY.length → m = Y.length → w = W.length →
    Runs own shared t (mergeNew a b d fuel i n j m w) h c () (h.put d (W ++ mergeAlloc X Y)) c
  | 0, X, Y, PX, PY, W, O, SX, SY, h, eX, eY, eO, hO, hf, hi, hn, hj, hm, hw => by
    cases X with
    | cons => simp at hf
    | nil =>
      cases Y with
      | cons => simp at hf
      | nil =>
        have : O = [] := by simpa using hO
        have e : h d = W ++ mergeAlloc [] [] := by rw [eO, this]; rfl
        rw [← e, put_self]; exact .ret
  | fuel + 1, X, Y, PX, PY, W, O, SX, SY, h, eX, eY, eO, hO, hf, hi, hn, hj, hm, hw => by
    unfold mergeNew
    cases X with
    | nil =>
      rw [if_pos (by simpa using hn)]
      refine .bind (readN_spec hb eY hj hm) ?_
      have := writeL_spec (own := own) (shared := shared) (t := t) (c := c) hd (l := Y) (O := O) (P := W) (S := [])
        (h := h) (by simpa using eO) (by simpa using hO) hw
      simpa [mergeAlloc] using this
    | cons x X =>
      rw [if_neg (by rw [hn]; simp)]
      cases Y with
      | nil =>
        rw [if_pos (by simpa using hm)]
        refine .bind (readN_spec ha eX hi hn) ?_
        have := writeL_spec (own := own) (shared := shared) (t := t) (c := c) hd (l := x :: X) (O := O) (P := W) (S := [])
          (h := h) (by simpa using eO) (by simpa using hO) hw
        rw [mergeAlloc_nil]
        simpa using this
      | cons y Y =>
        rw [if_neg (by rw [hm]; simp)]
        refine .load (e := x) ha (by rw [eX, hi]; simp) (.load (e := y) hb (by rw [eY, hj]; simp) ?_)
        cases O with
        | nil => simp at hO
        | cons o O =>
          have hset : ∀ z, (h d).set w z = (W ++ [z]) ++ O := by intro z; rw [eO, hw]; simp
          have hlt : w < (h d).length := by rw [eO, hw]; simp
          rw [mergeAlloc_cons]
          split
          · refine .store hd hlt ?_
            rw [hset]
            have := mergeNew_spec (c := c) (i := i + 1) (n := n - 1) (j := j) (m := m) (w := w + 1)
              ha hb hd had hbd (fuel := fuel) (X := X) (Y := y :: Y) (PX := PX ++ [x]) (PY := PY) (W := W ++ [x])
              (O := O) (SX := SX) (SY := SY) (h := h.put d ((W ++ [x]) ++ O)) (by rw [put_ne _ _ had, eX]; simp)
              (by rw [put_ne _ _ hbd, eY]) (by simp) (by simp at hO ⊢; omega) (by simp at hf ⊢; omega) (by simp [hi])
              (by simp [hn]) hj hm (by simp [hw])
            simpa using this
          · refine .store hd hlt ?_
            rw [hset]
            have := mergeNew_spec (c := c) (i := i) (n := n) (j := j + 1) (m := m - 1) (w := w + 1)
              ha hb hd had hbd (fuel := fuel) (X := x :: X) (Y := Y) (PX := PX) (PY := PY ++ [y]) (W := W ++ [y])
              (O := O) (SX := SX) (SY := SY) (h := h.put d ((W ++ [y]) ++ O)) (by rw [put_ne _ _ had, eX])
              (by rw [put_ne _ _ hbd, eY]; simp) (by simp) (by simp at hO ⊢; omega) (by simp at hf ⊢; omega) hi hn
              (by simp [hj]) (by simp [hm]) (by simp [hw])
            simpa using this

theorem mergeOld_spec {a b : Arr} (ha : own a) (hb : own b ∨ shared b) (hab : b ≠ a) :
    ∀ {fuel : Nat} {X Y P PY O SY : List Element} {h : Heap}, h a = P ++ X ++ O → h b = PY ++ Y ++ SY → Y ≠ [] →
    Y.length ≤ O.length → X.length + 2 * Y.length ≤ fuel → i = P.length → len = P.length + X.length → j = PY.length →
    m = Y.length → Runs own shared t (mergeOld a b fuel i len j m) h c (len + m)
      (h.put a (P ++ mergeInPlace Y X ++ O.drop Y.length)) c
  | 0, X, Y, P, PY, O, SY, h, eX, eY, hne, hO, hf, hi, hl, hj, hm => by
    cases Y with
    | nil => exact absurd rfl hne
    | cons => simp at hf
  | fuel + 1, X, Y, P, PY, O, SY, h, eX, eY, hne, hO, hf, hi, hl, hj, hm => by
    unfold mergeOld
    cases Y with
    | nil => exact absurd rfl hne
    | cons y Y =>
    cases X with
    | nil =>
      rw [if_neg (by simp at hl; omega)]
      refine .bind (readN_spec hb eY hj hm) ?_
      have := writeL_spec (own := own) (shared := shared) (t := t) (c := c) (i := len) ha (l := y :: Y)
        (O := O.take (y :: Y).length) (P := P) (S := O.drop (y :: Y).length)
        (h := h) (by rw [eX]; simp) (by simp at hO ⊢; omega) (by simpa using hl)
      rw [mergeInPlace_nil]
      exact .bind this .ret
    | cons x X =>
      have hlt : i < len := by simp at hl; omega
      rw [if_pos hlt]
      refine .load (e := x) (.inl ha) (by rw [eX, hi]; simp) (.load (e := y) hb (by rw [eY, hj]; simp) ?_)
      rw [mergeInPlace_cons]
      split
      · have := mergeOld_spec (c := c) (i := i + 1) (len := len) (j := j) (m := m) ha hb hab (fuel := fuel) (X := X)
          (Y := y :: Y) (P := P ++ [x]) (PY := PY) (O := O) (SY := SY) (h := h) (by rw [eX]; simp) eY hne hO
          (by simp at hf ⊢; omega) (by simp [hi]) (by simp [hl]; omega) hj hm
        simpa using this
      · cases O with
        | nil => simp at hO
        | cons o O =>
          have e1 : (h a).set len default = P ++ (x :: X) ++ default :: O := by
            rw [eX, hl]
            rw [List.set_append_right _ _ (by simp)]
            simp
          refine .store ha (by rw [eX, hl]; simp) ?_
          rw [e1]
          refine .bind (readN_spec (.inl ha) (by rw [put_same]) hi (by rw [hl, hi]; omega)) ?_
          have hw := writeL_spec (own := own) (shared := shared) (t := t) (c := c) (i := i + 1) ha (l := x :: X)
            (O := X ++ [default]) (P := P ++ [x]) (S := O) (h := h.put a (P ++ (x :: X) ++ default :: O))
            (by simp) (by simp) (by simp [hi])
          refine .bind hw ?_
          simp only [put_put]
          refine .load (e := y) hb (by rw [put_ne _ _ hab, eY, hj]; simp) ?_
          refine .store ha (by rw [put_same, hi]; simp) ?_
          simp only [put_same, put_put]
          have e2 : (P ++ [x] ++ (x :: X) ++ O).set i y = P ++ (y :: x :: X) ++ O := by
            rw [hi]; simp
          rw [e2]
          cases Y with
          | nil =>
            rw [if_pos (by simpa using hm)]
            rw [show mergeInPlace [] (y :: x :: X) = y :: x :: X from rfl]
            have : m = 1 := by simpa using hm
            subst this
            simpa using Runs.ret
          | cons y' Y =>
            rw [if_neg (by rw [hm]; simp)]
            have := mergeOld_spec (c := c) (i := i) (len := len + 1) (j := j + 1) (m := m - 1) ha hb hab (fuel := fuel)
              (X := y :: x :: X) (Y := y' :: Y) (P := P) (PY := PY ++ [y]) (O := O) (SY := SY)
              (h := h.put a (P ++ (y :: x :: X) ++ O)) (by rw [put_same]) (by rw [put_ne _ _ hab, eY]; simp) (by simp)
              (by simp at hO ⊢; omega) (by simp at hf ⊢; omega) hi (by simp [hl]; omega) (by simp [hj]) (by simp [hm])
            have em : len + 1 + (m - 1) = len + m := by simp at hm; omega
            rw [em] at this
            simpa using this

theorem mergeP_spec {s : Slice} (hm : ∀ k, own (.made t k)) (ha : own s.arr) (ho : Old t c s.arr) (hs : Holds h s l)
    {b : Arr} (hb : own b ∨ shared b) (hab : b ≠ s.arr) (hob : Old t c b) {P Y S : List Element} (hY : h b = P ++ Y ++ S)
    (hj : j = P.length) (hn : n = Y.length) (sliced : Bool) :
    ∃ (inPlace : Bool) (s' : Slice) (h' : Heap) (c' : Nat), Runs own shared t (mergeP s b j n sliced) h c s' h' c' ∧
      Post t s.arr c h (if inPlace then mergeInPlace Y l else mergeAlloc l Y) s' h' c' := by
  obtain ⟨hl, S', hS, hc⟩ := id hs
  unfold mergeP
  split
  · next h0 =>
    have : Y = [] := by rw [h0] at hn; exact List.length_eq_zero_iff.1 hn.symm
    subst this
    refine ⟨false, s, h, c, .ret, ?_⟩
    rw [if_neg (by simp), mergeAlloc_nil]
    exact Post.same hl rfl (by rw [← hS, put_self]) hc
  · next h0 =>
    split
    · refine ⟨false, ⟨.made t c, s.len + n, s.len + n⟩, h.put (.made t c) (mergeAlloc l Y), c + 1, .make (hm c) ?_, ?_⟩
      · have := mergeNew_spec (own := own) (shared := shared) (t := t) (c := c + 1) (i := 0) (n := s.len) (j := j) (m := n)
          (w := 0) (.inl ha) hb (hm c) (ho c (Nat.le_refl _)) (hob c (Nat.le_refl _)) (fuel := s.len + n) (X := l) (Y := Y) (PX := [])
          (PY := P) (W := []) (O := List.replicate (s.len + n) default) (SX := S') (SY := S)
          (h := h.put (.made t c) (List.replicate (s.len + n) default))
          (by rw [put_ne _ _ (ho c (Nat.le_refl _))]; simpa using hS) (by rw [put_ne _ _ (hob c (Nat.le_refl _)), hY]) (by simp)
          (by simp [hl, hn]) (by rw [hl, hn]; exact Nat.le_refl _) rfl hl hj hn rfl
        refine .bind this ?_
        simp only [put_put, List.nil_append]
        exact .ret
      · rw [if_neg (by simp)]
        have hlen : (mergeAlloc l Y).length = s.len + n := by rw [(mergeAlloc_perm l Y).length_eq]; simp [hl, hn]
        exact ⟨⟨hlen.symm, [], by simp, by simp [hlen]⟩, by omega, .inr ⟨c, by omega, by omega, rfl⟩,
          fun b hb ho => put_ne _ _ (ho c (Nat.le_refl _))⟩
    · next hcond =>
      simp only [Bool.or_eq_true, decide_eq_true_eq, not_or, Nat.not_lt] at hcond
      have hne : Y ≠ [] := by rintro rfl; exact h0 (by simpa using hn)
      have hlen : (mergeInPlace Y l).length = s.len + n := by rw [(mergeInPlace_perm Y l).length_eq]; simp [hl, hn]
      have := mergeOld_spec (own := own) (shared := shared) (t := t) (c := c) (i := 0) (len := s.len) (j := j) (m := n)
        ha hb hab (fuel := s.len + 2 * n) (X := l) (Y := Y) (P := []) (PY := P) (O := S') (SY := S) (h := h)
        (by simpa using hS) hY hne (by omega) (by omega) rfl (by simpa using hl) hj hn
      refine ⟨true, { s with len := s.len + n }, _, c, .bind this .ret, ?_⟩
      rw [if_pos rfl]
      refine Post.same (S := S'.drop Y.length) hlen.symm rfl (by simp) ?_
      rw [hlen]; simp; omega

theorem removeP_spec {a : Arr} (ha : own a) (ids : List Nat) : ∀ {L W O S : List Element} {h : Heap}, h a = W ++ O ++ L ++ S →
    i = W.length + O.length → n = L.length → w = W.length →
    ∃ O', Runs own shared t (removeP a ids n i w) h c (w + (L.filter fun e => !ids.contains e.id).length)
      (h.put a (W ++ (L.filter fun e => !ids.contains e.id) ++ O' ++ S)) c ∧
      (L.filter fun e => !ids.contains e.id).length + O'.length = O.length + L.length
  | [], W, O, S, h, he, hi, hn, hw => by
    subst hn
    refine ⟨O, ?_, by simp⟩
    have : h a = W ++ (List.filter (fun e => !ids.contains e.id) []) ++ O ++ S := by rw [he]; simp
    rw [← this, put_self]
    exact .ret
  | x :: L, W, O, S, h, he, hi, hn, hw => by
    subst hn
    have hload : (h a)[i]? = some x := by
      rw [he, hi, List.append_assoc, List.getElem?_append_right (by simp)]; simp
    by_cases hx : ids.contains x.id = true
    · obtain ⟨O', r, e⟩ := removeP_spec (c := c) (i := i + 1) (n := L.length) (w := w) ha ids (L := L) (W := W)
        (O := O ++ [x]) (S := S) (h := h) (by rw [he]; simp) (by simp [hi]; omega) rfl hw
      have hfl : (x :: L).filter (fun e => !ids.contains e.id) = L.filter (fun e => !ids.contains e.id) := by
        rw [List.filter_cons, if_neg (by simpa using hx)]
      rw [hfl]
      refine ⟨O', .load (e := x) (.inl ha) hload ?_, by simp at e ⊢; omega⟩
      rw [if_pos hx]
      exact r
    · have hfl : (x :: L).filter (fun e => !ids.contains e.id) = x :: L.filter (fun e => !ids.contains e.id) := by
        rw [List.filter_cons, if_pos (by simpa using hx)]
      rw [hfl]
      cases O with
      | nil =>
        obtain ⟨O', r, e⟩ := removeP_spec (c := c) (i := i + 1) (n := L.length) (w := w + 1) ha ids (L := L)
          (W := W ++ [x]) (O := []) (S := S) (h := h.put a ((h a).set w x)) (by rw [put_same, he, hw]; simp)
          (by simp [hi]) rfl (by simp [hw])
        refine ⟨O', .load (e := x) (.inl ha) hload ?_, by simp at e ⊢; omega⟩
        rw [if_neg hx]
        refine .store ha (by rw [he, hw]; simp) ?_
        simpa [Nat.add_assoc, Nat.add_comm] using r
      | cons o O =>
        obtain ⟨O', r, e⟩ := removeP_spec (c := c) (i := i + 1) (n := L.length) (w := w + 1) ha ids (L := L)
          (W := W ++ [x]) (O := O ++ [x]) (S := S) (h := h.put a ((h a).set w x)) (by rw [put_same, he, hw]; simp)
          (by simp [hi]; omega) rfl (by simp [hw])
        refine ⟨O', .load (e := x) (.inl ha) hload ?_, by simp at e ⊢; omega⟩
        rw [if_neg hx]
        refine .store ha (by rw [he, hw]; simp) ?_
        simpa [Nat.add_assoc, Nat.add_comm] using r

theorem retarget_at (score tie now : Nat) : ∀ L : List Element,
    match findScoreIdx L score with
    | none => L.any (·.score == score) = false ∧ Spec.Slices.retarget score tie now L = L
    | some i => ∃ A e B, L = A ++ e :: B ∧ A.length = i ∧ L.any (·.score == score) = true ∧
        Spec.Slices.retarget score tie now L = A ++ { e with tie := tie, updated := now } :: B
  | [] => by simp [findScoreIdx, Spec.Slices.retarget]
  | x :: L => by
    have ih := retarget_at score tie now L
    unfold findScoreIdx Spec.Slices.retarget
    by_cases hx : (x.score == score) = true
    · simp only [if_pos hx]
      exact ⟨[], x, L, rfl, rfl, by simp [hx], rfl⟩
    · simp only [if_neg hx]
      cases hf : findScoreIdx L score with
      | none => rw [hf] at ih; simp only at ih; simp [ih, hx]
      | some i =>
        rw [hf] at ih
        obtain ⟨A, e, B, h1, h2, h3, h4⟩ := ih
        exact ⟨x :: A, e, B, by rw [h1]; rfl, by simp [h2], by rw [List.any_cons, h3, Bool.or_true], by rw [h4]; rfl⟩

theorem retargetP_spec {s : Slice} (ha : own s.arr) (hs : Holds h s l) (id seg now : Nat) :
    ∃ h', Runs own shared t (retargetP s id seg now) h c (l.any (·.score == id)) h' c ∧
      Post t s.arr c h (Spec.Slices.retarget id seg now l) s h' c := by
  obtain ⟨hl, S, hS, hc⟩ := (show Holds h s l from hs)
  have hp := scorePos_spec (own := own) (shared := shared) (t := t) (c := c) (i := 0) (n := s.len) (.inl ha) id
    (h := h) (L := l) (P := []) (S := S) (by simpa using hS) rfl hl
  have hd := retarget_at id seg now l
  cases hf : findScoreIdx l id with
  | none =>
    rw [hf] at hp hd
    simp only at hd
    rw [hd.1, hd.2]
    refine ⟨h, .bind hp .ret, ?_⟩
    exact Post.same hl rfl (by rw [← hS, put_self]) hc
  | some i =>
    rw [hf] at hp hd
    obtain ⟨A, e, B, h1, h2, h3, h4⟩ := hd
    rw [h3, h4]
    simp only [Option.map_some, Nat.zero_add] at hp
    refine ⟨_, .bind hp (.load (e := e) (.inl ha) (by rw [hS, h1, ← h2]; simp) (.store ha (by rw [hS, h1, ← h2]; simp) .ret)), ?_⟩
    refine Post.same (S := S) (by rw [hl, h1]; simp) rfl ?_ (by rw [hc, h1]; simp)
    rw [hS, h1, ← h2]; simp

theorem isSorted_snoc : ∀ (L : List Element) (y x : Element),
    isSorted (L ++ [y, x]) = (isSorted (L ++ [y]) && !x.above y)
  | [], y, x => by simp [isSorted]
  | [a], y, x => by simp [isSorted]
  | a :: b :: L, y, x => by
    have := isSorted_snoc (b :: L) y x
    simp only [List.cons_append, isSorted] at this ⊢
    rw [this, Bool.and_assoc]

theorem sortedP_spec {a : Arr} (ha : own a ∨ shared a) : ∀ {n : Nat} {L P S : List Element}, h a = P ++ L ++ S →
    j = P.length → n = L.length - 1 → Runs own shared t (sortedP a j n) h c (isSorted L) h c
  | 0, L, P, S, he, hj, hn => by
    match L, hn with
    | [], _ => exact .ret
    | [_], _ => exact .ret
    | _ :: _ :: _, hn => simp at hn
  | n + 1, L, P, S, he, hj, hn => by
    have hr : L.length = n + 2 := by omega
    obtain ⟨L', x, rfl⟩ : ∃ L' x, L = L' ++ [x] := by
      refine ⟨L.dropLast, L.getLast (by rintro rfl; simp at hr), ?_⟩
      rw [List.dropLast_concat_getLast]
    obtain ⟨L'', y, rfl⟩ : ∃ L'' y, L' = L'' ++ [y] := by
      refine ⟨L'.dropLast, L'.getLast (by rintro rfl; simp at hr), ?_⟩
      rw [List.dropLast_concat_getLast]
    have hlen : L''.length = n := by simp at hr; omega
    refine .load (e := x) ha ?_ (.load (e := y) ha ?_ ?_)
    · rw [he, hj, List.append_assoc, List.getElem?_append_right (by omega)]
      simp [← hlen]
    · rw [he, hj, List.append_assoc, List.getElem?_append_right (by omega)]
      simp [← hlen]
    · have e : L'' ++ [y] ++ [x] = L'' ++ [y, x] := by simp
      rw [e, isSorted_snoc]
      split
      · next hx => rw [hx]; simpa using Runs.ret
      · next hx =>
        have := sortedP_spec (c := c) ha (n := n) (h := h) (L := L'' ++ [y]) (P := P) (S := x :: S) (by rw [he]; simp) hj
          (by simp; omega)
        simpa [hx] using this

theorem sortP_sorted {a : Arr} (ha : own a ∨ shared a) {L P S : List Element} (he : h a = P ++ L ++ S) (hj : j = P.length)
    (hn : n = L.length) (hs : isSorted L = true) : Runs own shared t (sortP a j n) h c false h c := by
  refine .bind (sortedP_spec ha he hj (by rw [hn])) ?_
  rw [if_pos hs]
  exact .ret

theorem sortP_spec {a : Arr} (ha : own a) {L P S : List Element} (he : h a = P ++ L ++ S) (hj : j = P.length)
    (hn : n = L.length) : Runs own shared t (sortP a j n) h c (!isSorted L)
      (h.put a (P ++ (if isSorted L then L else sortSlice L) ++ S)) c := by
  by_cases hs : isSorted L = true
  · rw [if_pos hs, hs, ← he, put_self]
    exact sortP_sorted (.inl ha) he hj hn hs
  · refine .bind (sortedP_spec (.inl ha) he hj (by rw [hn])) ?_
    rw [if_neg hs, if_neg hs]
    refine .bind (readN_spec (.inl ha) he hj hn) (.bind (writeL_spec ha he ?_ hj) ?_)
    · exact (sortSlice_perm _).length_eq.symm
    · simp only [hs]; exact .ret

/-! ### Code of a goroutine -/
open Spec.Slices

/-- The slices of a goroutine have elements `v`, and are in different arrays of its own. -/
structure Good (own : Arr → Prop) (t c : Nat) (σ : Nat → Slice) (h : Heap) (v : Nat → List Element) : Prop where
  holds : ∀ s, Holds h (σ s) (v s)
  own : ∀ s, own (σ s).arr
  old : ∀ s, Old t c (σ s).arr
  apart : ∀ s u, s ≠ u → (σ s).arr ≠ (σ u).arr

/-- The slices that all goroutines were given have elements `g`. -/
def Given (given : Nat → Arr × Nat × Nat) (h : Heap) (g : Nat → List Element) : Prop :=
  ∀ r, ∃ P S, h (given r).1 = P ++ g r ++ S ∧ (given r).2.1 = P.length ∧ (given r).2.2 = (g r).length

theorem Good.assign {s : Nat} (hg : Good own t c σ h v) (hm : ∀ k, own (.made t k)) (p : Post t (σ s).arr c h l s' h' c') :
    Good own t c' (Heap.assign σ s s') h' (setTo v s l) where
  holds := by
    intro u
    unfold Heap.assign setTo
    split
    · exact p.holds
    · next hu =>
      obtain ⟨h1, S, h2, h3⟩ := hg.holds u
      exact ⟨h1, S, by rw [p.frame _ (hg.apart u s hu) (hg.old u), h2], h3⟩
  own := by
    intro u
    unfold Heap.assign
    split
    · exact p.owned (hg.own s) hm
    · exact hg.own u
  old := by
    intro u
    unfold Heap.assign
    split
    · exact p.old (hg.old s)
    · intro k hk; exact hg.old u k (Nat.le_trans p.le hk)
  apart := by
    have key : ∀ u, u ≠ s → s'.arr ≠ (σ u).arr := by
      intro u hu
      rcases p.arr with e | ⟨k, h1, _, e⟩
      · rw [e]; exact hg.apart s u fun e => hu e.symm
      · rw [e]; exact fun e => hg.old u k h1 e.symm
    intro u u' hu
    unfold Heap.assign
    split
    · next e => subst e; rw [if_neg fun e => hu e.symm]; exact key u' fun e => hu e.symm
    · next e =>
      split
      · next e' => subst e'; exact fun e' => key u e e'.symm
      · exact hg.apart u u' hu

theorem assign_self (σ : Nat → Slice) (s : Nat) : assign σ s (σ s) = σ := by
  funext u; unfold assign; split
  · next e => rw [e]
  · rfl

theorem setTo_self (v : Nat → List Element) (s : Nat) : setTo v s (v s) = v := by
  funext u; unfold setTo; split
  · next e => rw [e]
  · rfl

theorem take_drop_split (l : List Element) (i j : Nat) :
    ∃ P S, l = P ++ (l.take j).drop i ++ S ∧ P.length = min i l.length ∧
      ((l.take j).drop i).length = min j l.length - min i l.length := by
  by_cases hij : i ≤ j
  · refine ⟨(l.take j).take i, l.drop j, ?_, ?_, ?_⟩
    · rw [List.take_append_drop, List.take_append_drop]
    · simp; omega
    · simp; omega
  · refine ⟨l.take i, l.drop i, ?_, by simp, by simp; omega⟩
    rw [List.drop_eq_nil_of_le (by simp; omega)]
    simp

/-- Where the elements of a part are. -/
theorem window_spec {g v : Nat → List Element} (hg : Good own t c σ h v) (hG : Given given h g)
    (hs : ∀ r, shared (given r).1) (x : Src) :
    ∃ P S, h (x.window given σ).1 = P ++ partOf g v x ++ S ∧ (x.window given σ).2.1 = P.length ∧
      (x.window given σ).2.2 = (partOf g v x).length ∧ (own (x.window given σ).1 ∨ shared (x.window given σ).1) := by
  cases x with
  | own s i j =>
    obtain ⟨h1, S, h2, h3⟩ := hg.holds s
    obtain ⟨P, S', e1, e2, e3⟩ := take_drop_split (v s) i j
    refine ⟨P, S' ++ S, ?_, ?_, ?_, .inl (hg.own s)⟩
    · show h (σ s).arr = P ++ ((v s).take j).drop i ++ (S' ++ S)
      rw [← List.append_assoc, ← e1, h2]
    · show min i (σ s).len = P.length
      rw [h1, e2]
    · show min j (σ s).len - min i (σ s).len = (((v s).take j).drop i).length
      rw [h1, e3]
  | given r i j =>
    obtain ⟨P0, S, h2, h1, h3⟩ := hG r
    obtain ⟨P, S', e1, e2, e3⟩ := take_drop_split (g r) i j
    refine ⟨P0 ++ P, S' ++ S, ?_, ?_, ?_, .inr (hs r)⟩
    · show h (given r).1 = P0 ++ P ++ ((g r).take j).drop i ++ (S' ++ S)
      rw [h2]
      conv => lhs; rw [e1]
      simp
    · show (given r).2.1 + min i (given r).2.2 = (P0 ++ P).length
      rw [h1, h3, List.length_append, e2]
    · show min j (given r).2.2 - min i (given r).2.2 = (((g r).take j).drop i).length
      rw [h3, e3]

theorem isSorted_part {l : List Element} (h : isSorted l = true) (i j : Nat) : isSorted ((l.take j).drop i) = true := by
  rw [isSorted_iff] at h ⊢
  exact (h.sublist (List.take_sublist j l)).sublist (List.drop_sublist i _)

theorem op_spec {g v : Nat → List Element} (hm : ∀ k, own (.made t k)) (hsh : ∀ a, own a → ¬shared a)
    (hg : Good own t c σ h v) (hG : Given given h g) (hs : ∀ r, shared (given r).1)
    (hold : ∀ r, Old t c (given r).1) (hsorted : ∀ r, isSorted (g r) = true) (o : Op) :
    ∃ b σ' h' c', c ≤ c' ∧ Runs own shared t (o.prog given σ) h c ((opValue b g v o).1, σ') h' c' ∧
      Good own t c' σ' h' (opValue b g v o).2 := by
  cases o with
  | look x =>
    obtain ⟨P, S, e1, e2, e3, e4⟩ := window_spec hg hG hs x
    exact ⟨false, σ, h, c, Nat.le_refl _, .bind (readN_spec e4 e1 e2 e3) .ret, hg⟩
  | sort s =>
    obtain ⟨h1, S, h2, h3⟩ := hg.holds s
    have hr := sortP_spec (own := own) (shared := shared) (t := t) (c := c) (j := 0) (n := (σ s).len) (hg.own s)
      (L := v s) (P := []) (S := S) (h := h) (by simpa using h2) rfl h1
    have hp : Post t (σ s).arr c h (if isSorted (v s) then v s else sortSlice (v s)) (σ s)
        (h.put (σ s).arr ([] ++ (if isSorted (v s) then v s else sortSlice (v s)) ++ S)) c := by
      have hlen : (if isSorted (v s) then v s else sortSlice (v s)).length = (v s).length := by
        split
        · rfl
        · exact (sortSlice_perm _).length_eq
      exact Post.same (S := S) (by rw [h1, hlen]) rfl rfl (by rw [h3, hlen])
    have hg' := hg.assign hm hp
    rw [assign_self] at hg'
    unfold opValue
    by_cases hx : isSorted (v s) = true
    · simp only [hx, if_true] at hr hg' ⊢
      rw [setTo_self] at hg'
      exact ⟨false, σ, _, c, Nat.le_refl _, .bind hr .ret, hg'⟩
    · simp only [hx] at hr hg' ⊢
      exact ⟨false, σ, _, c, Nat.le_refl _, .bind hr .ret, hg'⟩
  | sortGiven r i j =>
    obtain ⟨P, S, e1, e2, e3, e4⟩ := window_spec hg hG hs (.given r i j)
    exact ⟨false, σ, h, c, Nat.le_refl _, .bind (sortP_sorted e4 e1 e2 e3 (isSorted_part (hsorted r) i j)) .ret, hg⟩
  | insert s e spare =>
    obtain ⟨s', h', c', r, p⟩ := insertP_spec (shared := shared) hm (hg.own s) (hg.old s) (hg.holds s) e spare
    exact ⟨false, _, h', c', p.le, .bind r .ret, hg.assign hm p⟩
  | delete s id =>
    have hd := deleteP_spec (shared := shared) (t := t) (c := c) (hg.own s) (hg.holds s) id
    cases hx : Elements.delete (v s) id with
    | none =>
      rw [hx] at hd
      simp only [opValue, hx]
      refine ⟨false, σ, h, c, Nat.le_refl _, .bind hd ?_, ?_⟩
      · simp only [Option.getD_none, assign_self]; exact .ret
      · exact hg
    | some l =>
      rw [hx] at hd
      simp only [opValue, hx]
      obtain ⟨s', h', r, p⟩ := hd
      exact ⟨false, _, h', c, p.le, .bind r .ret, hg.assign hm p⟩
  | update s e now spare =>
    have hd := updateP_spec (shared := shared) hm (hg.own s) (hg.old s) (hg.holds s) e now spare
    cases hx : Elements.update now (v s) e with
    | none =>
      rw [hx] at hd
      simp only [opValue, hx]
      refine ⟨false, σ, h, c, Nat.le_refl _, .bind hd ?_, ?_⟩
      · simp only [Option.map_none, Option.getD_none, assign_self]; exact .ret
      · exact hg
    | some l =>
      rw [hx] at hd
      simp only [opValue, hx]
      obtain ⟨s', i, h', c', r, p⟩ := hd
      exact ⟨false, _, h', c', p.le, .bind r .ret, hg.assign hm p⟩
  | add s e now spare =>
    obtain ⟨s', i, h', c', r, p⟩ := addP_spec (shared := shared) hm (hg.own s) (hg.old s) (hg.holds s) e now spare
    exact ⟨false, _, h', c', p.le, .bind r .ret, hg.assign hm p⟩
  | merge s x sliced =>
    by_cases hx : x.isOf s = true
    · simp only [Op.prog, opValue, if_pos hx]
      exact ⟨false, σ, h, c, Nat.le_refl _, .ret, hg⟩
    · obtain ⟨P, S, e1, e2, e3, e4⟩ := window_spec hg hG hs x
      have hne : (x.window given σ).1 ≠ (σ s).arr ∧ Old t c (x.window given σ).1 := by
        cases x with
        | own u i j => exact ⟨hg.apart u s (by simpa [Src.isOf] using hx), hg.old u⟩
        | given r i j => exact ⟨fun e => hsh _ (hg.own s) (e ▸ hs r), hold r⟩
      obtain ⟨b, s', h', c', r, p⟩ := mergeP_spec (shared := shared) hm (hg.own s) (hg.old s) (hg.holds s) e4 hne.1 hne.2
        e1 e2 e3 sliced
      simp only [Op.prog, opValue, if_neg hx]
      exact ⟨b, _, h', c', p.le, .bind r .ret, hg.assign hm p⟩
  | remove s ids =>
    obtain ⟨h1, S, h2, h3⟩ := hg.holds s
    obtain ⟨O, r, e⟩ := removeP_spec (own := own) (shared := shared) (t := t) (c := c) (i := 0) (n := (σ s).len) (w := 0)
      (hg.own s) ids (L := v s) (W := []) (O := []) (S := S) (h := h) (by simpa using h2) rfl h1 rfl
    refine ⟨false, _, _, c, Nat.le_refl _, .bind r .ret, hg.assign hm (Post.same (S := O ++ S) (by simp) rfl ?_ ?_)⟩
    · simp
    · rw [h3]; simp at e ⊢; omega
  | retarget s id seg now =>
    obtain ⟨h', r, p⟩ := retargetP_spec (shared := shared) (t := t) (c := c) (hg.own s) (hg.holds s) id seg now
    have hg' := hg.assign hm p
    rw [assign_self] at hg'
    exact ⟨false, σ, h', c, p.le, .bind r .ret, hg'⟩
  | fresh s l spare =>
    obtain ⟨s', h', c', r, p⟩ := freshP_spec (shared := shared) hm l spare (σ s).arr h c
    exact ⟨false, _, h', c', p.le, .bind r .ret, hg.assign hm p⟩
  | clone s x =>
    obtain ⟨P, S, e1, e2, e3, e4⟩ := window_spec hg hG hs x
    obtain ⟨s', h', c', r, p⟩ := freshP_spec (shared := shared) hm (partOf g v x) 0 (σ s).arr h c
    exact ⟨false, _, h', c', p.le, .bind (readN_spec e4 e1 e2 e3) (.bind r .ret), hg.assign hm p⟩
  | join s x =>
    obtain ⟨P, S, e1, e2, e3, e4⟩ := window_spec hg hG hs x
    obtain ⟨h1, S', h2, h3⟩ := hg.holds s
    obtain ⟨s', h', c', r, p⟩ := freshP_spec (shared := shared) hm (v s ++ partOf g v x) 0 (σ s).arr h c
    exact ⟨false, _, h', c', p.le, .bind (readN_spec (.inl (hg.own s)) (L := v s) (P := []) (S := S') (by simpa using h2)
      rfl h1) (.bind (readN_spec e4 e1 e2 e3) (.bind r .ret)), hg.assign hm p⟩

theorem code_spec {g : Nat → List Element} (hm : ∀ k, own (.made t k)) (hsh : ∀ a, own a → ¬shared a)
    (hs : ∀ r, shared (given r).1) (hsorted : ∀ r, isSorted (g r) = true) (code : Code β) :
    ∀ {c : Nat} {σ : Nat → Slice} {h : Heap} {v : Nat → List Element}, Good own t c σ h v → Given given h g →
    (∀ r, Old t c (given r).1) →
    ∃ b σ' h' c' v', Runs own shared t (code.prog given σ) h c (b, σ') h' c' ∧ Good own t c' σ' h' v' ∧
      Means g code v b v' := by
  induction code with
  | done b => intro c σ h v hg hG hold; exact ⟨b, σ, h, c, v, .ret, hg, .done⟩
  | op o k ih =>
    intro c σ h v hg hG hold
    obtain ⟨b, σ1, h1, c1, hc, ⟨n, r1⟩, hg1⟩ := op_spec hm hsh hg hG hs hold hsorted o
    have hG1 : Given given h1 g := by
      intro r
      obtain ⟨P, S, e1, e2, e3⟩ := hG r
      exact ⟨P, S, by rw [r1.frame _ fun ho => hsh _ ho (hs r), e1], e2, e3⟩
    obtain ⟨y, σ2, h2, c2, v2, r2, hg2, m2⟩ := ih (opValue b g v o).1 hg1 hG1 fun r k hk => hold r k (Nat.le_trans hc hk)
    exact ⟨y, σ2, h2, c2, v2, .bind ⟨n, r1⟩ r2, hg2, .op b m2⟩

end RankDB.Heap

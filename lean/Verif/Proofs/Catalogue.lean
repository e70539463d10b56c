import Verif.Model.Catalogue
/-
Helper lemmas for the catalogue of lists.
-/
namespace RankDB.Catalogue

theorem slt_irrefl (a : Str) : ¬ a < a := List.lt_irrefl a
theorem slt_trans {a b c : Str} (h : a < b) (h' : b < c) : a < c := List.lt_trans h h'
theorem slt_tri {a b : Str} (h : ¬ a < b) (h' : a ≠ b) : b < a := by
  apply Decidable.byContradiction
  intro h2
  exact h' (List.le_antisymm (List.not_lt.1 h2) (List.not_lt.1 h))

theorem sortIDs_perm (l : List Str) : (sortIDs l).Perm l := goSort_perm _ l

theorem sortIDs_sorted {l : List Str} (h : l.Nodup) : (sortIDs l).Pairwise (· < ·) := by
  have h1 : (sortIDs l).Pairwise fun a b => decide (¬ b < a) = true := by
    apply goSort_sorted
    · intro a b c h1 h2
      simp only [decide_eq_true_eq] at *
      intro h3
      by_cases he : a = b
      · subst he; exact h2 h3
      · exact h2 (slt_trans h3 (slt_tri h1 (Ne.symm he)))
    · intro a b
      simp only [Bool.or_eq_true, decide_eq_true_eq]
      by_cases h : b < a
      · exact Or.inr fun h' => slt_irrefl _ (slt_trans h h')
      · exact Or.inl h
  have h2 : (sortIDs l).Nodup := (sortIDs_perm l).nodup_iff.2 h
  refine (h1.and h2).imp ?_
  intro a b ⟨h3, h4⟩
  simp only [decide_eq_true_eq] at h3
  exact slt_tri h3 (Ne.symm h4)

theorem sortIDs_length (l : List Str) : (sortIDs l).length = l.length := (sortIDs_perm l).length_eq

/-- A list of at least two elements by its front and last element. -/
theorem set_last {α : Type} {s : List α} {n : Nat} (h : s.length = n) (hn : 2 ≤ n) :
    ∃ f x m, s = f ++ [x, m] ∧ s[n - 2]? = some x ∧ ∀ y, s.set (n - 1) y = f ++ [x, y] := by
  obtain ⟨m, hm⟩ : ∃ m, s.reverse.head? = some m := by
    cases h' : s.reverse with
    | nil => simp at h'; subst h'; simp at h; omega
    | cons a l => exact ⟨a, rfl⟩
  obtain ⟨t, ht⟩ : ∃ t, s.reverse = m :: t := by
    cases h' : s.reverse with
    | nil => rw [h'] at hm; simp at hm
    | cons a l => rw [h'] at hm; simp at hm; exact ⟨l, by rw [hm]⟩
  obtain ⟨x, u, hu⟩ : ∃ x u, t = x :: u := by
    cases h' : t with
    | nil =>
      have : s.reverse.length = 1 := by rw [ht, h']; rfl
      simp at this; omega
    | cons a l => exact ⟨a, l, rfl⟩
  have hs : s = u.reverse ++ [x, m] := by
    have : s = s.reverse.reverse := by simp
    rw [this, ht, hu]; simp
  refine ⟨u.reverse, x, m, hs, ?_, ?_⟩
  · have : u.length + 2 = n := by rw [← h, hs]; simp
    rw [hs, List.getElem?_append_right (by simp; omega)]
    have : n - 2 - u.reverse.length = 0 := by simp; omega
    rw [this]; rfl
  · intro y
    have : u.length + 2 = n := by rw [← h, hs]; simp
    rw [hs, List.set_append_right _ _ (by simp; omega)]
    have : n - 1 - u.reverse.length = 1 := by simp; omega
    rw [this]; rfl

/-! ### Forward -/

/-- State of the forward scan after the IDs `P`. -/
structure InvAfter (start : Str) (n : Nat) (P : List Str) (st : Scan) : Prop where
  len : st.s.length ≤ n
  split : ∃ R, (st.s ++ R).Perm (P.filter fun id => decide (start < id)) ∧ R.length = st.page.after ∧
    (∀ r ∈ R, ∀ x ∈ st.s, x < r) ∧ (R ≠ [] → st.s.length = n)
  before : st.page.before = (P.filter fun id => decide (¬ start < id)).length
  max : st.s ≠ [] → st.bound ∈ st.s ∧ ∀ x ∈ st.s, ¬ st.bound < x
  none : st.s = [] → st.bound = []

theorem filter_snoc {α : Type} (p : α → Bool) (l : List α) (x : α) :
    (l ++ [x]).filter p = if p x then l.filter p ++ [x] else l.filter p := by
  rw [List.filter_append]
  by_cases h : p x <;> simp [h]

theorem not_lt_nil (a : Str) : ¬ a < [] := by simp

theorem stepAfter_inv {start : Str} {n : Nat} (hn : 2 ≤ n) {P : List Str} {id : Str} {st : Scan}
    (hnd : (P ++ [id]).Nodup) (h : InvAfter start n P st) : InvAfter start n (P ++ [id]) (stepAfter start n st id) := by
  obtain ⟨R, hp, hR, hlt, hfull⟩ := h.split
  have hPnd : P.Nodup := (List.nodup_append.1 hnd).1
  have hid : id ∉ P := by
    intro h'
    exact (List.nodup_append.1 hnd).2.2 id h' id (by simp) rfl
  have hsR : (st.s ++ R).Nodup := hp.nodup_iff.2 (hPnd.filter _)
  have hs_nd : st.s.Nodup := (List.nodup_append.1 hsR).1
  have hnotin : id ∉ st.s ++ R := by
    intro h'
    exact hid (List.mem_filter.1 (hp.mem_iff.1 h')).1
  unfold stepAfter
  by_cases hs : start < id
  · rw [if_pos hs]
    have hP : (P ++ [id]).filter (fun x => decide (start < x)) = P.filter (fun x => decide (start < x)) ++ [id] := by
      rw [filter_snoc, if_pos (by simpa using hs)]
    have hB : (P ++ [id]).filter (fun x => decide (¬ start < x)) = P.filter (fun x => decide (¬ start < x)) := by
      rw [filter_snoc, if_neg (by simpa using hs)]
    by_cases hl : st.s.length = n
    · rw [if_pos hl]
      have hne : st.s ≠ [] := by intro h'; rw [h'] at hl; simp at hl; omega
      have ⟨hm1, hm2⟩ := h.max hne
      by_cases hb : st.bound < id
      · simp only [if_pos hb]
        refine ⟨h.len, ⟨R ++ [id], ?_, ?_, ?_, fun _ => hl⟩, ?_, h.max, h.none⟩
        · rw [hP, ← List.append_assoc]
          exact hp.append_right _
        · simp [hR]
        · intro r hr x hx
          rcases List.mem_append.1 hr with hr | hr
          · exact hlt r hr x hx
          · simp at hr
            subst hr
            by_cases he : st.bound = x
            · subst he; exact hb
            · exact slt_trans (slt_tri (hm2 x hx) he) hb
        · rw [hB]; exact h.before
      · simp only [if_neg hb]
        have hl' : (sortIDs st.s).length = n := by rw [sortIDs_length, hl]
        obtain ⟨f, x, m, he, hx, hset⟩ := set_last hl' hn
        have hsorted := sortIDs_sorted hs_nd
        have hperm := sortIDs_perm st.s
        rw [he] at hsorted hperm
        rw [hx, hset]
        simp only [Option.getD_some]
        have hso := List.pairwise_append.1 hsorted
        have hfx : ∀ y ∈ f, y < x ∧ y < m := fun y hy => ⟨hso.2.2 y hy x (by simp), hso.2.2 y hy m (by simp)⟩
        have hxm : x < m := by
          have := List.pairwise_cons.1 hso.2.1
          exact this.1 m (by simp)
        have hmin : m ∈ st.s := hperm.mem_iff.1 (by simp)
        have hbm : st.bound = m := by
          have h1 := hm2 m hmin
          have h2 := hperm.mem_iff.2 hm1
          apply Decidable.byContradiction
          intro hne'
          simp only [List.mem_append, List.mem_cons, List.not_mem_nil, or_false] at h2
          rcases h2 with h2 | h2 | h2
          · exact h1 (hfx _ h2).2
          · rw [h2] at h1; exact h1 hxm
          · exact hne' h2
        have hidm : id < m := by
          rw [hbm] at hb
          exact slt_tri hb (by rintro rfl; exact hnotin (List.mem_append_left _ hmin))
        have hfin : ∀ y ∈ f ++ [x], y ∈ st.s := fun y hy => hperm.mem_iff.1 (by
          simp only [List.mem_append, List.mem_cons, List.not_mem_nil, or_false] at hy ⊢
          rcases hy with hy | hy
          · exact Or.inl hy
          · exact Or.inr (Or.inl hy))
        refine ⟨?_, ⟨m :: R, ?_, ?_, ?_, ?_⟩, ?_, ?_, ?_⟩
        · rw [← hl', he]; simp
        · rw [hP]
          have h1 : (f ++ [x, id] ++ m :: R).Perm (f ++ [x, m] ++ R ++ [id]) := by
            simp only [List.append_assoc, List.cons_append, List.nil_append]
            refine List.Perm.append_left f (List.Perm.cons x ?_)
            refine (List.Perm.swap m id R).trans (List.Perm.cons m ?_)
            exact (List.perm_append_comm (l₁ := [id]))
          exact h1.trans (((hperm.append_right R).trans hp).append_right [id])
        · simp [hR]
        · intro r hr y hy
          have hy' : y ∈ f ++ [x] ∨ y = id := by
            simp only [List.mem_append, List.mem_cons, List.not_mem_nil, or_false] at hy ⊢
            rcases hy with hy | hy | hy
            · exact Or.inl (Or.inl hy)
            · exact Or.inl (Or.inr hy)
            · exact Or.inr hy
          rcases List.mem_cons.1 hr with rfl | hr
          · rcases hy' with hy' | rfl
            · simp only [List.mem_append, List.mem_cons, List.not_mem_nil, or_false] at hy'
              rcases hy' with hy' | rfl
              · exact (hfx _ hy').2
              · exact hxm
            · exact hidm
          · rcases hy' with hy' | rfl
            · exact hlt r hr y (hfin y hy')
            · exact slt_trans hidm (hlt r hr m hmin)
        · intro _
          rw [← hl', he]; simp
        · rw [hB]; exact h.before
        · intro _
          by_cases hxi : x < id
          · rw [if_pos hxi]
            refine ⟨by simp, ?_⟩
            intro y hy
            simp only [List.mem_append, List.mem_cons, List.not_mem_nil, or_false] at hy
            rcases hy with hy | rfl | rfl
            · intro h'; exact slt_irrefl _ (slt_trans h' (slt_trans (hfx y hy).1 hxi))
            · intro h'; exact slt_irrefl _ (slt_trans h' hxi)
            · exact slt_irrefl _
          · rw [if_neg hxi]
            refine ⟨by simp, ?_⟩
            intro y hy
            simp only [List.mem_append, List.mem_cons, List.not_mem_nil, or_false] at hy
            rcases hy with hy | rfl | rfl
            · intro h'; exact slt_irrefl _ (slt_trans h' (hfx y hy).1)
            · exact slt_irrefl _
            · exact hxi
        · intro h'; simp at h'
    · rw [if_neg hl]
      have hRn : R = [] := Decidable.byContradiction fun h' => hl (hfull h')
      subst hRn
      have hlen := h.len
      refine ⟨?_, ⟨[], ?_, ?_, ?_, fun h' => absurd rfl h'⟩, ?_, ?_, ?_⟩
      · simp only [List.length_append, List.length_cons, List.length_nil]; omega
      · rw [hP]
        simp only [List.append_nil] at hp ⊢
        exact hp.append_right _
      · simpa using hR
      · simp
      · rw [hB]; exact h.before
      · intro _
        show (if st.bound < id then id else st.bound) ∈ st.s ++ [id] ∧ _
        by_cases hne : st.s = []
        · have hbd := h.none hne
          rw [hne, hbd]
          simp only [List.nil_append]
          have hid0 : ([] : Str) < id := by
            cases id with
            | nil => exact absurd hs (not_lt_nil _)
            | cons => simp
          rw [if_pos hid0]
          exact ⟨by simp, by intro x hx; simp at hx; subst hx; exact slt_irrefl _⟩
        · have ⟨hm1, hm2⟩ := h.max hne
          by_cases hb : st.bound < id
          · rw [if_pos hb]
            refine ⟨by simp, ?_⟩
            intro x hx
            rcases List.mem_append.1 hx with hx | hx
            · intro h'; exact hm2 x hx (slt_trans hb h')
            · simp at hx; subst hx; exact slt_irrefl _
          · rw [if_neg hb]
            refine ⟨List.mem_append_left _ hm1, ?_⟩
            intro x hx
            rcases List.mem_append.1 hx with hx | hx
            · exact hm2 x hx
            · simp at hx; subst hx; exact hb
      · intro h'; simp at h'
  · rw [if_neg hs]
    have hP : (P ++ [id]).filter (fun x => decide (start < x)) = P.filter (fun x => decide (start < x)) := by
      rw [filter_snoc, if_neg (by simpa using hs)]
    have hB : (P ++ [id]).filter (fun x => decide (¬ start < x)) = P.filter (fun x => decide (¬ start < x)) ++ [id] := by
      rw [filter_snoc, if_pos (by simpa using hs)]
    refine ⟨h.len, ⟨R, ?_, hR, hlt, hfull⟩, ?_, h.max, h.none⟩
    · rw [hP]; exact hp
    · rw [hB]
      simp [h.before]

theorem foldl_inv {α β : Type} (I : List α → β → Prop) (f : β → α → β) :
    ∀ (l P : List α) (b : β), (P ++ l).Nodup → I P b →
      (∀ P x b, (P ++ [x]).Nodup → I P b → I (P ++ [x]) (f b x)) → I (P ++ l) (l.foldl f b)
  | [], P, b, _, hb, _ => by simpa using hb
  | x :: l, P, b, hnd, hb, hs => by
    have e : P ++ x :: l = (P ++ [x]) ++ l := by simp
    rw [e] at hnd ⊢
    exact foldl_inv I f l (P ++ [x]) (f b x) hnd
      (hs P x b ((List.nodup_append.1 hnd).1) hb) hs

theorem scanAfter_inv {start : Str} {n : Nat} (hn : 2 ≤ n) {ids : List Str} (h : ids.Nodup) :
    InvAfter start n ids (ids.foldl (stepAfter start n) {}) := by
  have := foldl_inv (InvAfter start n) (stepAfter start n) ids [] {} (by simpa using h)
    ⟨by simp, ⟨[], by simp⟩, by simp, fun h => absurd rfl h, fun _ => rfl⟩
    fun P x b hnd hb => stepAfter_inv hn hnd hb
  simpa using this

/-! ### Backward -/

/-- State of the backward scan after the IDs `P`. Elements not kept are below all kept ones with the
possible exception of the smallest kept one. -/
structure InvBefore (stop : Str) (n : Nat) (P : List Str) (st : Scan) : Prop where
  len : st.s.length ≤ n
  split : ∃ R, (st.s ++ R).Perm (P.filter fun id => decide (id < stop)) ∧ R.length = st.page.before ∧
    (∀ r ∈ R, ∀ x ∈ st.s, x = st.bound ∨ r < x) ∧ (R ≠ [] → st.s.length = n) ∧
    ((∀ id, (P.filter fun id => decide (id < stop))[n]? = some id →
      ∃ x ∈ (P.filter fun id => decide (id < stop)).take n, x < id) → ∀ r ∈ R, ∀ x ∈ st.s, r < x)
  after : st.page.after = (P.filter fun id => decide (¬ id < stop)).length
  min : st.page.before ≠ 0 → st.bound ∈ st.s ∧ ∀ x ∈ st.s, ¬ x < st.bound
  none : st.page.before = 0 → st.bound = [] ∧ st.s = P.filter fun id => decide (id < stop)

theorem stepBefore_inv {stop : Str} {n : Nat} (hn : 2 ≤ n) {P : List Str} {id : Str} {st : Scan}
    (hnd : (P ++ [id]).Nodup) (h : InvBefore stop n P st) : InvBefore stop n (P ++ [id]) (stepBefore stop n st id) := by
  obtain ⟨R, hp, hR, hlt, hfull, hex⟩ := h.split
  have hPnd : P.Nodup := (List.nodup_append.1 hnd).1
  have hid : id ∉ P := by
    intro h'
    exact (List.nodup_append.1 hnd).2.2 id h' id (by simp) rfl
  have hsR : (st.s ++ R).Nodup := hp.nodup_iff.2 (hPnd.filter _)
  have hs_nd : st.s.Nodup := (List.nodup_append.1 hsR).1
  have hnotin : id ∉ st.s ++ R := by
    intro h'
    exact hid (List.mem_filter.1 (hp.mem_iff.1 h')).1
  unfold stepBefore
  by_cases hs : id < stop
  · rw [if_pos hs]
    have hP : (P ++ [id]).filter (fun x => decide (x < stop)) = P.filter (fun x => decide (x < stop)) ++ [id] := by
      rw [filter_snoc, if_pos (by simpa using hs)]
    have hB : (P ++ [id]).filter (fun x => decide (¬ x < stop)) = P.filter (fun x => decide (¬ x < stop)) := by
      rw [filter_snoc, if_neg (by simpa using hs)]
    have hlenM : (P.filter fun x => decide (x < stop)).length = st.s.length + st.page.before := by
      rw [← hp.length_eq, List.length_append, hR]
    by_cases hl : st.s.length = n
    · rw [if_pos hl]
      have hexOld : (∀ i, (P.filter (fun x => decide (x < stop)) ++ [id])[n]? = some i →
          ∃ x ∈ (P.filter (fun x => decide (x < stop)) ++ [id]).take n, x < i) →
          ∀ r ∈ R, ∀ x ∈ st.s, r < x := by
        intro hc
        apply hex
        intro i hi
        have hlt' : n < (P.filter fun x => decide (x < stop)).length := by
          have := List.getElem?_eq_some_iff.1 hi
          exact this.1
        have := hc i (by rw [List.getElem?_append_left hlt']; exact hi)
        rwa [List.take_append_of_le_length (by omega)] at this
      by_cases hb : id < st.bound
      · simp only [if_pos hb]
        have hb0 : st.page.before ≠ 0 := by
          intro h0
          rw [(h.none h0).1] at hb
          exact not_lt_nil _ hb
        have ⟨hm1, hm2⟩ := h.min hb0
        have hidlt : ∀ x ∈ st.s, id < x := by
          intro x hx
          by_cases he : x = st.bound
          · subst he; exact hb
          · exact slt_trans hb (slt_tri (hm2 x hx) he)
        refine ⟨h.len, ⟨R ++ [id], ?_, ?_, ?_, fun _ => hl, ?_⟩, ?_, fun _ => h.min hb0, fun h' => by simp at h'⟩
        · rw [hP, ← List.append_assoc]
          exact hp.append_right _
        · simp [hR]
        · intro r hr x hx
          rcases List.mem_append.1 hr with hr | hr
          · exact hlt r hr x hx
          · simp at hr
            subst hr
            exact Or.inr (hidlt x hx)
        · rw [hP]
          intro hc r hr x hx
          rcases List.mem_append.1 hr with hr | hr
          · exact hexOld hc r hr x hx
          · simp at hr
            subst hr
            exact hidlt x hx
        · rw [hB]; exact h.after
      · simp only [if_neg hb]
        have hl' : (sortIDs st.s).length = n := by rw [sortIDs_length, hl]
        obtain ⟨m, x, f, he⟩ : ∃ m x f, sortIDs st.s = m :: x :: f := by
          match hh : sortIDs st.s with
          | [] => rw [hh] at hl'; simp at hl'; omega
          | [a] => rw [hh] at hl'; simp at hl'; omega
          | a :: b :: f => exact ⟨a, b, f, rfl⟩
        have hsorted := sortIDs_sorted hs_nd
        have hperm := sortIDs_perm st.s
        rw [he] at hsorted hperm ⊢
        have ⟨ho1, ho2⟩ := List.pairwise_cons.1 hsorted
        have ⟨ho3, ho4⟩ := List.pairwise_cons.1 ho2
        have hmx : m < x := ho1 x (by simp)
        have hmin : m ∈ st.s := hperm.mem_iff.1 (by simp)
        have hxin : ∀ y ∈ x :: f, y ∈ st.s := fun y hy => hperm.mem_iff.1 (List.mem_cons_of_mem _ hy)
        have hbm : st.page.before ≠ 0 → st.bound = m := by
          intro hb0
          have ⟨hm1, hm2⟩ := h.min hb0
          rcases List.mem_cons.1 (hperm.mem_iff.2 hm1) with h2 | h2
          · exact h2
          · exact absurd (ho1 _ h2) (hm2 m hmin)
        have hset : (m :: x :: f).set 0 id = id :: x :: f := rfl
        have hget : ((m :: x :: f)[1]?).getD [] = x := rfl
        rw [hset, hget]
        have hnotm : id ≠ m := by rintro rfl; exact hnotin (List.mem_append_left _ hmin)
        -- the new smallest element
        have hbound : (if id < x then id else x) ∈ id :: x :: f ∧
            ∀ y ∈ id :: x :: f, ¬ y < (if id < x then id else x) := by
          by_cases hix : id < x
          · rw [if_pos hix]
            refine ⟨by simp, ?_⟩
            intro y hy
            simp only [List.mem_cons] at hy
            rcases hy with rfl | rfl | hy
            · exact slt_irrefl _
            · intro h'; exact slt_irrefl _ (slt_trans h' hix)
            · intro h'; exact slt_irrefl _ (slt_trans (slt_trans h' hix) (ho3 y hy))
          · rw [if_neg hix]
            refine ⟨by simp, ?_⟩
            intro y hy
            simp only [List.mem_cons] at hy
            rcases hy with rfl | rfl | hy
            · exact hix
            · exact slt_irrefl _
            · intro h'; exact slt_irrefl _ (slt_trans h' (ho3 y hy))
        refine ⟨?_, ⟨m :: R, ?_, ?_, ?_, ?_, ?_⟩, ?_, fun _ => hbound, fun h' => by simp at h'⟩
        · rw [← hl', he]; simp
        · rw [hP]
          have h1 : (id :: x :: f ++ m :: R).Perm (m :: x :: f ++ R ++ [id]) := by
            have h2 : (m :: x :: f ++ R ++ [id]).Perm (id :: (m :: x :: f ++ R)) := List.perm_append_comm
            refine List.Perm.trans ?_ h2.symm
            refine List.Perm.cons id ?_
            exact List.perm_middle (l₁ := x :: f)
          exact h1.trans (((hperm.append_right R).trans hp).append_right [id])
        · simp [hR]
        · -- all but the smallest kept
          intro r hr y hy
          have key : ∀ y ∈ x :: f, r < y := by
            intro y hy
            rcases List.mem_cons.1 hr with rfl | hr'
            · exact ho1 y hy
            · have hb0 : st.page.before ≠ 0 := by
                rw [← hR]; intro h0
                have := List.length_eq_zero_iff.1 h0
                rw [this] at hr'; simp at hr'
              rcases hlt r hr' y (hxin y hy) with h' | h'
              · rw [hbm hb0] at h'
                exact absurd (ho1 y hy) (by rw [h']; exact slt_irrefl _)
              · exact h'
          rcases List.mem_cons.1 hy with rfl | hy
          · by_cases hix : y < x
            · exact Or.inl (by simp only [if_pos hix])
            · right
              by_cases he2 : y = x
              · rw [he2]; exact key x (by simp)
              · exact slt_trans (key x (by simp)) (slt_tri hix he2)
          · exact Or.inr (key y hy)
        · intro _
          rw [← hl', he]; simp
        · -- exact case
          rw [hP]
          intro hc r hr y hy
          have hold := hexOld hc
          have hmid : m < id := by
            by_cases hb0 : st.page.before = 0
            · have hsM := (h.none hb0).2
              have hget : (P.filter (fun x => decide (x < stop)) ++ [id])[n]? = some id := by
                rw [← hsM, List.getElem?_append_right (by omega), hl]; simp
              obtain ⟨z, hz, hzid⟩ := hc id hget
              rw [← hsM, List.take_append_of_le_length (by omega), ← hl, List.take_length] at hz
              rcases List.mem_cons.1 (hperm.mem_iff.2 hz) with rfl | hz'
              · exact hzid
              · exact slt_trans (ho1 z hz') hzid
            · rw [hbm hb0] at hb
              exact slt_tri hb hnotm
          rcases List.mem_cons.1 hr with rfl | hr'
          · rcases List.mem_cons.1 hy with rfl | hy
            · exact hmid
            · exact ho1 y hy
          · rcases List.mem_cons.1 hy with rfl | hy
            · exact slt_trans (hold r hr' m hmin) hmid
            · exact hold r hr' y (hxin y hy)
        · rw [hB]; exact h.after
    · rw [if_neg hl]
      have hRn : R = [] := Decidable.byContradiction fun h' => hl (hfull h')
      have hb0 : st.page.before = 0 := by rw [← hR, hRn]; rfl
      subst hRn
      have hlen := h.len
      have ⟨hn1, hn2⟩ := h.none hb0
      refine ⟨?_, ⟨[], ?_, ?_, ?_, fun h' => absurd rfl h', ?_⟩, ?_, fun h' => absurd hb0 h', fun _ => ?_⟩
      · simp only [List.length_append, List.length_cons, List.length_nil]; omega
      · rw [hP]
        simp only [List.append_nil] at hp ⊢
        exact hp.append_right _
      · simpa using hR
      · simp
      · simp
      · rw [hB]; exact h.after
      · rw [hP]
        refine ⟨?_, ?_⟩
        · show (if id < st.bound then id else st.bound) = []
          rw [hn1, if_neg (not_lt_nil _)]
        · show st.s ++ [id] = _
          rw [← hn2]
  · rw [if_neg hs]
    have hP : (P ++ [id]).filter (fun x => decide (x < stop)) = P.filter (fun x => decide (x < stop)) := by
      rw [filter_snoc, if_neg (by simpa using hs)]
    have hB : (P ++ [id]).filter (fun x => decide (¬ x < stop)) = P.filter (fun x => decide (¬ x < stop)) ++ [id] := by
      rw [filter_snoc, if_pos (by simpa using hs)]
    refine ⟨h.len, ⟨R, ?_, hR, hlt, hfull, ?_⟩, ?_, h.min, ?_⟩
    · rw [hP]; exact hp
    · rw [hP]; exact hex
    · rw [hB]
      simp [h.after]
    · rw [hP]; exact h.none

theorem scanBefore_inv {stop : Str} {n : Nat} (hn : 2 ≤ n) {ids : List Str} (h : ids.Nodup) :
    InvBefore stop n ids (ids.foldl (stepBefore stop n) {}) := by
  have := foldl_inv (InvBefore stop n) (stepBefore stop n) ids [] {} (by simpa using h)
    ⟨by simp, ⟨[], by simp⟩, by simp, fun h => absurd rfl h, fun _ => by simp⟩
    fun P x b hnd hb => stepBefore_inv hn hnd hb
  simpa using this

/-! ### Fetching -/

theorem byID_of_mem {lists : List Entry} (hnd : (lists.map (·.id)).Nodup) {e : Entry} (he : e ∈ lists) :
    byID lists e.id = some e := by
  unfold byID
  induction lists with
  | nil => simp at he
  | cons a l ih =>
    rw [List.map_cons, List.nodup_cons] at hnd
    rw [List.find?_cons]
    rcases List.mem_cons.1 he with rfl | he
    · simp
    · have hne : (a.id == e.id) = false := by
        simp only [beq_eq_false_iff_ne, ne_eq]
        intro h'
        exact hnd.1 (h' ▸ List.mem_map_of_mem he)
      rw [hne]
      exact ih hnd.2 he

theorem byID_some {lists : List Entry} {id : Str} {e : Entry} (h : byID lists id = some e) :
    e ∈ lists ∧ e.id = id := by
  unfold byID at h
  exact ⟨List.mem_of_find?_eq_some h, by simpa using List.find?_some h⟩

theorem fetch_spec {lists : List Entry} (hnd : (lists.map (·.id)).Nodup) {n : Nat} {s : List Str}
    (hs : ∀ x ∈ s, x ∈ lists.map (·.id)) (hl : s.length ≤ n) :
    (fetch lists n s).map (·.id) = s ∧ ∀ e ∈ fetch lists n s, e ∈ lists := by
  have h1 : (s.filterMap (byID lists)).map (·.id) = s := by
    clear hl
    induction s with
    | nil => rfl
    | cons a s ih =>
      obtain ⟨e, he, rfl⟩ := List.mem_map.1 (hs a (by simp))
      rw [List.filterMap_cons, byID_of_mem hnd he]
      simp only [List.map_cons]
      rw [ih (fun x hx => hs x (by simp [hx]))]
  have hlen : (s.filterMap (byID lists)).length = s.length := by
    rw [← List.length_map (f := (·.id)), h1]
  unfold fetch
  rw [List.take_of_length_le (by omega)]
  refine ⟨h1, ?_⟩
  intro e he
  obtain ⟨x, _, hx⟩ := List.mem_filterMap.1 he
  exact (byID_some hx).1

end RankDB.Catalogue

import Verif.Spec.Cache
/-
The cache of segments: memory and the invariant.
-/
namespace RankDB.Cache
open Spec

theorem cells_set {m : Mem} {a b : Nat} {l : List Element} (h : a < m.length) :
    cells (m.set a l) b = if b = a then l else cells m b := by
  unfold cells
  by_cases hb : b = a
  · subst hb; simp [h]
  · rw [if_neg hb, List.getElem?_set_ne (by omega)]

theorem cells_alloc {m : Mem} {l : List Element} {spare b : Nat} :
    cells (alloc m l spare).1 b = if b = m.length then l ++ List.replicate spare default else cells m b := by
  unfold cells alloc
  by_cases hb : b = m.length
  · subst hb; simp
  · rw [if_neg hb]
    by_cases h : b < m.length
    · simp [List.getElem?_append_left h]
    · simp only []
      rw [List.getElem?_eq_none (by simp; omega), List.getElem?_eq_none (by omega)]

theorem compact_spec {del : Nat → Bool} {a : Nat} : ∀ {fuel i w : Nat} {m : Mem}, a < m.length → w ≤ i →
    i + fuel ≤ (cells m a).length →
    let r := compact del a fuel i w m
    let K := (((cells m a).drop i).take fuel).filter fun e => !del e.id
    r.1.length = m.length ∧ r.2 = w + K.length ∧
    cells r.1 a = (cells m a).take w ++ K ++ (cells m a).drop (w + K.length) ∧
    ∀ b, b ≠ a → cells r.1 b = cells m b
  | 0, i, w, m, ha, hw, hi => by
    simp [compact]
  | fuel + 1, i, w, m, ha, hw, hi => by
    have hlt : i < (cells m a).length := by omega
    have hget : ((cells m a)[i]?).getD default = (cells m a)[i] := by simp [hlt]
    have hdrop : (cells m a).drop i = (cells m a)[i] :: (cells m a).drop (i + 1) := by
      rw [List.drop_eq_getElem_cons hlt]
    simp only [compact, hget]
    rw [hdrop, List.take_succ_cons, List.filter_cons]
    by_cases hd : del ((cells m a)[i]).id = true
    · rw [if_pos hd]
      simp only [hd, Bool.not_true, Bool.false_eq_true, if_false]
      exact compact_spec ha (by omega) (by omega)
    · rw [if_neg hd]
      simp only [hd, Bool.not_false, if_true]
      have hc : cells (setCell m a w (cells m a)[i]) a = (cells m a).set w (cells m a)[i] := by
        unfold setCell; rw [cells_set ha, if_pos rfl]
      have hlen : (setCell m a w (cells m a)[i]).length = m.length := by unfold setCell; simp
      obtain ⟨r1, r2, r3, r4⟩ := compact_spec (del := del) (a := a) (fuel := fuel) (i := i + 1) (w := w + 1)
        (m := setCell m a w (cells m a)[i]) (by omega) (by omega) (by rw [hc, List.length_set]; omega)
      have hdr : ∀ n, w < n → ((cells m a).set w (cells m a)[i]).drop n = (cells m a).drop n := by
        intro n hn
        rw [List.drop_set, if_pos hn]
      rw [hc, hdr (i + 1) (by omega)] at r2 r3
      refine ⟨by rw [r1, hlen], ?_, ?_, ?_⟩
      · rw [r2, List.length_cons]; omega
      · rw [r3, hdr _ (by omega)]
        have ht : ((cells m a).set w (cells m a)[i]).take (w + 1) = (cells m a).take w ++ [(cells m a)[i]] := by
          rw [List.take_succ_eq_append_getElem (by rw [List.length_set]; omega), List.take_set_of_le (by omega)]
          simp
        rw [ht]
        simp only [List.append_assoc, List.cons_append, List.nil_append, List.length_cons]
        congr 4
        omega
      · intro b hb
        rw [r4 b hb]
        unfold setCell
        rw [cells_set ha, if_neg hb]

/-- A slice in memory. -/
def Valid (m : Mem) (s : Slice) : Prop := s.arr < m.length ∧ s.len ≤ (cells m s.arr).length

theorem alloc_valid {m : Mem} {l : List Element} {spare : Nat} :
    Valid (alloc m l spare).1 (alloc m l spare).2 ∧ read (alloc m l spare).1 (alloc m l spare).2 = l := by
  unfold Valid read
  rw [show (alloc m l spare).2.arr = m.length from rfl, cells_alloc, if_pos rfl]
  simp [alloc]

theorem alloc_length {m : Mem} {l : List Element} {spare : Nat} : (alloc m l spare).1.length = m.length + 1 := by
  simp [alloc]

/-- What a change does to memory. -/
theorem change_spec {m : Mem} {s : Slice} (c : Change) (h : Valid m s) :
    let r := change m s c
    Valid r.1 r.2 ∧ read r.1 r.2 = c.result (read m s) ∧ m.length ≤ r.1.length ∧
    (r.2.arr = s.arr ∨ r.2.arr = m.length) ∧
    (∀ a, a < m.length → a ≠ s.arr → cells r.1 a = cells m a) ∧
    (cells r.1 s.arr).length = (cells m s.arr).length ∧
    (isFresh c = true → cells r.1 s.arr = cells m s.arr) := by
  obtain ⟨ha, hl⟩ := h
  cases c with
  | delete del =>
    obtain ⟨r1, r2, r3, r4⟩ := compact_spec (del := del) (a := s.arr) (fuel := s.len) (i := 0) (w := 0) (m := m)
      ha (by omega) (by omega)
    simp only [List.drop_zero, List.take_zero, List.nil_append, Nat.zero_add] at r2 r3
    have hle : (((cells m s.arr).take s.len).filter fun e => !del e.id).length ≤ (cells m s.arr).length :=
      Nat.le_trans (List.length_filter_le _ _) (by rw [List.length_take]; omega)
    have hlen : (cells (compact del s.arr s.len 0 0 m).1 s.arr).length = (cells m s.arr).length := by
      rw [r3, List.length_append, List.length_drop]; omega
    simp only [change, Change.result, isFresh]
    refine ⟨⟨by simp only []; omega, by simp only []; rw [hlen, r2]; exact hle⟩, ?_, by omega, by simp,
      fun a _ hne => r4 a hne, hlen, by simp⟩
    unfold read
    simp only []
    rw [r3, r2, List.take_left']
    rfl
  | inPlace f =>
    simp only [change, Change.result, isFresh]
    split
    · rename_i hfit
      have hc : ∀ b, cells (m.set s.arr (f (read m s) ++ (cells m s.arr).drop (f (read m s)).length)) b =
          if b = s.arr then f (read m s) ++ (cells m s.arr).drop (f (read m s)).length else cells m b :=
        fun b => cells_set ha
      have hlen : (f (read m s) ++ (cells m s.arr).drop (f (read m s)).length).length = (cells m s.arr).length := by
        rw [List.length_append, List.length_drop]; omega
      refine ⟨⟨by simpa using ha, by simp only []; rw [hc, if_pos rfl, hlen]; exact hfit⟩, ?_, by simp, by simp,
        fun a _ hne => by rw [hc, if_neg hne], by rw [hc, if_pos rfl, hlen], by simp⟩
      have : ∀ m', read m' ⟨s.arr, (f (read m s)).length⟩ = (cells m' s.arr).take (f (read m s)).length := fun _ => rfl
      rw [this, hc, if_pos rfl, List.take_left']
      rfl
    · refine ⟨alloc_valid.1, alloc_valid.2, by rw [alloc_length]; omega, .inr rfl, ?_, ?_, by simp⟩
      · intro a h1 _; rw [cells_alloc, if_neg (by omega)]
      · rw [cells_alloc, if_neg (by omega)]
  | fresh f spare =>
    simp only [change, Change.result, isFresh]
    refine ⟨alloc_valid.1, alloc_valid.2, by rw [alloc_length]; omega, .inr rfl, ?_, ?_, fun _ => ?_⟩
    · intro a h1 _; rw [cells_alloc, if_neg (by omega)]
    · rw [cells_alloc, if_neg (by omega)]
    · rw [cells_alloc, if_neg (by omega)]

/-- Cached slices are in memory and do not share arrays. -/
structure Separate (st : State) : Prop where
  valid : ∀ p i s, st.cache p i = some s → Valid st.mem s
  apart : ∀ p i s p' i' s', st.cache p i = some s → st.cache p' i' = some s' → s.arr = s'.arr → p = p' ∧ i = i'

/-- For the segments with `P` the storage and the cache have what was saved last. -/
structure Right (owner : Str → Str) (P : Key → Prop) (st : State) (m : Saved) : Prop where
  store : ∀ k, owner k.parent = k.set → P k → st.store k = m k
  cache : ∀ k s, owner k.parent = k.set → P k → st.cache k.parent k.id = some s → m k = some (read st.mem s)

theorem key_ext {owner : Str → Str} {k k' : Key} (h : owner k.parent = k.set) (h' : owner k'.parent = k'.set)
    (hp : k'.parent = k.parent) (hi : k'.id = k.id) : k' = k := by
  cases k; cases k'; simp_all

theorem load_spec {owner : Str → Str} {P : Key → Prop} {st : State} {m : Saved} (spare : Nat) {k : Key}
    (hk : owner k.parent = k.set) (hs : Separate st) (hr : Right owner P st m) :
    let r := load true spare st k
    Separate r.1 ∧ Right owner P r.1 m ∧ r.1.store = st.store ∧ r.1.n = st.n ∧
    (P k → r.2.map (read r.1.mem) = m k) ∧
    (∀ s, r.2 = some s → r.1.cache k.parent k.id = some s) := by
  unfold load
  cases hc : st.cache k.parent k.id with
  | some s =>
    rw [if_pos rfl]
    refine ⟨hs, hr, rfl, rfl, fun hp => ?_, fun s' h => ?_⟩
    · rw [hr.cache k s hk hp hc]; rfl
    · cases h; exact hc
  | none =>
    rw [if_pos rfl]
    simp only [if_true]
    cases hst : st.store k with
    | none =>
      refine ⟨hs, hr, rfl, rfl, fun hp => ?_, fun s' h => by cases h⟩
      rw [← hr.store k hk hp, hst]; rfl
    | some l =>
      simp only []
      have hv : ∀ s, Valid st.mem s → Valid (alloc st.mem l spare).1 s ∧
          read (alloc st.mem l spare).1 s = read st.mem s := by
        intro s ⟨h1, h2⟩
        have hcell : cells (alloc st.mem l spare).1 s.arr = cells st.mem s.arr := by
          rw [cells_alloc, if_neg (by omega)]
        exact ⟨⟨by rw [alloc_length]; omega, by rw [hcell]; exact h2⟩, by unfold read; rw [hcell]⟩
      refine ⟨⟨?_, ?_⟩, ⟨?_, ?_⟩, rfl, rfl, fun hp => ?_, fun s' h => ?_⟩
      · intro p i s h
        simp only [State.cacheAdd] at h
        split at h
        · cases h; exact alloc_valid.1
        · exact (hv s (hs.valid p i s h)).1
      · intro p i s p' i' s' h h' he
        simp only [State.cacheAdd] at h h'
        split at h <;> split at h'
        · rename_i a b; exact ⟨a.1.trans b.1.symm, a.2.trans b.2.symm⟩
        · cases h
          have := (hs.valid p' i' s' h').1
          exact absurd he (Nat.ne_of_gt this)
        · cases h'
          have := (hs.valid p i s h).1
          exact absurd he (Nat.ne_of_lt this)
        · exact hs.apart p i s p' i' s' h h' he
      · intro k' h1 h2; exact hr.store k' h1 h2
      · intro k' s h1 h2 h
        simp only [State.cacheAdd] at h
        split at h
        · rename_i a
          have : k' = k := key_ext hk h1 a.1 a.2
          subst this
          cases h
          simp only [State.cacheAdd]
          rw [alloc_valid.2, ← hr.store k' h1 h2, hst]
        · simp only [State.cacheAdd]
          rw [(hv s (hs.valid _ _ s h)).2]
          exact hr.cache k' s h1 h2 h
      · simp only [State.cacheAdd, Option.map_some]
        rw [alloc_valid.2, ← hr.store k hk hp, hst]
      · cases h; simp [State.cacheAdd]

theorem step_other {m : Saved} {op : Op} {k : Key} (h : keyOf op ≠ some k) : m.step op k = m k := by
  have key : ∀ {k' l}, k' ≠ k → Saved.put m k' l k = m k := by
    intro k' l h; unfold Saved.put; rw [if_neg (fun e => h e.symm)]
  cases op with
  | read => rfl
  | evict => rfl
  | drop k' => exact key (fun e => h (by rw [e]; rfl))
  | create k' l b => cases b; · rfl
                     · exact key (fun e => h (by rw [e]; rfl))
  | remove k' b => cases b; · rfl
                   · exact key (fun e => h (by rw [e]; rfl))
  | modify k' sp c b =>
    cases b
    · rfl
    · simp only [Saved.step]
      cases m k' with
      | some l => exact key (fun e => h (by rw [e]; rfl))
      | none => rfl

theorem start_right (owner : Str → Str) (P : Key → Prop) (store : Key → Option (List Element)) :
    Separate (start store) ∧ Right owner P (start store) store :=
  ⟨⟨fun _ _ _ h => (by cases h), fun _ _ _ _ _ _ h => (by cases h)⟩,
    ⟨fun _ _ _ => rfl, fun _ _ _ _ h => (by cases h)⟩⟩

/-- A new array for a segment: what `create` does. -/
theorem create_spec {owner : Str → Str} {P : Key → Prop} {st : State} {m : Saved} {k : Key} (l : List Element)
    (saved : Bool) (hk : owner k.parent = k.set) (hs : Separate st) (hr : Right owner P st m) :
    let st' := step true st (.create k l saved)
    Separate st' ∧ Right owner P st' (m.step (.create k l saved)) := by
  have hv : ∀ s, Valid st.mem s → Valid (alloc st.mem l 0).1 s ∧
      read (alloc st.mem l 0).1 s = read st.mem s := by
    intro s ⟨h1, h2⟩
    have hcell : cells (alloc st.mem l 0).1 s.arr = cells st.mem s.arr := by
      rw [cells_alloc, if_neg (by omega)]
    exact ⟨⟨by rw [alloc_length]; omega, by rw [hcell]; exact h2⟩, by unfold read; rw [hcell]⟩
  cases saved with
  | false =>
    simp only [step, replace, Saved.step]
    exact ⟨⟨fun p i s h => (hv s (hs.valid p i s h)).1, hs.apart⟩,
      ⟨hr.store, fun k' s h1 h2 h => by
        simp only [Bool.false_eq_true, if_false]
        rw [(hv s (hs.valid _ _ s h)).2]; exact hr.cache k' s h1 h2 h⟩⟩
  | true =>
    simp only [step, replace, Saved.step, if_true]
    refine ⟨⟨?_, ?_⟩, ⟨?_, ?_⟩⟩
    · intro p i s h
      simp only [State.cacheAdd, State.put] at h ⊢
      split at h
      · cases h; exact alloc_valid.1
      · exact (hv s (hs.valid p i s h)).1
    · intro p i s p' i' s' h h' he
      simp only [State.cacheAdd, State.put] at h h'
      split at h <;> split at h'
      · rename_i a b; exact ⟨a.1.trans b.1.symm, a.2.trans b.2.symm⟩
      · cases h
        have := (hs.valid p' i' s' h').1
        exact absurd he (Nat.ne_of_gt this)
      · cases h'
        have := (hs.valid p i s h).1
        exact absurd he (Nat.ne_of_lt this)
      · exact hs.apart p i s p' i' s' h h' he
    · intro k' h1 h2
      simp only [State.cacheAdd, State.put, Saved.put]
      split
      · rw [alloc_valid.2]
      · exact hr.store k' h1 h2
    · intro k' s h1 h2 h
      simp only [State.cacheAdd, State.put, Saved.put] at h ⊢
      split at h
      · rename_i a
        rw [if_pos (key_ext hk h1 a.1 a.2)]
        cases h
        rw [alloc_valid.2]
      · rename_i a
        rw [if_neg (by rintro rfl; exact a ⟨rfl, rfl⟩), (hv s (hs.valid _ _ s h)).2]
        exact hr.cache k' s h1 h2 h

theorem modify_spec {owner : Str → Str} {P : Key → Prop} {st : State} {m : Saved} {k : Key} (spare : Nat) (c : Change)
    (saved : Bool) (hk : owner k.parent = k.set) (hs : Separate st) (hr : Right owner P st m)
    (hc : P k → sound k (.modify k spare c saved)) :
    let st' := step true st (.modify k spare c saved)
    Separate st' ∧ Right owner P st' (m.step (.modify k spare c saved)) := by
  obtain ⟨ls, lr, lst, -, lv, lc⟩ := load_spec spare hk hs hr
  revert ls lr lst lv lc
  simp only [step, modify]
  generalize load true spare st k = r
  obtain ⟨st1, o⟩ := r
  intro ls lr lst lv lc
  simp only [] at ls lr lst lv lc
  have hother : ∀ k', k' ≠ k → m.step (.modify k spare c saved) k' = m k' := fun k' h =>
    step_other (by simpa [keyOf] using fun e => h e.symm)
  cases o with
  | none =>
    simp only []
    refine ⟨ls, ⟨fun k' h1 h2 => ?_, fun k' s h1 h2 h => ?_⟩⟩
    · by_cases e : k' = k
      · subst e
        have : m k' = none := (lv h2).symm
        rw [lr.store k' h1 h2]
        cases saved <;> simp [Saved.step, this]
      · rw [hother k' e]; exact lr.store k' h1 h2
    · by_cases e : k' = k
      · subst e
        have h0 : m k' = none := (lv h2).symm
        have := lr.cache k' s h1 h2 h
        rw [h0] at this; cases this
      · rw [hother k' e]; exact lr.cache k' s h1 h2 h
  | some s =>
    simp only []
    have hcs := lc s rfl
    have hvs := ls.valid _ _ s hcs
    obtain ⟨cv, cr, cl, ca, co, clen, cf⟩ := change_spec c hvs
    revert cv cr cl ca co clen cf
    generalize change st1.mem s c = r
    obtain ⟨mem2, s2⟩ := r
    intro cv cr cl ca co clen cf
    simp only [] at cv cr cl ca co clen cf
    have hv : ∀ p i s', st1.cache p i = some s' → Valid mem2 s' := by
      intro p i s' h
      have ⟨h1, h2⟩ := ls.valid p i s' h
      refine ⟨by omega, ?_⟩
      by_cases e : s'.arr = s.arr
      · rw [e, clen, ← e]; exact h2
      · rw [co _ h1 e]; exact h2
    have hrd : ∀ k' s', owner k'.parent = k'.set → k' ≠ k → st1.cache k'.parent k'.id = some s' →
        read mem2 s' = read st1.mem s' := by
      intro k' s' h1 hne h
      have hv' := ls.valid _ _ s' h
      unfold read
      rw [co _ hv'.1]
      intro e
      obtain ⟨h2, h3⟩ := ls.apart _ _ _ _ _ _ h hcs e
      exact hne (key_ext hk h1 h2 h3)
    cases saved with
    | false =>
      simp only [replace, Bool.false_eq_true, if_false]
      refine ⟨⟨hv, ls.apart⟩, ⟨lr.store, fun k' s' h1 h2 h => ?_⟩⟩
      simp only [Saved.step]
      rw [lr.cache k' s' h1 h2 h]
      by_cases e : k' = k
      · subst e
        have := cf (hc h2 rfl)
        rw [hcs] at h; cases h
        unfold read; rw [this]
      · rw [hrd k' s' h1 e h]
    | true =>
      simp only [replace, if_true]
      refine ⟨⟨?_, ?_⟩, ⟨?_, ?_⟩⟩
      · intro p i s' h
        simp only [State.cacheAdd, State.put] at h ⊢
        split at h
        · cases h; exact cv
        · exact hv p i s' h
      · have new : ∀ p i s', st1.cache p i = some s' → ¬ (p = k.parent ∧ i = k.id) → s'.arr ≠ s2.arr := by
          intro p i s' h hne e
          rcases ca with ca | ca
          · exact hne (ls.apart _ _ _ _ _ _ h hcs (by rw [e, ca]))
          · have := (ls.valid p i s' h).1; omega
        intro p i s1 p' i' s1' h h' he
        simp only [State.cacheAdd, State.put] at h h'
        split at h <;> split at h'
        · rename_i a b; exact ⟨a.1.trans b.1.symm, a.2.trans b.2.symm⟩
        · rename_i a b; cases h; exact absurd he.symm (new _ _ _ h' b)
        · rename_i a b; cases h'; exact absurd he (new _ _ _ h a)
        · exact ls.apart _ _ _ _ _ _ h h' he
      · intro k' h1 h2
        simp only [State.cacheAdd, State.put]
        by_cases e : k' = k
        · subst e
          have : m k' = some (read st1.mem s) := (lv h2).symm
          rw [if_pos rfl]
          simp only [Saved.step, this, Saved.put, if_pos]
          rw [cr]
        · rw [if_neg e, hother k' e]; exact lr.store k' h1 h2
      · intro k' s' h1 h2 h
        simp only [State.cacheAdd, State.put] at h ⊢
        split at h
        · rename_i a
          have e := key_ext hk h1 a.1 a.2
          subst e
          cases h
          have : m k' = some (read st1.mem s) := (lv h2).symm
          simp only [Saved.step, this, Saved.put, if_pos]
          rw [cr]
        · rename_i a
          have e : k' ≠ k := by rintro rfl; exact a ⟨rfl, rfl⟩
          rw [hother k' e, hrd k' s' h1 e h]
          exact lr.cache k' s' h1 h2 h

theorem step_spec {owner : Str → Str} {P : Key → Prop} {st : State} {m : Saved} {op : Op}
    (hk : ∀ k, keyOf op = some k → owner k.parent = k.set) (hP : ∀ k, P k → sound k op)
    (hs : Separate st) (hr : Right owner P st m) :
    Separate (step true st op) ∧ Right owner P (step true st op) (m.step op) := by
  cases op with
  | read k spare =>
    obtain ⟨h1, h2, -⟩ := load_spec spare (hk k rfl) hs hr
    exact ⟨h1, h2⟩
  | modify k spare c saved => exact modify_spec spare c saved (hk k rfl) hs hr (fun h => hP k h)
  | create k l saved => exact create_spec l saved (hk k rfl) hs hr
  | remove k deleted =>
    have hk := hk k rfl
    have hsep : Separate (st.cacheAdd k none) := by
      refine ⟨fun p i s h => ?_, fun p i s p' i' s' h h' he => ?_⟩
      · simp only [State.cacheAdd] at h ⊢
        split at h
        · cases h
        · exact hs.valid p i s h
      · simp only [State.cacheAdd] at h h'
        split at h <;> split at h'
        · cases h
        · cases h
        · cases h'
        · exact hs.apart p i s p' i' s' h h' he
    have hright : Right owner P (st.cacheAdd k none) m := by
      refine ⟨hr.store, fun k' s h1 h2 h => ?_⟩
      simp only [State.cacheAdd] at h ⊢
      split at h
      · cases h
      · exact hr.cache k' s h1 h2 h
    cases deleted with
    | false => exact ⟨hsep, hright⟩
    | true =>
      refine ⟨⟨hsep.valid, hsep.apart⟩, ⟨fun k' h1 h2 => ?_, fun k' s h1 h2 h => ?_⟩⟩
      · simp only [step, Saved.step, if_true, State.put, Saved.put]
        split
        · rfl
        · exact hright.store k' h1 h2
      · have h' : (st.cacheAdd k none).cache k'.parent k'.id = some s := h
        have hne : k' ≠ k := by
          rintro rfl
          simp [State.cacheAdd] at h'
        simp only [step, Saved.step, if_true, State.put, Saved.put, if_neg hne]
        exact hright.cache k' s h1 h2 h'
  | drop k =>
    refine ⟨⟨hs.valid, hs.apart⟩, ⟨fun k' h1 h2 => ?_, fun k' s h1 h2 h => ?_⟩⟩
    · simp only [step, Saved.step, State.put, Saved.put]
      split
      · rfl
      · exact hr.store k' h1 h2
    · have hne : k' ≠ k := fun e => hP k' h2 e.symm
      simp only [step, Saved.step, State.put, Saved.put, if_neg hne]
      exact hr.cache k' s h1 h2 h
  | evict p i =>
    refine ⟨⟨fun p' i' s h => ?_, fun p1 i1 s p' i' s' h h' he => ?_⟩, ⟨hr.store, fun k' s h1 h2 h => ?_⟩⟩
    · simp only [step] at h ⊢
      split at h
      · cases h
      · exact hs.valid _ _ s h
    · simp only [step] at h h'
      split at h <;> split at h'
      · cases h
      · cases h
      · cases h'
      · exact hs.apart _ _ s _ _ s' h h' he
    · simp only [step] at h ⊢
      split at h
      · cases h
      · exact hr.cache k' s h1 h2 h

theorem run_spec {owner : Str → Str} {P : Key → Prop} : ∀ {ops : List Op} {st : State} {m : Saved},
    (∀ op ∈ ops, ∀ k, keyOf op = some k → owner k.parent = k.set) → (∀ op ∈ ops, ∀ k, P k → sound k op) →
    Separate st → Right owner P st m →
    Separate (run true st ops) ∧ Right owner P (run true st ops) (m.run ops)
  | [], _, _, _, _, hs, hr => ⟨hs, hr⟩
  | op :: ops, _, _, hk, hP, hs, hr => by
    obtain ⟨h1, h2⟩ := step_spec (hk op (by simp)) (hP op (by simp)) hs hr
    exact run_spec (ops := ops) (fun o ho => hk o (by simp [ho])) (fun o ho => hP o (by simp [ho])) h1 h2

/-- Without a cache the storage is all there is. -/
theorem step_uncached {st : State} {op : Op} :
    (step false st op).store = Saved.step st.store op := by
  have key : ∀ (s : State) (k : Key) (l : Option (List Element)), (s.put k l).store = Saved.put s.store k l :=
    fun _ _ _ => rfl
  cases op with
  | read k spare =>
    simp only [step, load, Bool.false_eq_true, if_false]
    split <;> rfl
  | modify k spare c saved =>
    simp only [step, modify, load, Bool.false_eq_true, if_false]
    cases hst : st.store k with
    | none => cases saved <;> simp [Saved.step, hst]
    | some l =>
      simp only []
      obtain ⟨-, cr, -⟩ := change_spec c (alloc_valid (m := st.mem) (l := l) (spare := spare)).1
      cases saved with
      | false => simp [Saved.step, replace]
      | true => simp only [Saved.step, replace, hst, if_true, Bool.false_eq_true, if_false, key, cr, alloc_valid.2]
  | create k l saved =>
    cases saved with
    | false => simp [Saved.step, step, replace]
    | true => simp only [Saved.step, step, replace, if_true, Bool.false_eq_true, if_false, key, alloc_valid.2]
  | remove k deleted => cases deleted <;> rfl
  | drop k => rfl
  | evict => rfl

theorem run_uncached : ∀ {ops : List Op} {st : State}, (run false st ops).store = Saved.run st.store ops
  | [], _ => rfl
  | op :: ops, st => by
    show (run false (step false st op) ops).store = Saved.run (Saved.step st.store op) ops
    rw [run_uncached, step_uncached]

theorem view_uncached {st : State} {spare : Nat} {k : Key} : view false spare st k = st.store k := by
  simp only [view, load, Bool.false_eq_true, if_false]
  cases hst : st.store k with
  | none => rfl
  | some l => simp only [Option.map_some, alloc_valid.2]

end RankDB.Cache

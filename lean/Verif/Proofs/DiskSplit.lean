import Verif.Proofs.DiskRebuild
/-
Lemmas about the writes of Split.
-/
namespace RankDB.Disk
open Spec

/-- What the loops of `split` do to the segments under the name `p`, with the writes. The IDs with `P` are old. -/
inductive Steps (p : Str) (P : Nat → Prop) : Nat → List Seg → List Write → Nat → List Seg → Prop
  | done (nid : Nat) (cur : List Seg) : Steps p P nid cur [] nid cur
  | merge {nid nid' : Nat} {A B fin : List Seg} {q s m : Seg} {ws : List Write} (h1 : m.id = q.id)
      (h2 : m.elems = q.elems ++ s.elems) (h0 : P s.id) (h3 : Steps p P nid (A ++ m :: B) ws nid' fin) :
      Steps p P nid (A ++ q :: s :: B) (.elems p m.id m.elems :: .delElems p s.id :: ws) nid' fin
  | split {nid nid' : Nat} {A B fin : List Seg} {s s1 s2 : Seg} {ws : List Write} (h1 : s1.id = s.id) (h2 : s2.id = nid)
      (h3 : s1.elems ++ s2.elems = s.elems) (h4 : Steps p P (nid + 1) (A ++ s1 :: s2 :: B) ws nid' fin) :
      Steps p P nid (A ++ s :: B) (.elems p s1.id s1.elems :: .elems p s2.id s2.elems :: ws) nid' fin
  | splitNew {nid nid' : Nat} {A B fin : List Seg} {s s1 s2 : Seg} {ws : List Write} (h1 : s1.id = s.id) (h2 : s2.id = nid)
      (h3 : s1.elems ++ s2.elems = s.elems) (h4 : Steps p P (nid + 1) (A ++ s1 :: s2 :: B) ws nid' fin) :
      Steps p P nid (A ++ s :: B) (.elems p s2.id s2.elems :: .elems p s1.id s1.elems :: ws) nid' fin
  | count {nid nid' : Nat} {A B fin : List Seg} {s s' : Seg} {ws : List Write} (h1 : s'.id = s.id)
      (h2 : s'.elems = s.elems) (h3 : Steps p P nid (A ++ s' :: B) ws nid' fin) : Steps p P nid (A ++ s :: B) ws nid' fin

theorem splitIdx_parts {now nid : Nat} {isIndex : Bool} {s s1 s2 : Seg} {U : List Segments.IndexUpdate}
    (h : Segments.splitIdx now isIndex nid s = some (s1, s2, U)) :
    s1.id = s.id ∧ s2.id = nid ∧ s1.elems ++ s2.elems = s.elems := by
  unfold Segments.splitIdx at h
  split at h
  · rename_i a e b hsp
    simp only [Option.some.injEq, Prod.mk.injEq] at h
    obtain ⟨rfl, rfl, rfl⟩ := h
    have hfl := Elements.splitSize_flatten hsp
    simp only [List.flatten_cons, List.flatten_nil, List.append_nil] at hfl
    exact ⟨rfl, rfl, hfl⟩
  · simp at h

theorem splitLoop_steps (p : Str) {P : Nat → Prop} {now splitSize mergeSize : Nat} {merge isIndex : Bool} {skipUnsplit : Nat} :
    ∀ {ss done : List Seg} {nid skip : Nat}, (∀ g ∈ ss, P g.id) →
    Steps p P nid (done.reverse ++ ss) (splitLoop p now splitSize mergeSize merge isIndex skipUnsplit nid skip done ss).1
      (Segments.splitLoop now splitSize mergeSize merge isIndex skipUnsplit nid skip done ss).2.1
      (Segments.splitLoop now splitSize mergeSize merge isIndex skipUnsplit nid skip done ss).1
  | [], done, nid, skip, _ => by
    unfold splitLoop Segments.splitLoop
    rw [List.append_nil]
    exact .done _ _
  | s :: ss, done, nid, skip, hss => by
    have hss' : ∀ g ∈ ss, P g.id := fun g hg => hss g (by simp [hg])
    have hmove : done.reverse ++ s :: ss = (s :: done).reverse ++ ss := by simp
    have hnone : ∀ k, Steps p P nid (done.reverse ++ s :: ss)
        (splitLoop p now splitSize mergeSize merge isIndex skipUnsplit nid k (s :: done) ss).1
        (Segments.splitLoop now splitSize mergeSize merge isIndex skipUnsplit nid k (s :: done) ss).2.1
        (Segments.splitLoop now splitSize mergeSize merge isIndex skipUnsplit nid k (s :: done) ss).1 := by
      intro k
      rw [hmove]
      exact splitLoop_steps p hss'
    cases skip with
    | succ k => unfold splitLoop Segments.splitLoop; exact hnone k
    | zero =>
      unfold splitLoop Segments.splitLoop
      by_cases hn : s.n < splitSize
      · rw [if_pos hn, if_pos hn]
        cases merge with
        | false => exact hnone 0
        | true =>
          cases done with
          | nil => exact hnone 0
          | cons q done' =>
            simp only []
            by_cases hm : s.n + q.n > mergeSize
            · rw [if_pos hm, if_pos hm]; exact hnone 0
            · rw [if_neg hm, if_neg hm]
              have hcur : (q :: done').reverse ++ s :: ss = done'.reverse ++ q :: s :: ss := by simp
              rw [hcur]
              refine .merge rfl rfl (hss s (by simp)) ?_
              have := splitLoop_steps p (now := now) (splitSize := splitSize) (mergeSize := mergeSize) (merge := true)
                (isIndex := isIndex) (skipUnsplit := skipUnsplit) (ss := ss)
                (done := (Segments.mergeWithNext now q s).1 :: done') (nid := nid) (skip := 2) hss'
              rw [List.reverse_cons, List.append_assoc] at this
              exact this
      · rw [if_neg hn, if_neg hn]
        cases hsp : Segments.splitIdx now isIndex nid s with
        | none =>
          refine .count (s' := { s with n := s.elems.length }) rfl rfl ?_
          have := splitLoop_steps p (now := now) (splitSize := splitSize) (mergeSize := mergeSize) (merge := merge)
            (isIndex := isIndex) (skipUnsplit := skipUnsplit) (ss := ss)
            (done := { s with n := s.elems.length } :: done) (nid := nid) (skip := skipUnsplit) hss'
          rw [List.reverse_cons, List.append_assoc] at this
          exact this
        | some v =>
          obtain ⟨s1, s2, U⟩ := v
          obtain ⟨h1, h2, h3⟩ := splitIdx_parts hsp
          have := splitLoop_steps p (now := now) (splitSize := splitSize) (mergeSize := mergeSize) (merge := merge)
            (isIndex := isIndex) (skipUnsplit := skipUnsplit) (ss := ss)
            (done := s2 :: s1 :: done) (nid := nid + 1) (skip := 0) hss'
          rw [List.reverse_cons, List.reverse_cons, List.append_assoc, List.append_assoc] at this
          cases isIndex with
          | false => exact .split h1 h2 h3 this
          | true => exact .splitNew h1 h2 h3 this

/-- Segment IDs are distinct and below the next ID. -/
def Fresh (nid : Nat) (cur : List Seg) : Prop := (cur.map (·.id)).Nodup ∧ ∀ g ∈ cur, g.id < nid

theorem Fresh.merge {nid : Nat} {A B : List Seg} {q s m : Seg} (h : Fresh nid (A ++ q :: s :: B)) (h1 : m.id = q.id) :
    Fresh nid (A ++ m :: B) ∧ s.id ∉ (A ++ m :: B).map (·.id) := by
  obtain ⟨h2, h3⟩ := h
  simp only [List.map_append, List.map_cons] at h2
  rw [List.nodup_append] at h2
  obtain ⟨n1, n2, n3⟩ := h2
  simp only [List.nodup_cons, List.mem_cons, not_or] at n2
  refine ⟨⟨?_, ?_⟩, ?_⟩
  · simp only [List.map_append, List.map_cons]
    rw [List.nodup_append]
    refine ⟨n1, ?_, ?_⟩
    · rw [List.nodup_cons, h1]; exact ⟨n2.1.2, n2.2.2⟩
    · intro a ha b hb
      refine n3 a ha b ?_
      simp only [List.mem_cons] at hb ⊢
      rw [h1] at hb
      rcases hb with hb | hb
      · exact .inl hb
      · exact .inr (.inr hb)
  · intro g hg
    rcases List.mem_append.1 hg with hg | hg
    · exact h3 g (by simp [hg])
    · rcases List.mem_cons.1 hg with hg | hg
      · rw [hg, h1]; exact h3 q (by simp)
      · exact h3 g (by simp [hg])
  · simp only [List.map_append, List.map_cons, List.mem_append, List.mem_cons, not_or]
    refine ⟨?_, ?_, n2.2.1⟩
    · intro hs
      exact n3 _ hs s.id (by simp) rfl
    · rw [h1]
      intro hs
      exact n2.1.1 hs.symm

theorem Fresh.split {nid : Nat} {A B : List Seg} {s s1 s2 : Seg} (h : Fresh nid (A ++ s :: B)) (h1 : s1.id = s.id)
    (h2 : s2.id = nid) : Fresh (nid + 1) (A ++ s1 :: s2 :: B) := by
  obtain ⟨h3, h4⟩ := h
  simp only [List.map_append, List.map_cons] at h3
  rw [List.nodup_append] at h3
  obtain ⟨n1, n2, n3⟩ := h3
  rw [List.nodup_cons] at n2
  have hlt : ∀ a ∈ A.map (·.id), a < nid := by
    intro a ha
    obtain ⟨g, hg, rfl⟩ := List.mem_map.1 ha
    exact h4 g (by simp [hg])
  have hltB : ∀ a ∈ B.map (·.id), a < nid := by
    intro a ha
    obtain ⟨g, hg, rfl⟩ := List.mem_map.1 ha
    exact h4 g (by simp [hg])
  have hs := h4 s (by simp)
  constructor
  · simp only [List.map_append, List.map_cons, h1, h2]
    rw [List.nodup_append]
    refine ⟨n1, ?_, ?_⟩
    · simp only [List.nodup_cons, List.mem_cons, not_or]
      refine ⟨⟨by omega, n2.1⟩, fun hb => ?_, n2.2⟩
      have := hltB _ hb
      omega
    · intro a ha b hb
      simp only [List.mem_cons] at hb
      rcases hb with hb | hb | hb
      · exact n3 a ha b (by simp [hb])
      · have := hlt a ha; omega
      · exact n3 a ha b (by simp [hb])
  · intro g hg
    rcases List.mem_append.1 hg with hg | hg
    · have := h4 g (by simp [hg]); omega
    · simp only [List.mem_cons] at hg
      rcases hg with hg | hg | hg
      · rw [hg, h1]; omega
      · rw [hg, h2]; omega
      · have := h4 g (by simp [hg]); omega

theorem Fresh.count {nid : Nat} {A B : List Seg} {s s' : Seg} (h : Fresh nid (A ++ s :: B)) (h1 : s'.id = s.id) :
    Fresh nid (A ++ s' :: B) := by
  obtain ⟨h3, h4⟩ := h
  constructor
  · simpa [h1] using h3
  · intro g hg
    rcases List.mem_append.1 hg with hg | hg
    · exact h4 g (by simp [hg])
    · rcases List.mem_cons.1 hg with hg | hg
      · rw [hg, h1]; exact h4 s (by simp)
      · exact h4 g (by simp [hg])

/-- The storage has the elements of these segments. -/
def Has (d : Store) (p : Str) (cur : List Seg) : Prop := ∀ g ∈ cur, d.elems p g.id = some g.elems

/-- The first writes of a step. -/
theorem has_merge {d : Store} {p : Str} {nid : Nat} {A B : List Seg} {q s m : Seg} (hf : Fresh nid (A ++ q :: s :: B))
    (h : Has d p (A ++ q :: s :: B)) (h1 : m.id = q.id) :
    Has (write (write d (.elems p m.id m.elems)) (.delElems p s.id)) p (A ++ m :: B) := by
  obtain ⟨f1, f2⟩ := hf.merge h1
  intro g hg
  have hgs : g.id ≠ s.id := fun he => f2 (by rw [← he]; exact List.mem_map.2 ⟨g, hg, rfl⟩)
  by_cases hm : g.id = m.id
  · have : g = m := eq_of_seg_id f1.1 hg (by simp) hm
    subst this
    simp [write, hgs]
  · have hg' : g ∈ A ++ q :: s :: B := by
      rcases List.mem_append.1 hg with hg | hg
      · simp [hg]
      · rcases List.mem_cons.1 hg with hg | hg
        · exact absurd (by rw [hg]) hm
        · simp [hg]
    simp [write, hgs, hm, h g hg']

theorem has_split {d : Store} {p : Str} {nid : Nat} {A B : List Seg} {s s1 s2 : Seg} (hf : Fresh nid (A ++ s :: B))
    (h : Has d p (A ++ s :: B)) (h1 : s1.id = s.id) (h2 : s2.id = nid) :
    Has (write (write d (.elems p s1.id s1.elems)) (.elems p s2.id s2.elems)) p (A ++ s1 :: s2 :: B) ∧
    Has (write (write d (.elems p s2.id s2.elems)) (.elems p s1.id s1.elems)) p (A ++ s1 :: s2 :: B) := by
  have f := hf.split h1 h2
  have hne : s1.id ≠ s2.id := by have := hf.2 s (by simp); omega
  have key : ∀ g ∈ A ++ s1 :: s2 :: B, g = s1 ∨ g = s2 ∨ (g.id ≠ s1.id ∧ g.id ≠ s2.id ∧ d.elems p g.id = some g.elems) := by
    intro g hg
    by_cases e1 : g.id = s1.id
    · exact .inl (eq_of_seg_id f.1 hg (by simp) e1)
    · by_cases e2 : g.id = s2.id
      · exact .inr (.inl (eq_of_seg_id f.1 hg (by simp) e2))
      · refine .inr (.inr ⟨e1, e2, ?_⟩)
        refine h g ?_
        rcases List.mem_append.1 hg with hg | hg
        · simp [hg]
        · simp only [List.mem_cons] at hg
          rcases hg with hg | hg | hg
          · exact absurd (by rw [hg]) e1
          · exact absurd (by rw [hg]) e2
          · simp [hg]
  constructor
  · intro g hg
    rcases key g hg with rfl | rfl | ⟨a, b, c⟩
    · simp [write, hne]
    · simp [write]
    · simp [write, a, b, c]
  · intro g hg
    rcases key g hg with rfl | rfl | ⟨a, b, c⟩
    · simp [write]
    · simp [write, Ne.symm hne]
    · simp [write, a, b, c]

theorem has_count {d : Store} {p : Str} {A B : List Seg} {s s' : Seg} (h : Has d p (A ++ s :: B)) (h1 : s'.id = s.id)
    (h2 : s'.elems = s.elems) : Has d p (A ++ s' :: B) := by
  intro g hg
  rcases List.mem_append.1 hg with hg | hg
  · exact h g (by simp [hg])
  · rcases List.mem_cons.1 hg with hg | hg
    · rw [hg, h1, h2]; exact h s (by simp)
    · exact h g (by simp [hg])

/-- After the loop the storage has the elements of its result. -/
theorem steps_has {p : Str} {P : Nat → Prop} {nid nid' : Nat} {cur fin : List Seg} {ws : List Write} (h : Steps p P nid cur ws nid' fin) :
    ∀ {d : Store}, Fresh nid cur → Has d p cur → Has (writes d ws) p fin ∧ Fresh nid' fin ∧ nid ≤ nid' := by
  induction h with
  | done nid cur => exact fun hf hd => ⟨hd, hf, Nat.le_refl _⟩
  | merge h1 h2 h0 h3 ih => exact fun hf hd => ih (hf.merge h1).1 (has_merge hf hd h1)
  | split h1 h2 h3 h4 ih =>
    intro d hf hd
    obtain ⟨a, b, c⟩ := ih (hf.split h1 h2) (has_split hf hd h1 h2).1
    exact ⟨a, b, by omega⟩
  | splitNew h1 h2 h3 h4 ih =>
    intro d hf hd
    obtain ⟨a, b, c⟩ := ih (hf.split h1 h2) (has_split hf hd h1 h2).2
    exact ⟨a, b, by omega⟩
  | count h1 h2 h3 ih => exact fun hf hd => ih (hf.count h1) (has_count hd h1 h2)

theorem steps_parent {p : Str} {P : Nat → Prop} {nid nid' : Nat} {cur fin : List Seg} {ws : List Write} (h : Steps p P nid cur ws nid' fin) :
    ∀ w ∈ ws, w.parent = p ∧ (∃ i l, w = .elems p i l) ∨ (∃ i, w = .delElems p i) := by
  induction h with
  | done nid cur => simp
  | merge h1 h2 h0 h3 ih =>
    intro w hw
    simp only [List.mem_cons] at hw
    rcases hw with rfl | rfl | hw
    · exact .inl ⟨rfl, _, _, rfl⟩
    · exact .inr ⟨_, rfl⟩
    · exact ih w hw
  | split h1 h2 h3 h4 ih =>
    intro w hw
    simp only [List.mem_cons] at hw
    rcases hw with rfl | rfl | hw
    · exact .inl ⟨rfl, _, _, rfl⟩
    · exact .inl ⟨rfl, _, _, rfl⟩
    · exact ih w hw
  | splitNew h1 h2 h3 h4 ih =>
    intro w hw
    simp only [List.mem_cons] at hw
    rcases hw with rfl | rfl | hw
    · exact .inl ⟨rfl, _, _, rfl⟩
    · exact .inl ⟨rfl, _, _, rfl⟩
    · exact ih w hw
  | count h1 h2 h3 ih => exact ih

/-- Deleted segments are gone. -/
theorem steps_gone {p : Str} {P : Nat → Prop} {nid nid' : Nat} {cur fin : List Seg} {ws : List Write} (h : Steps p P nid cur ws nid' fin) :
    ∀ {d : Store} {i : Nat}, Fresh nid cur → i < nid → i ∉ fin.map (·.id) → (i ∈ cur.map (·.id) ∨ d.elems p i = none) →
    (writes d ws).elems p i = none := by
  induction h with
  | done nid cur =>
    intro d i _ _ h1 h2
    exact h2.resolve_left h1
  | @merge nid nid' A B fin q s m ws h1 h2 h0 h3 ih =>
    intro d i hf hi hn hc
    refine ih (d := write (write d _) _) (hf.merge h1).1 hi hn ?_
    by_cases hcm : i ∈ (A ++ m :: B).map (·.id)
    · exact .inl hcm
    · right
      have him : i ≠ m.id := fun he => hcm (by simp [he])
      by_cases his : i = s.id
      · simp [write, his]
      · rcases hc with hc | hc
        · exfalso
          simp only [List.map_append, List.map_cons, List.mem_append, List.mem_cons] at hc hcm
          rw [h1] at hcm
          rcases hc with hc | hc | hc | hc
          · exact hcm (.inl hc)
          · exact hcm (.inr (.inl hc))
          · exact his hc
          · exact hcm (.inr (.inr hc))
        · simp [write, his, him, hc]
  | @split nid nid' A B fin s s1 s2 ws h1 h2 h3 h4 ih =>
    intro d i hf hi hn hc
    refine ih (d := write (write d _) _) (hf.split h1 h2) (by omega) hn ?_
    rcases hc with hc | hc
    · left
      simp only [List.map_append, List.map_cons, List.mem_append, List.mem_cons] at hc ⊢
      rw [h1]
      rcases hc with hc | hc | hc
      · exact .inl hc
      · exact .inr (.inl hc)
      · exact .inr (.inr (.inr hc))
    · by_cases hs : i = s1.id
      · left; simp [hs]
      · right; simp [write, hs, hc, show i ≠ s2.id by omega]
  | @splitNew nid nid' A B fin s s1 s2 ws h1 h2 h3 h4 ih =>
    intro d i hf hi hn hc
    refine ih (d := write (write d _) _) (hf.split h1 h2) (by omega) hn ?_
    rcases hc with hc | hc
    · left
      simp only [List.map_append, List.map_cons, List.mem_append, List.mem_cons] at hc ⊢
      rw [h1]
      rcases hc with hc | hc | hc
      · exact .inl hc
      · exact .inr (.inl hc)
      · exact .inr (.inr (.inr hc))
    · by_cases hs : i = s1.id
      · left; simp [hs]
      · right; simp [write, hs, hc, show i ≠ s2.id by omega]
  | @count nid nid' A B fin s s' ws h1 h2 h3 ih =>
    intro d i hf hi hn hc
    refine ih (hf.count h1) hi hn ?_
    simpa [h1] using hc

/-- An element that ends in a segment with an old ID was in a segment with an old ID all the time. -/
theorem steps_old {p : Str} {P : Nat → Prop} {nid nid' : Nat} {cur fin : List Seg} {ws : List Write} (h : Steps p P nid cur ws nid' fin) :
    (∀ i, P i → i < nid) → ∀ {e : Element}, (∃ g ∈ fin, P g.id ∧ e ∈ g.elems) → ∃ g ∈ cur, P g.id ∧ e ∈ g.elems := by
  induction h with
  | done nid cur => exact fun _ _ h => h
  | @merge nid nid' A B fin q s m ws h1 h2 h0 h3 ih =>
    intro hn e he
    obtain ⟨g, hg, hid, hge⟩ := ih hn he
    rcases List.mem_append.1 hg with hg | hg
    · exact ⟨g, by simp [hg], hid, hge⟩
    · rcases List.mem_cons.1 hg with hg | hg
      · subst hg
        rw [h2] at hge
        rcases List.mem_append.1 hge with hge | hge
        · exact ⟨q, by simp, by rw [← h1]; exact hid, hge⟩
        · exact ⟨s, by simp, h0, hge⟩
      · exact ⟨g, by simp [hg], hid, hge⟩
  | @split nid nid' A B fin s s1 s2 ws h1 h2 h3 h4 ih =>
    intro hn e he
    obtain ⟨g, hg, hid, hge⟩ := ih (fun i hi => by have := hn i hi; omega) he
    rcases List.mem_append.1 hg with hg | hg
    · exact ⟨g, by simp [hg], hid, hge⟩
    · simp only [List.mem_cons] at hg
      rcases hg with hg | hg | hg
      · subst hg
        exact ⟨s, by simp, by rw [← h1]; exact hid, by rw [← h3]; simp [hge]⟩
      · subst hg; exact absurd (hn _ hid) (by omega)
      · exact ⟨g, by simp [hg], hid, hge⟩
  | @splitNew nid nid' A B fin s s1 s2 ws h1 h2 h3 h4 ih =>
    intro hn e he
    obtain ⟨g, hg, hid, hge⟩ := ih (fun i hi => by have := hn i hi; omega) he
    rcases List.mem_append.1 hg with hg | hg
    · exact ⟨g, by simp [hg], hid, hge⟩
    · simp only [List.mem_cons] at hg
      rcases hg with hg | hg | hg
      · subst hg
        exact ⟨s, by simp, by rw [← h1]; exact hid, by rw [← h3]; simp [hge]⟩
      · subst hg; exact absurd (hn _ hid) (by omega)
      · exact ⟨g, by simp [hg], hid, hge⟩
  | @count nid nid' A B fin s s' ws h1 h2 h3 ih =>
    intro hn e he
    obtain ⟨g, hg, hid, hge⟩ := ih hn he
    rcases List.mem_append.1 hg with hg | hg
    · exact ⟨g, by simp [hg], hid, hge⟩
    · rcases List.mem_cons.1 hg with hg | hg
      · subst hg
        exact ⟨s, by simp, by rw [← h1]; exact hid, by rw [← h2]; exact hge⟩
      · exact ⟨g, by simp [hg], hid, hge⟩

/-- Elements that have been stored under an old ID. -/
def Kept (d : Store) (p : Str) (P : Nat → Prop) (e : Element) : Prop := ∃ i l, P i ∧ d.elems p i = some l ∧ e ∈ l

/-- Everything that is stored under an old ID. -/
def Only (d : Store) (p : Str) (P : Nat → Prop) (S : List Element) : Prop := ∀ i l, P i → d.elems p i = some l → ∀ e ∈ l, e ∈ S

theorem kept_of_has {d : Store} {p : Str} {P : Nat → Prop} {cur : List Seg} (h : Has d p cur) {e : Element}
    (he : ∃ g ∈ cur, P g.id ∧ e ∈ g.elems) : Kept d p P e := by
  obtain ⟨g, hg, hid, hge⟩ := he
  exact ⟨g.id, g.elems, hid, h g hg, hge⟩

theorem only_elems {d : Store} {p : Str} {P : Nat → Prop} {S : List Element} (h : Only d p P S) {i : Nat} {l : List Element}
    (hl : ∀ e ∈ l, e ∈ S) : Only (write d (.elems p i l)) p P S := by
  intro j l' hj hw e he
  by_cases hji : j = i
  · subst hji
    simp only [write, and_self, if_true, Option.some.injEq] at hw
    subst hw
    exact hl e he
  · simp only [write, hji, and_false, if_false] at hw
    exact h j l' hj hw e he

theorem only_del {d : Store} {p : Str} {P : Nat → Prop} {S : List Element} (h : Only d p P S) {i : Nat} :
    Only (write d (.delElems p i)) p P S := by
  intro j l' hj hw e he
  by_cases hji : j = i
  · subst hji
    simp [write] at hw
  · simp only [write, hji, and_false, if_false] at hw
    exact h j l' hj hw e he

/-- At any moment of the loop every element that ends in a segment with an old ID is stored under an old ID, and
nothing else than the elements there were. -/
theorem steps_crash {p : Str} {P : Nat → Prop} {nid nid' : Nat} {cur fin : List Seg} {ws : List Write} (h : Steps p P nid cur ws nid' fin) :
    ∀ {d : Store} {S : List Element} (k : Nat), (∀ i, P i → i < nid) → Fresh nid cur → Has d p cur → Only d p P S →
    (∀ g ∈ cur, ∀ e ∈ g.elems, e ∈ S) →
    (∀ e, (∃ g ∈ fin, P g.id ∧ e ∈ g.elems) → Kept (writes d (ws.take k)) p P e) ∧
    Only (writes d (ws.take k)) p P S := by
  induction h with
  | done nid cur =>
    intro d S k hn hf hh ho _
    rw [List.take_nil]
    exact ⟨fun e he => kept_of_has hh he, ho⟩
  | @merge nid nid' A B fin q s m ws h1 h2 h0 h3 ih =>
    intro d S k hn hf hh ho hS
    have hSm : ∀ e ∈ m.elems, e ∈ S := by
      intro e he
      rw [h2] at he
      rcases List.mem_append.1 he with he | he
      · exact hS q (by simp) e he
      · exact hS s (by simp) e he
    match k with
    | 0 =>
      exact ⟨fun e he => kept_of_has hh (steps_old (.merge h1 h2 h0 h3) hn he), ho⟩
    | 1 =>
      refine ⟨fun e he => ?_, only_elems ho hSm⟩
      obtain ⟨g, hg, hid, hge⟩ := steps_old (.merge h1 h2 h0 h3) hn he
      by_cases hgm : g.id = m.id
      · refine ⟨m.id, m.elems, hgm ▸ hid, by simp [writes, write], ?_⟩
        have : g = q := eq_of_seg_id hf.1 hg (by simp) (by omega)
        subst this
        rw [h2]; simp [hge]
      · exact ⟨g.id, g.elems, hid, by simp [writes, write, hgm, hh g hg], hge⟩
    | k + 2 =>
      refine ih (d := write (write d _) _) k hn (hf.merge h1).1 (has_merge hf hh h1) (only_del (only_elems ho hSm)) ?_
      intro g hg
      rcases List.mem_append.1 hg with hg | hg
      · exact hS g (by simp [hg])
      · rcases List.mem_cons.1 hg with hg | hg
        · subst hg; exact hSm
        · exact hS g (by simp [hg])
  | @split nid nid' A B fin s s1 s2 ws h1 h2 h3 h4 ih =>
    intro d S k hn hf hh ho hS
    have hS1 : ∀ e ∈ s1.elems, e ∈ S := fun e he => hS s (by simp) e (by rw [← h3]; simp [he])
    have hS2 : ∀ e ∈ s2.elems, e ∈ S := fun e he => hS s (by simp) e (by rw [← h3]; simp [he])
    match k with
    | 0 => exact ⟨fun e he => kept_of_has hh (steps_old (.split h1 h2 h3 h4) hn he), ho⟩
    | 1 =>
      refine ⟨fun e he => ?_, only_elems ho hS1⟩
      obtain ⟨g, hg, hid, hge⟩ := steps_old h4 (fun i hi => by have := hn i hi; omega) he
      have := has_split hf hh h1 h2
      refine ⟨g.id, g.elems, hid, ?_, hge⟩
      have hx := this.1 g hg
      have hg2 : g.id ≠ s2.id := by have := hn _ hid; omega
      simpa [write, writes, hg2] using hx
    | k + 2 =>
      refine ih (d := write (write d _) _) k (fun i hi => by have := hn i hi; omega) (hf.split h1 h2) (has_split hf hh h1 h2).1
        (only_elems (only_elems ho hS1) hS2) ?_
      intro g hg
      rcases List.mem_append.1 hg with hg | hg
      · exact hS g (by simp [hg])
      · simp only [List.mem_cons] at hg
        rcases hg with hg | hg | hg
        · subst hg; exact hS1
        · subst hg; exact hS2
        · exact hS g (by simp [hg])
  | @splitNew nid nid' A B fin s s1 s2 ws h1 h2 h3 h4 ih =>
    intro d S k hn hf hh ho hS
    have hS1 : ∀ e ∈ s1.elems, e ∈ S := fun e he => hS s (by simp) e (by rw [← h3]; simp [he])
    have hS2 : ∀ e ∈ s2.elems, e ∈ S := fun e he => hS s (by simp) e (by rw [← h3]; simp [he])
    match k with
    | 0 => exact ⟨fun e he => kept_of_has hh (steps_old (.splitNew h1 h2 h3 h4) hn he), ho⟩
    | 1 =>
      refine ⟨fun e he => ?_, only_elems ho hS2⟩
      obtain ⟨g, hg, hid, hge⟩ := steps_old (.splitNew h1 h2 h3 h4) hn he
      have hg2 : g.id ≠ s2.id := by have := hn _ hid; omega
      exact ⟨g.id, g.elems, hid, by simp [writes, write, hg2, hh g hg], hge⟩
    | k + 2 =>
      refine ih (d := write (write d _) _) k (fun i hi => by have := hn i hi; omega) (hf.split h1 h2) (has_split hf hh h1 h2).2
        (only_elems (only_elems ho hS2) hS1) ?_
      intro g hg
      rcases List.mem_append.1 hg with hg | hg
      · exact hS g (by simp [hg])
      · simp only [List.mem_cons] at hg
        rcases hg with hg | hg | hg
        · subst hg; exact hS1
        · subst hg; exact hS2
        · exact hS g (by simp [hg])
  | @count nid nid' A B fin s s' ws h1 h2 h3 ih =>
    intro d S k hn hf hh ho hS
    refine ih k hn (hf.count h1) (has_count hh h1 h2) ho ?_
    intro g hg
    rcases List.mem_append.1 hg with hg | hg
    · exact hS g (by simp [hg])
    · rcases List.mem_cons.1 hg with hg | hg
      · subst hg; rw [h2]; exact hS s (by simp)
      · exact hS g (by simp [hg])

/-- If nothing was changed, nothing was changed. -/
theorem splitLoop_same (p : Str) {now splitSize mergeSize : Nat} {merge isIndex : Bool} {skipUnsplit : Nat} :
    ∀ {ss done : List Seg} {nid skip : Nat}, (∀ g ∈ ss, g.n = g.elems.length) →
    (splitLoop p now splitSize mergeSize merge isIndex skipUnsplit nid skip done ss).2 = false →
    (splitLoop p now splitSize mergeSize merge isIndex skipUnsplit nid skip done ss).1 = [] ∧
    Segments.splitLoop now splitSize mergeSize merge isIndex skipUnsplit nid skip done ss = (done.reverse ++ ss, nid, [])
  | [], done, nid, skip, _, _ => by
    unfold splitLoop Segments.splitLoop
    rw [List.append_nil]
    exact ⟨rfl, rfl⟩
  | s :: ss, done, nid, skip, hc, h => by
    have hc' : ∀ g ∈ ss, g.n = g.elems.length := fun g hg => hc g (by simp [hg])
    have hmove : done.reverse ++ s :: ss = (s :: done).reverse ++ ss := by simp
    cases skip with
    | succ k =>
      unfold splitLoop at h ⊢
      unfold Segments.splitLoop
      rw [hmove]
      exact splitLoop_same p hc' h
    | zero =>
      unfold splitLoop at h ⊢
      unfold Segments.splitLoop
      rw [hmove]
      by_cases hn : s.n < splitSize
      · rw [if_pos hn] at h ⊢
        rw [if_pos hn]
        cases merge with
        | false => exact splitLoop_same p hc' h
        | true =>
          cases done with
          | nil => exact splitLoop_same p hc' h
          | cons q done' =>
            simp only [] at h ⊢
            by_cases hm : s.n + q.n > mergeSize
            · rw [if_pos hm] at h ⊢
              rw [if_pos hm]
              exact splitLoop_same p hc' h
            · rw [if_neg hm] at h
              simp at h
      · rw [if_neg hn] at h ⊢
        rw [if_neg hn]
        cases hsp : Segments.splitIdx now isIndex nid s with
        | none =>
          rw [hsp] at h
          simp only [Bool.or_eq_false_iff] at h ⊢
          have hs : ({ s with n := s.elems.length } : Seg) = s := by rw [← hc s (by simp)]
          rw [hs] at h ⊢
          exact splitLoop_same p hc' h.1
        | some v =>
          rw [hsp] at h
          simp at h

theorem foldl_untouched {f : List Segments.IndexUpdate → Seg → Seg} : ∀ {es : List (Nat × List Segments.IndexUpdate)}
    {segs : List Seg} {j : Nat}, j ∉ (es.filter fun m => !m.2.isEmpty).map (·.1) →
    (es.foldl (fun segs m => if m.2.isEmpty then segs else modifyAt (f m.2) m.1 segs) segs)[j]? = segs[j]?
  | [], segs, j, _ => rfl
  | m :: es, segs, j, h => by
    rw [List.foldl_cons]
    cases he : m.2.isEmpty with
    | true =>
      simp only [List.filter_cons, he, Bool.not_true, Bool.false_eq_true, if_false] at h
      simp only [if_true]
      exact foldl_untouched h
    | false =>
      simp only [List.filter_cons, he, Bool.not_false, if_true, List.map_cons, List.mem_cons, not_or] at h
      simp only [Bool.false_eq_true, if_false]
      rw [foldl_untouched h.2, modifyAt_getElem?]
      simp [h.1]

/-- The writes of `updateIndexElements`. -/
theorem updateIndex_has {now : Nat} {sch : Sched} {p : Str} {I : List Seg} {U : List Segments.IndexUpdate} {d : Store}
    (hids : ((Segments.updateIndexElements now I U).map (·.id)).Nodup) (h : Has d p I) :
    Has (writes d (updateIndexElements now sch p I U)) p (Segments.updateIndexElements now I U) := by
  by_cases hU : U.isEmpty = true
  · unfold updateIndexElements Segments.updateIndexElements
    rw [if_pos hU, if_pos hU]
    exact h
  · have hw : updateIndexElements now sch p I U =
        sch.order (replaceAt p (((Segments.splitIndexUpdates I U).filter fun m => !m.2.isEmpty).map (·.1))
          (Segments.updateIndexElements now I U)) := by unfold updateIndexElements; rw [if_neg hU]
    rw [hw]
    refine cover_stored hids ?_ (replaceAt_cover sch ?_) h
    · intro w hw
      exact .inl (replaceAt_of _ _ _ sch w hw)
    · intro j hj
      unfold Segments.updateIndexElements
      rw [if_neg hU, foldl_untouched hj]

theorem parent_updateIndex {now : Nat} {sch : Sched} {p : Str} {I : List Seg} {U : List Segments.IndexUpdate} :
    ∀ w ∈ updateIndexElements now sch p I U, ∃ i l, w = .elems p i l := by
  intro w hw
  unfold updateIndexElements at hw
  split at hw
  · simp at hw
  · obtain ⟨g, -, rfl⟩ := replaceAt_of _ _ _ sch w hw
    exact ⟨_, _, rfl⟩

theorem splitScores_steps (now : Nat) (merge : Bool) (ent : Entry) (st : ListState) :
    Steps ent.scores (· ∈ st.scores.segs.map (·.id)) st.scores.nextID st.scores.segs (splitScores now merge ent st).1
      (Lists.split now merge st).scores.nextID (Lists.split now merge st).scores.segs := by
  have := splitLoop_steps ent.scores (P := (· ∈ st.scores.segs.map (·.id))) (now := now) (splitSize := st.splitSize)
    (mergeSize := st.mergeSize) (merge := merge) (isIndex := false) (skipUnsplit := 0) (ss := st.scores.segs) (done := [])
    (nid := st.scores.nextID) (skip := 0) (fun g hg => List.mem_map_of_mem hg)
  rw [List.reverse_nil, List.nil_append] at this
  exact this

/-- A blob with the name of segments. -/
def OfElems (p : Str) (w : Write) : Prop := (∃ i l, w = .elems p i l) ∨ ∃ i, w = .delElems p i

theorem OfElems.parent {p : Str} {w : Write} (h : OfElems p w) : w.parent = p := by
  rcases h with ⟨i, l, rfl⟩ | ⟨i, rfl⟩ <;> rfl

theorem ofElems_steps {p : Str} {P : Nat → Prop} {nid nid' : Nat} {cur fin : List Seg} {ws : List Write} (h : Steps p P nid cur ws nid' fin) :
    ∀ w ∈ ws, OfElems p w := by
  intro w hw
  rcases steps_parent h w hw with ⟨-, h⟩ | h
  · exact .inl h
  · exact .inr h

theorem splitIndex_ofElems (now : Nat) (merge : Bool) (sch : Sched) (ent : Entry) (st : ListState)
    (hid : ∀ g ∈ Segments.updateIndexElements now st.index.segs
      (Segments.splitLoop now st.splitSize st.mergeSize merge false 0 st.scores.nextID 0 [] st.scores.segs).2.2,
      g.id < st.index.nextID) :
    ∀ w ∈ (splitIndex now merge sch ent st).1, OfElems ent.index w := by
  intro w hw
  rcases List.mem_append.1 hw with h | h
  · obtain ⟨i, l, rfl⟩ := parent_updateIndex w h
    exact .inl ⟨i, l, rfl⟩
  · exact ofElems_steps (splitLoop_steps ent.index (P := (· < st.index.nextID)) (done := []) hid) w h

/-- The index after the update of the entries. -/
theorem split_updated {now : Nat} {merge : Bool} {st : ListState} (h : ListOK st) (hnow : now < 2 ^ 32 - 1)
    (hs : 0 < st.scores.nextID) :
    let U := (Segments.splitLoop now st.splitSize st.mergeSize merge false 0 st.scores.nextID 0 [] st.scores.segs).2.2
    SameRanges (Segments.updateIndexElements now st.index.segs U) st.index.segs ∧
    Counted (Segments.updateIndexElements now st.index.segs U) := by
  have hw : Segments.WF false st.scores.nextID st.scores.segs := ⟨h.scores, h.scoresCount, h.scoresIDs.1, by simp⟩
  have L1 := Segments.splitLoop_spec (now := now) (splitSize := st.splitSize) (mergeSize := st.mergeSize)
    (merge := merge) (skipUnsplit := 0) (ss := st.scores.segs) (done := []) (skip := 0)
    (by simpa using hw) hs
  rw [List.reverse_nil, List.nil_append] at L1
  have hU : ((Segments.splitLoop now st.splitSize st.mergeSize merge false 0 st.scores.nextID 0 [] st.scores.segs).2.2.map
    (·.1)).Nodup := L1.sub.nodup h.scores.distinct
  have h64 : ∀ u ∈ (Segments.splitLoop now st.splitSize st.mergeSize merge false 0 st.scores.nextID 0 [] st.scores.segs).2.2,
      u.1 < 2 ^ 64 := by
    intro u hu
    have := L1.sub.subset (List.mem_map_of_mem (f := (·.1)) hu)
    obtain ⟨e, he, hid⟩ := List.mem_map.1 this
    rw [← hid]; exact (h.scores.storable e he).id
  obtain ⟨u1, -, u3, -⟩ := Segments.updateIndexElements_spec (now := now) (I := st.index.segs)
    ⟨h.index, h.link.byID, h.link.aligned⟩ hU h64 hnow h.indexCount
  exact ⟨u1, u3⟩

/-- The elements of all segments are stored after the writes of `split`. -/
theorem split_stored {now : Nat} {merge : Bool} {sch : Sched} {ent : Entry} {st : ListState} {d : Store}
    (hne : ent.scores ≠ ent.index) (h : ListOK st) (hnow : now < 2 ^ 32 - 1) (hs : 0 < st.scores.nextID)
    (hst : Stored d ent st) :
    Stored (writes d ((splitScores now merge ent st).1 ++ (splitIndex now merge sch ent st).1)) ent (Lists.split now merge st) ∧
    (∀ w ∈ (splitScores now merge ent st).1, OfElems ent.scores w) ∧
    (∀ w ∈ (splitIndex now merge sch ent st).1, OfElems ent.index w) := by
  have S1 := splitScores_steps now merge ent st
  obtain ⟨u1, u3⟩ := split_updated (merge := merge) h hnow hs
  have hid : ∀ g ∈ Segments.updateIndexElements now st.index.segs
      (Segments.splitLoop now st.splitSize st.mergeSize merge false 0 st.scores.nextID 0 [] st.scores.segs).2.2,
      g.id < st.index.nextID := by
    intro g hg
    obtain ⟨t, ht, hr⟩ := forall₂_mem u1 g hg
    rw [hr.1]
    exact (h.indexIDs.1 t ht).2
  have hW := splitIndex_ofElems now merge sch ent st hid
  have hV := ofElems_steps S1
  refine ⟨?_, hV, hW⟩
  rw [writes_append]
  constructor
  · obtain ⟨a, -, -⟩ := steps_has S1 (d := d) ⟨h.scores.segIDs, fun g hg => (h.scoresIDs.1 g hg).2⟩ hst.scores
    intro g hg
    rw [(writes_other _ (p := ent.scores) fun w hw => by rw [(hW w hw).parent]; exact Ne.symm hne).2]
    exact a g hg
  · have hnd : ((Segments.updateIndexElements now st.index.segs
      (Segments.splitLoop now st.splitSize st.mergeSize merge false 0 st.scores.nextID 0 [] st.scores.segs).2.2).map
      (·.id)).Nodup := by rw [u1.ids]; exact h.index.segIDs
    have hbase : Has (writes d (splitScores now merge ent st).1) ent.index st.index.segs := by
      intro g hg
      rw [(writes_other _ (p := ent.index) fun w hw => by rw [(hV w hw).parent]; exact hne).2]
      exact hst.index g hg
    have hupd := updateIndex_has (now := now) (sch := sch) hnd hbase
    have S2 := splitLoop_steps ent.index (P := (· < st.index.nextID)) (now := now) (splitSize := st.splitSize)
      (mergeSize := st.mergeSize) (merge := true) (isIndex := true) (skipUnsplit := 1) (done := [])
      (nid := st.index.nextID) (skip := 0) hid
    rw [List.reverse_nil, List.nil_append] at S2
    obtain ⟨a, -, -⟩ := steps_has S2 ⟨hnd, hid⟩ hupd
    intro g hg
    have := a g hg
    rw [← writes_append] at this
    exact this

/-- If `split` saves nothing it changed nothing. -/
theorem split_unchanged {now : Nat} {merge : Bool} {sch : Sched} {ent : Entry} {st : ListState} (h : ListOK st)
    (h1 : (splitScores now merge ent st).2 = false) (h2 : (splitIndex now merge sch ent st).2 = false) :
    Lists.split now merge st = st ∧ (splitScores now merge ent st).1 ++ (splitIndex now merge sch ent st).1 = [] := by
  obtain ⟨a1, a2⟩ := splitLoop_same ent.scores h.scoresCount h1
  rw [List.reverse_nil, List.nil_append] at a2
  unfold splitIndex at h2
  simp only [a2] at h2
  have hi : Segments.updateIndexElements now st.index.segs [] = st.index.segs := rfl
  rw [hi] at h2
  obtain ⟨b1, b2⟩ := splitLoop_same ent.index h.indexCount h2
  rw [List.reverse_nil, List.nil_append] at b2
  constructor
  · unfold Lists.split
    simp only [a2, hi, b2]
  · have : (splitScores now merge ent st).1 = [] := a1
    rw [this]
    unfold splitIndex
    simp only [a2, hi, b1]
    rfl

end RankDB.Disk

import Verif.Proofs.ListOps
/-
Helper lemmas: NewSegmentsElements, populate, reindex, clone.
-/
namespace RankDB
open Spec

theorem cuts_tail {p : List Element} {ps : List (List Element)} (h : Elements.CutsBetweenKeys (p :: ps)) :
    Elements.CutsBetweenKeys ps := by
  intro a b pre post he
  exact h a b (p :: pre) post (by rw [he]; rfl)

/-- All elements after a cut are below the last element before it. -/
theorem cut_lt {p : List Element} {ps : List (List Element)} (hc : Elements.CutsBetweenKeys (p :: ps))
    (hne : ∀ q ∈ ps, q ≠ []) (hr : Ranked (p :: ps).flatten) (hst : ∀ e ∈ (p :: ps).flatten, e.tie < 2 ^ 32)
    {a : Element} (ha : a ∈ p.getLast?) : ∀ x ∈ ps.flatten, epos x < epos a := by
  intro x hx
  have hf := falling_of_ranked hr hst
  unfold Falling at hf
  rw [List.flatten_cons, List.pairwise_append] at hf
  obtain ⟨-, h2, h3⟩ := hf
  have hap : a ∈ p := List.mem_of_getLast? ha
  cases ps with
  | nil => simp at hx
  | cons q qs =>
    cases q with
    | nil => exact absurd rfl (hne [] (by simp))
    | cons b q =>
      have hk := hc p (b :: q) [] qs rfl a ha b rfl
      have hab := h3 a hap b (by simp)
      have hxb : epos x ≤ epos b := by
        simp only [List.flatten_cons, List.cons_append, List.mem_cons] at hx
        rcases hx with rfl | hx
        · exact Nat.le_refl _
        · simp only [List.flatten_cons, List.cons_append, List.pairwise_cons] at h2
          exact h2.1 x hx
      have ta := hst a (by simp [hap])
      have tb := hst b (by simp)
      have : epos b ≠ epos a := by
        intro he
        have := pos_inj tb ta he
        omega
      omega

namespace Segments

/-- Lower end of a segment, of the last or of one that reaches down to its last element. -/
def LowEnd (s : Seg) : Prop := ∃ e ∈ s.elems, e.score = s.min ∧ e.tie = s.minTie

theorem build_spec {now : Nat} : ∀ {pieces : List (List Element)} {next : Nat × Nat} {nid : Nat},
    pieces ≠ [] → (∀ p ∈ pieces, p ≠ []) → Elements.CutsBetweenKeys pieces → Spec.Ranked pieces.flatten →
    (∀ e ∈ pieces.flatten, Storable e) → next.2 < 2 ^ 32 → (∀ e ∈ pieces.flatten, epos e ≤ pos next.1 next.2) →
    Tiles (pos next.1 next.2) (build now next nid pieces).1 ∧
    (∀ s ∈ (build now next nid pieces).1, s.minTie < 2 ^ 32 ∧ s.maxTie < 2 ^ 32) ∧
    (∀ s ∈ (build now next nid pieces).1, ∀ e ∈ s.elems, InRange s e) ∧
    (build now next nid pieces).1.map (·.elems) = pieces ∧
    (build now next nid pieces).1.map (·.id) = List.range' nid pieces.length ∧
    (build now next nid pieces).2.2 = nid + pieces.length ∧
    Counted (build now next nid pieces).1 ∧
    (build now next nid pieces).2.1.Perm
      ((tagged (build now next nid pieces).1).map fun p => p.1.asIndex p.2) ∧
    (∀ s ∈ (build now next nid pieces).1, lo s = 0 ∨ LowEnd s) ∧
    (∀ s, (build now next nid pieces).1.head? = some s → s.max = next.1 ∧ s.maxTie = next.2)
  | [], _, _, h, _, _, _, _, _, _ => absurd rfl h
  | [] :: rest, _, _, _, h, _, _, _, _, _ => absurd rfl (h [] (by simp))
  | (e :: p) :: rest, next, nid, _, hne, hc, hr, hst, hnt, hnx => by
    have hmemL : (e :: p).getLast (by simp) ∈ (e :: p) := List.getLast_mem _
    have hlast : (e :: p).getLast (by simp) ∈ (e :: p).getLast? := by
      rw [List.getLast?_eq_some_getLast (by simp)]; rfl
    generalize hL : (e :: p).getLast (by simp) = last at hlast hmemL
    have hmm : Elements.minMax (e :: p) = (last.score, e.score, last.tie, e.tie) := by
      unfold Elements.minMax
      rw [Option.mem_def.1 hlast]; rfl
    have hstL : Storable last := hst last (by rw [List.flatten_cons]; exact List.mem_append_left _ hmemL)
    have hcut := cut_lt hc (fun q hq => hne q (by simp [hq])) hr (fun e he => (hst e he).tie) hlast
    have hfall : ∀ x ∈ e :: p, epos last ≤ epos x := by
      have hf := falling_of_ranked hr (fun e he => (hst e he).tie)
      unfold Falling at hf
      rw [List.flatten_cons, List.pairwise_append] at hf
      have hf := hf.1
      have hd : (e :: p) = (e :: p).dropLast ++ [last] := by
        rw [← hL]; exact (List.dropLast_concat_getLast (by simp)).symm
      intro x hx
      rw [hd] at hx hf
      rw [List.pairwise_append] at hf
      rcases List.mem_append.1 hx with hx | hx
      · exact hf.2.2 x hx last (by simp)
      · simp at hx; rw [hx]; exact Nat.le_refl _
    have hnx' : ∀ x ∈ e :: p, epos x ≤ pos next.1 next.2 := fun x hx =>
      hnx x (by rw [List.flatten_cons]; exact List.mem_append_left _ hx)
    unfold build
    simp only [hL, hmm]
    cases rest with
    | nil =>
      simp only [build, List.isEmpty_nil, if_true]
      refine ⟨⟨rfl, by simp [lo, pos]⟩, ?_, ?_, rfl, rfl, rfl, ?_, ?_, ?_, ?_⟩
      · intro s hs
        simp only [List.mem_singleton] at hs
        subst hs
        exact ⟨Nat.two_pow_pos 32, hnt⟩
      · intro s hs x hx
        simp only [List.mem_singleton] at hs
        subst hs
        exact ⟨by simp [lo, pos], hnx' x hx⟩
      · intro s hs
        simp only [List.mem_singleton] at hs
        subst hs; rfl
      · simp only [List.append_nil, tagged, List.flatMap_cons, List.flatMap_nil, List.map_map]
        exact elementIDs_perm _ _
      · intro s hs
        simp only [List.mem_singleton] at hs
        subst hs; left; simp [lo, pos]
      · intro s hs
        simp only [List.head?_cons, Option.some.injEq] at hs
        subst hs; exact ⟨rfl, rfl⟩
    | cons q qs =>
      simp only [List.isEmpty_cons, Bool.false_eq_true, if_false]
      have hq : ∃ b, b ∈ (q :: qs).flatten := by
        cases q with
        | nil => exact absurd rfl (hne [] (by simp))
        | cons b q => exact ⟨b, by simp⟩
      obtain ⟨b, hb⟩ := hq
      have hlo : 0 < epos last := by have := hcut b hb; omega
      have hpm : pos (prevMax last.score last.tie).1 (prevMax last.score last.tie).2 = epos last - 1 ∧
          (prevMax last.score last.tie).2 < 2 ^ 32 := by
        generalize hpm : prevMax last.score last.tie = pm
        obtain ⟨p1, p2⟩ := pm
        have := prevMax_cases hpm
        have := hstL.tie
        unfold epos pos at *
        simp only []
        omega
      obtain ⟨i1, i2, i3, i4, i5, i6, i7, i8, i9, i10⟩ := build_spec (now := now) (pieces := q :: qs)
        (next := prevMax last.score last.tie) (nid := nid + 1) (by simp)
        (fun x hx => hne x (by simp [List.mem_cons.1 hx])) (cuts_tail hc)
        (by rw [List.flatten_cons] at hr; exact (List.pairwise_append.1 hr).2.1)
        (fun x hx => hst x (by rw [List.flatten_cons]; exact List.mem_append_right _ hx))
        hpm.2 (fun x hx => by have := hcut x hx; rw [hpm.1]; omega)
      rw [hpm.1] at i1
      refine ⟨?_, ?_, ?_, ?_, ?_, ?_, ?_, ?_, ?_, ?_⟩
      · rw [tiles_cons]
        refine ⟨rfl, ?_, Or.inr ⟨?_, hlo, i1⟩⟩
        · exact hnx' last hmemL
        · exact tiles_ne_nil i1
      · intro s hs
        rcases List.mem_cons.1 hs with rfl | hs
        · exact ⟨hstL.tie, hnt⟩
        · exact i2 s hs
      · intro s hs x hx
        rcases List.mem_cons.1 hs with rfl | hs
        · exact ⟨hfall x hx, hnx' x hx⟩
        · exact i3 s hs x hx
      · rw [List.map_cons, i4]
      · rw [List.map_cons, i5]; rfl
      · rw [i6]; simp only [List.length_cons]; omega
      · intro s hs
        rcases List.mem_cons.1 hs with rfl | hs
        · rfl
        · exact i7 s hs
      · rw [tagged_cons, List.map_append, List.map_map]
        exact (elementIDs_perm _ _).append i8
      · intro s hs
        rcases List.mem_cons.1 hs with rfl | hs
        · right; exact ⟨last, hmemL, rfl, rfl⟩
        · exact i9 s hs
      · intro s hs
        simp only [List.head?_cons, Option.some.injEq] at hs
        subst hs; exact ⟨rfl, rfl⟩

/-- Same but for the range. -/
def SameElems (s t : Seg) : Prop := s.id = t.id ∧ s.n = t.n ∧ s.elems = t.elems

theorem forall₂_head {α β : Type} {R : α → β → Prop} {l : List α} {b b' : β} {l' : List β}
    (hb : ∀ a, R a b → R a b') (h : Forall₂ R l (b :: l')) : Forall₂ R l (b' :: l') := by
  cases h with
  | cons h hs => exact .cons (hb _ h) hs

theorem align_spec : ∀ {ss : List Seg} {prev : Seg} {H : Nat}, H < 2 ^ 64 →
    prev.max = H → prev.maxTie = 2 ^ 32 - 1 →
    (∀ s ∈ prev :: ss, s.elems ≠ [] ∧ ∀ x ∈ s.elems, s.min ≤ x.score ∧ x.tie < 2 ^ 32) →
    (∀ x ∈ prev.elems, x.score ≤ H) →
    ((prev :: ss).Pairwise fun s t => ∀ x ∈ t.elems, x.score < s.min) →
    (∀ s, (prev :: ss).getLast? = some s → s.min = 0 ∧ s.minTie = 0) →
    Forall₂ SameElems (align prev ss) (prev :: ss) ∧
    Tiles (pos H (2 ^ 32 - 1)) (align prev ss) ∧
    (∀ s ∈ align prev ss, s.minTie = 0 ∧ s.maxTie = 2 ^ 32 - 1) ∧
    (∀ s ∈ align prev ss, ∀ e ∈ s.elems, InRange s e)
  | [], prev, H, hH, hm, hmt, hne, hub, hpw, hl => by
    obtain ⟨l1, l2⟩ := hl prev rfl
    unfold align
    refine ⟨.cons ⟨rfl, rfl, rfl⟩ .nil, ⟨by unfold hi; rw [hm, hmt], by unfold lo; rw [l1, l2]; rfl⟩, ?_, ?_⟩
    · intro s hs; simp at hs; subst hs; exact ⟨l2, hmt⟩
    · intro s hs e he
      simp at hs; subst hs
      rw [inRange_aligned ⟨l2, hmt⟩ ((hne s (by simp)).2 e he).2]
      exact ⟨((hne s (by simp)).2 e he).1, by rw [hm]; exact hub e he⟩
  | t :: ss, prev, H, hH, hm, hmt, hne, hub, hpw, hl => by
    unfold align
    obtain ⟨p1, p2⟩ := List.pairwise_cons.1 hpw
    have hpn := hne prev (by simp)
    have htn := hne t (by simp)
    -- witnesses
    obtain ⟨x, hx⟩ := List.exists_mem_of_ne_nil _ htn.1
    obtain ⟨y, hy⟩ := List.exists_mem_of_ne_nil _ hpn.1
    have h1 := p1 t (by simp) x hx
    have h2 := hpn.2 y hy
    have h3 := hub y hy
    have hwrap : (prev.min + 2 ^ 64 - 1) % 2 ^ 64 = prev.min - 1 := by
      have : prev.min < 2 ^ 64 := by omega
      omega
    rw [hwrap]
    obtain ⟨i1, i2, i3, i4⟩ := align_spec (ss := ss)
      (prev := { t with maxTie := maxU32, max := prev.min - 1 }) (H := prev.min - 1) (by omega) rfl rfl
      (by
        intro s hs
        rcases List.mem_cons.1 hs with rfl | hs
        · exact htn
        · exact hne s (by simp [hs]))
      (by intro z hz; have := p1 t (by simp) z hz; omega)
      (by
        obtain ⟨q1, q2⟩ := List.pairwise_cons.1 p2
        exact List.pairwise_cons.2 ⟨q1, q2⟩)
      (by
        intro s hs
        cases ss with
        | nil =>
          simp only [List.getLast?_singleton, Option.some.injEq] at hs
          subst hs
          exact hl t rfl
        | cons u us =>
          rw [List.getLast?_cons_cons] at hs
          exact hl s (by rw [List.getLast?_cons_cons, List.getLast?_cons_cons]; exact hs))
    refine ⟨.cons ⟨rfl, rfl, rfl⟩ ?_, ?_, ?_, ?_⟩
    · exact forall₂_head (b := { t with maxTie := maxU32, max := prev.min - 1 }) (fun _ h => h) i1
    · rw [tiles_cons]
      refine ⟨by unfold hi; simp only []; rw [hm, hmt], ?_, Or.inr ⟨tiles_ne_nil i2, ?_, ?_⟩⟩
      · unfold lo hi pos; simp only []; rw [hm]; omega
      · unfold lo pos; simp only []; omega
      · have : lo { prev with minTie := 0 } - 1 = pos (prev.min - 1) (2 ^ 32 - 1) := by
          unfold lo pos; simp only []; omega
        rw [this]; exact i2
    · intro s hs
      rcases List.mem_cons.1 hs with rfl | hs
      · exact ⟨rfl, hmt⟩
      · exact i3 s hs
    · intro s hs e he
      rcases List.mem_cons.1 hs with rfl | hs
      · rw [inRange_aligned (s := { prev with minTie := 0 }) ⟨rfl, hmt⟩ (hpn.2 e he).2]
        exact ⟨(hpn.2 e he).1, by simp only []; rw [hm]; exact hub e he⟩
      · exact i4 s hs e he

theorem sameElems_tagged {a b : List Seg} (h : Forall₂ SameElems a b) : tagged a = tagged b := by
  induction h with
  | nil => rfl
  | cons h _ ih => rw [tagged_cons, tagged_cons, ih, h.1, h.2.2]

theorem sameElems_ids {a b : List Seg} (h : Forall₂ SameElems a b) : a.map (·.id) = b.map (·.id) := by
  induction h with
  | nil => rfl
  | cons h _ ih => rw [List.map_cons, List.map_cons, ih, h.1]

theorem fullSegment_tiles (now id : Nat) : Tiles top [fullSegment now id] := by
  refine ⟨rfl, ?_⟩
  simp [lo, pos, fullSegment]

theorem segsOK_full (now id : Nat) : SegsOK [fullSegment now id] where
  tiles := fullSegment_tiles now id
  ties := by intro s hs; simp at hs; subst hs; simp [fullSegment, maxU32]
  inRange := by intro s hs; simp at hs; subst hs; simp [fullSegment]
  ranked := by intro s hs; simp at hs; subst hs; simp [fullSegment, Spec.Ranked]
  distinct := by simp [allElems, fullSegment, DistinctIDs]
  storable := by simp [allElems, fullSegment]
  segIDs := by simp

/-- New segments from pieces of a ranked list. -/
theorem newSegmentsElements_spec {now want : Nat} {l : List Element} {pieces : List (List Element)} {isIndex : Bool}
    (hsp : Elements.splitSize l want = some pieces) (hr : Spec.Ranked l) (hd : DistinctIDs l)
    (hst : ∀ e ∈ l, Storable e) (hix : isIndex = true → ∀ e ∈ l, e.score = e.id) :
    let r := newSegmentsElements now pieces isIndex
    SegsOK r.1.segs ∧ Counted r.1.segs ∧ allElems r.1.segs = l ∧ r.1.isIndex = isIndex ∧
    (∀ s ∈ r.1.segs, 0 < s.id ∧ s.id < r.1.nextID) ∧ r.1.nextID ≤ l.length + 2 ∧
    r.2.Perm ((tagged r.1.segs).map fun p => p.1.asIndex p.2) ∧
    (isIndex = true → ∀ s ∈ r.1.segs, s.minTie = 0 ∧ s.maxTie = 2 ^ 32 - 1) := by
  by_cases hl : l = []
  · subst hl
    have hflat : pieces.flatten = [] := Elements.splitSize_flatten hsp
    have : ∀ {ps : List (List Element)} {next nid}, ps.flatten = [] → build now next nid ps = ([], [], nid) := by
      intro ps
      induction ps with
      | nil => intros; rfl
      | cons p ps ih =>
        intro next nid h
        rw [List.flatten_cons, List.append_eq_nil_iff] at h
        rw [h.1]
        unfold build
        exact ih h.2
    unfold newSegmentsElements
    rw [this hflat]
    simp only []
    refine ⟨segsOK_full _ _, ?_, ?_, trivial, ?_, ?_, ?_, ?_⟩
    · intro s hs; simp at hs; subst hs; rfl
    · simp [allElems, fullSegment]
    · intro s hs; simp at hs; subst hs; simp [fullSegment]
    · simp
    · simp [tagged, fullSegment]
    · intro _ s hs; simp at hs; subst hs; simp [fullSegment, maxU32]
  · have hflat := Elements.splitSize_flatten hsp
    have hne := Elements.splitSize_ne_nil hl hsp
    have hcuts := Elements.splitSize_cuts hsp
    have hpne : pieces ≠ [] := by rintro rfl; simp at hflat; exact hl (by simpa using hflat)
    have hlen : pieces.length ≤ l.length := by
      rw [← hflat]
      clear hsp hflat hcuts hpne
      induction pieces with
      | nil => simp
      | cons p ps ih =>
        have := ih fun q hq => hne q (by simp [hq])
        have : 0 < p.length := List.length_pos_iff.2 (hne p (by simp))
        simp only [List.flatten_cons, List.length_append, List.length_cons]
        omega
    have hflat' := hflat
    obtain ⟨b1, b2, b3, b4, b5, b6, b7, b8, b9, b10⟩ := build_spec (now := now) (next := (maxU64, maxU32)) (nid := 1)
      hpne hne hcuts (hflat ▸ hr) (by rw [hflat]; exact hst) (by decide)
      (by rw [hflat]; intro e he; exact epos_le_top (hst e he))
    generalize hb : build now (maxU64, maxU32) 1 pieces = B at *
    obtain ⟨segs, idx, nid⟩ := B
    simp only [] at b1 b2 b3 b4 b5 b6 b7 b8 b9 b10
    have hall : allElems segs = l := by
      rw [← hflat, ← b4]; rfl
    have hallmem : ∀ s ∈ segs, ∀ e ∈ s.elems, e ∈ l := by
      intro s hs e he; rw [← hall]; exact mem_allElems.2 ⟨s, hs, he⟩
    have hrk : ∀ s ∈ segs, Spec.Ranked s.elems := by
      intro s hs
      have h1 : s.elems.Sublist l := by
        rw [← hall]
        unfold allElems
        rw [List.flatMap_def]
        exact Elements.mem_flatten_sublist (List.mem_map.2 ⟨s, hs, rfl⟩)
      exact List.Pairwise.sublist h1 hr
    have hnd : (segs.map (·.id)).Nodup := by rw [b5]; exact List.nodup_range'
    have hidr : ∀ s ∈ segs, 0 < s.id ∧ s.id < nid := by
      intro s hs
      have : s.id ∈ segs.map (·.id) := List.mem_map.2 ⟨s, hs, rfl⟩
      rw [b5, List.mem_range'_1] at this
      omega
    have hok : SegsOK segs := ⟨b1, b2, b3, hrk, by rw [hall]; exact hd, by rw [hall]; exact hst, hnd⟩
    unfold newSegmentsElements
    rw [hb]
    simp only []
    cases hsegs : segs with
    | nil => rw [hsegs] at b1; exact absurd b1 (by simp [Tiles])
    | cons s ss =>
      simp only []
      rw [hsegs] at hall hidr hok b7 b8 b10 hrk b9 b2 b3 b4 b5
      cases isIndex with
      | false =>
        simp only [alignIndex, Bool.false_eq_true, if_false]
        exact ⟨hok, b7, hall, trivial, hidr, by omega, b8, by simp⟩
      | true =>
        simp only [alignIndex, if_true]
        have hscore := hix rfl
        have hd' := hok.distinct
        obtain ⟨m1, m2⟩ := b10 s rfl
        have hstr := hok.strict
        have hpe : ∀ t ∈ s :: ss, t.elems ≠ [] := by
          intro t ht
          apply hne
          rw [← b4]
          exact List.mem_map.2 ⟨t, ht, rfl⟩
        have hmemA : ∀ t ∈ s :: ss, ∀ x ∈ t.elems, x ∈ l := by rw [← hsegs]; exact hallmem
        have hpw := tiles_pairwise hok.tiles
        -- scores fall strictly
        have hP : (s :: ss).Pairwise fun a b => ∀ x ∈ b.elems, x.score < a.min := by
          refine List.Pairwise.imp_of_mem ?_ hpw
          intro a b ha hb hab x hx
          have hxl := hmemA b hb x hx
          have h1 := (b3 b hb x hx).2
          have h0 : 0 < lo a := by omega
          have h2 : epos x < lo a := by unfold epos; omega
          rcases b9 a ha with h | ⟨y, hy, hy1, hy2⟩
          · omega
          · have hyl := hmemA a ha y hy
            have hne : x.id ≠ y.id := by
              intro he
              have := hd.eq_of_id hxl hyl he
              subst this
              unfold epos lo at h2; rw [← hy1, ← hy2] at h2; omega
            rw [hscore x hxl, ← hy1, hscore y hyl]
            unfold epos lo pos at h2
            rw [← hy1, ← hy2, hscore x hxl, hscore y hyl] at h2
            have := (hst x hxl).tie
            have := (hst y hyl).tie
            omega
        obtain ⟨i1, i2, i3, i4⟩ := align_spec (ss := ss) (prev := s) (H := 2 ^ 64 - 1) (by decide)
          (by rw [m1]; rfl) (by rw [m2]; rfl)
          (by
            intro t ht
            refine ⟨hpe t ht, ?_⟩
            intro x hx
            have htie := (hst x (hmemA t ht x hx)).tie
            refine ⟨?_, htie⟩
            have h1 := (b3 t ht x hx).1
            have h2 := (b2 t ht).1
            unfold lo pos at h1
            omega)
          (by intro x hx; have := (hst x (hmemA s (by simp) x hx)).score; omega)
          hP
          (by
            intro t ht
            have htl : lo t = 0 := by
              have : ∀ {segs : List Seg} {h : Nat}, Tiles h segs → ∀ t, segs.getLast? = some t → lo t = 0 := by
                intro segs
                induction segs with
                | nil => intro h _ t ht; simp at ht
                | cons a as ih =>
                  intro h hh t ht
                  obtain ⟨q1, q2, q3⟩ := tiles_cons.1 hh
                  rcases q3 with ⟨rfl, q4⟩ | ⟨q4, q5, q6⟩
                  · simp at ht; rw [← ht]; exact q4
                  · cases as with
                    | nil => simp at q4
                    | cons b bs =>
                      rw [List.getLast?_cons_cons] at ht
                      exact ih q6 t ht
              exact this hok.tiles t ht
            unfold lo pos at htl; omega)
        have htag := sameElems_tagged i1
        have hallA : allElems (align s ss) = allElems (s :: ss) := by
          rw [← tagged_fst, ← tagged_fst, htag]
        refine ⟨⟨i2, ?_, i4, ?_, ?_, ?_, ?_⟩, ?_, ?_, trivial, ?_, ?_, ?_, ?_⟩
        · intro t ht; have := i3 t ht; omega
        · intro t ht
          obtain ⟨u, hu, hs⟩ := forall₂_mem i1 t ht
          rw [hs.2.2]; exact hrk u hu
        · rw [hallA]; exact hd'
        · rw [hallA]; exact hok.storable
        · rw [sameElems_ids i1]; exact hok.segIDs
        · intro t ht
          obtain ⟨u, hu, hs⟩ := forall₂_mem i1 t ht
          rw [hs.2.2, hs.2.1]; exact b7 u hu
        · rw [hallA]; exact hall
        · intro t ht
          obtain ⟨u, hu, hs⟩ := forall₂_mem i1 t ht
          rw [hs.1]; exact hidr u hu
        · omega
        · rw [htag]; exact b8
        · intro _; exact i3

end Segments

namespace Lists
open Segments

/-- An index for score segments. -/
theorem listOK_of_index {now want merge split : Nat} {scores : Segs} {idx : List Element} {p : List (List Element)}
    (hok : SegsOK scores.segs) (hc : Counted scores.segs) (hid : IDsBelow scores) (hf : scores.isIndex = false)
    (hperm : idx.Perm ((tagged scores.segs).map fun p => p.1.asIndex p.2)) (hr : Spec.Ranked idx)
    (hsp : Elements.splitSize idx want = some p) (hlen : (allElems scores.segs).length + 2 ≤ 2 ^ 32) :
    ListOK { scores := scores, index := (newSegmentsElements now p true).1, mergeSize := merge, splitSize := split } := by
  have hmem : ∀ x ∈ idx, ∃ e ∈ allElems scores.segs, ∃ s ∈ scores.segs, x = e.asIndex s.id := by
    intro x hx
    obtain ⟨⟨e, i⟩, h1, rfl⟩ := List.mem_map.1 (hperm.mem_iff.1 hx)
    obtain ⟨s, hs, rfl, he⟩ := mem_tagged.1 h1
    exact ⟨e, mem_allElems.2 ⟨s, hs, he⟩, s, hs, rfl⟩
  have hids : (idx.map (·.id)).Perm ((allElems scores.segs).map (·.id)) := by
    refine (hperm.map _).trans (.of_eq ?_)
    rw [← tagged_fst, List.map_map, List.map_map]
    rfl
  have hlen' : idx.length = (allElems scores.segs).length := by
    have := hids.length_eq; simpa using this
  have hbyID : ∀ x ∈ idx, x.score = x.id := by
    intro x hx
    obtain ⟨e, he, s, hs, rfl⟩ := hmem x hx; rfl
  obtain ⟨n1, n2, n3, n4, n5, n6, n7, n8⟩ := newSegmentsElements_spec (now := now) (isIndex := true) hsp hr
    (by unfold DistinctIDs; exact hids.nodup_iff.2 hok.distinct)
    (by
      intro x hx
      obtain ⟨e, he, s, hs, rfl⟩ := hmem x hx
      exact asIndex_storable (hok.storable e he) _)
    (fun _ => hbyID)
  refine ⟨hok, n1, hc, n2, hid, ⟨n5, Nat.le_trans n6 (by omega)⟩, ⟨?_, ?_, n8 rfl⟩, ⟨hf, n4⟩⟩
  · unfold indexed
    simp only [n3]
    rw [tagged_placement]
    refine (hperm.map _).trans (.of_eq ?_)
    rw [List.map_map]
    apply List.map_congr_left
    rintro ⟨e, i⟩ hp
    obtain ⟨s, hs, rfl, he⟩ := mem_tagged.1 hp
    have := (hid.1 s hs).2
    have := hid.2
    simp [Element.asIndex, Nat.mod_eq_of_lt (show s.id < 2 ^ 32 by omega)]
  · rw [show allElems _ = idx from n3]; exact hbyID

theorem build_spec {now want merge split : Nat} {l : List Element} {st : ListState}
    (h : build now want merge split l = some st) (hr : Spec.Ranked l) (hd : DistinctIDs l)
    (hst : ∀ e ∈ l, Storable e) (hlen : l.length + 2 ≤ 2 ^ 32) :
    ListOK st ∧ st.content = l ∧ st.mergeSize = merge ∧ st.splitSize = split := by
  unfold build at h
  cases hsp : Elements.splitSize l want with
  | none => simp [hsp] at h
  | some pieces =>
    simp only [hsp] at h
    obtain ⟨n1, n2, n3, n4, n5, n6, n7, n8⟩ := newSegmentsElements_spec (now := now) (isIndex := false) hsp hr hd hst (by simp)
    generalize newSegmentsElements now pieces false = R at *
    cases hsp2 : Elements.splitSize (Elements.sortSlice R.2) want with
    | none => simp [hsp2] at h
    | some idx =>
      simp only [hsp2, Option.some.injEq] at h
      subst h
      refine ⟨?_, n3, rfl, rfl⟩
      exact listOK_of_index n1 n2 ⟨n5, by omega⟩ n4 ((sortSlice_perm _).trans n7) (sortSlice_ranked _) hsp2
        (by rw [n3]; exact hlen)

theorem build_returns {now want merge split : Nat} {l : List Element} (hw : 0 < want) :
    ∃ st, build now want merge split l = some st := by
  unfold build
  obtain ⟨p, hp⟩ := Elements.splitSize_some (l := l) hw
  rw [hp]
  simp only []
  obtain ⟨q, hq⟩ := Elements.splitSize_some (l := Elements.sortSlice (newSegmentsElements now p false).2) hw
  rw [hq]
  exact ⟨_, rfl⟩

theorem initEmpty_spec (now merge split : Nat) : ListOK (initEmpty now merge split) where
  scores := segsOK_full now 1
  index := segsOK_full now 1
  scoresCount := by intro s hs; simp [initEmpty, empty] at hs; subst hs; rfl
  indexCount := by intro s hs; simp [initEmpty, empty] at hs; subst hs; rfl
  scoresIDs := by simp [IDsBelow, initEmpty, empty, fullSegment]
  indexIDs := by simp [IDsBelow, initEmpty, empty, fullSegment]
  link := by
    refine ⟨by simp [indexed, placement, initEmpty, empty, fullSegment, allElems], ?_, ?_⟩
    · simp [initEmpty, empty, fullSegment, allElems]
    · intro s hs; simp [initEmpty, empty] at hs; subst hs; simp [fullSegment, maxU32]
  flags := ⟨rfl, rfl⟩

theorem initEmpty_content (now merge split : Nat) : (initEmpty now merge split).content = [] := by
  simp [initEmpty, empty, fullSegment, allElems, ListState.content]

theorem populate_spec {now : Nat} {sch shuffle : Sched} {reduce : Nat → Nat} {merge split : Nat} {l : List Element}
    {st : ListState} (h : populate now sch shuffle reduce merge split l = some st) (hd : DistinctIDs l)
    (hst : ∀ e ∈ l, Storable e) (hlen : l.length + 2 ≤ 2 ^ 32) :
    ListOK st ∧ st.content.Perm l ∧ st.mergeSize = merge ∧ st.splitSize = split := by
  unfold populate at h
  split at h
  · rename_i he
    rw [List.isEmpty_iff] at he
    simp only [Option.some.injEq] at h
    subst h he
    exact ⟨initEmpty_spec _ _ _, by rw [initEmpty_content], rfl, rfl⟩
  · split at h
    · simp only [] at h
      have hp := shuffle.perm l
      generalize shuffle.order l = l' at *
      have hd' : DistinctIDs l' := hd.perm hp.symm
      have hst' : ∀ e ∈ l', Storable e := fun e he => hst e (hp.mem_iff.1 he)
      have hsort := sortSlice_perm (l'.take 100000)
      cases hb : build now (reduce ((merge + split) / 2)) merge split (Elements.sortSlice (l'.take 100000)) with
      | none => simp [hb] at h
      | some s1 =>
        simp only [hb] at h
        have hdt : DistinctIDs (l'.take 100000 ++ l'.drop 100000) := by rw [List.take_append_drop]; exact hd'
        have hdt1 : DistinctIDs (l'.take 100000) := by
          unfold DistinctIDs at *
          exact List.Pairwise.sublist ((List.sublist_append_left _ _).map _) hdt
        obtain ⟨b1, b2, b3, b4⟩ := build_spec hb (sortSlice_ranked _) (hdt1.perm hsort.symm)
          (fun e he => hst' e (List.mem_of_mem_take (hsort.mem_iff.1 he)))
          (by rw [hsort.length_eq, List.length_take]; have := hp.length_eq; omega)
        obtain ⟨c1, c2, c3⟩ := insert_spec b1 (fun e he => hst' e (List.mem_of_mem_drop he))
          (by rw [b2]; exact hdt.perm (hsort.symm.append_right _)) h
        refine ⟨c1, c2.trans ?_, by rw [c3.1, b3], by rw [c3.2, b4]⟩
        rw [b2]
        refine (hsort.append_right _).trans ?_
        rw [List.take_append_drop]; exact hp
    · have hsort := sortSlice_perm l
      obtain ⟨b1, b2, b3⟩ := build_spec h (sortSlice_ranked _) (hd.perm hsort.symm)
        (fun e he => hst e (hsort.mem_iff.1 he)) (by rw [hsort.length_eq]; exact hlen)
      exact ⟨b1, by rw [b2]; exact hsort, b3⟩

theorem populate_returns {now : Nat} {sch shuffle : Sched} {reduce : Nat → Nat} {merge split : Nat} {l : List Element}
    (hd : DistinctIDs l) (hst : ∀ e ∈ l, Storable e) (hlen : l.length + 2 ≤ 2 ^ 32)
    (hw : 0 < (merge + split) / 2) (hred : ∀ n, 0 < n → 0 < reduce n) (hs : 4 ≤ split) :
    ∃ st, populate now sch shuffle reduce merge split l = some st := by
  unfold populate
  split
  · exact ⟨_, rfl⟩
  · split
    · simp only []
      have hp := shuffle.perm l
      generalize shuffle.order l = l' at *
      have hsort := sortSlice_perm (l'.take 100000)
      obtain ⟨s1, hb⟩ := build_returns (now := now) (merge := merge) (split := split)
        (l := Elements.sortSlice (l'.take 100000)) (hred _ hw)
      rw [hb]
      simp only []
      have hd' : DistinctIDs l' := hd.perm hp.symm
      have hdt1 : DistinctIDs (l'.take 100000) := by
        unfold DistinctIDs at *
        exact List.Pairwise.sublist ((List.take_sublist _ _).map _) hd'
      obtain ⟨b1, b2, b3, b4⟩ := build_spec hb (sortSlice_ranked _) (hdt1.perm hsort.symm)
        (fun e he => hst e (hp.mem_iff.1 (List.mem_of_mem_take (hsort.mem_iff.1 he))))
        (by rw [hsort.length_eq, List.length_take]; have := hp.length_eq; omega)
      exact insert_returns b1 (by omega)
    · exact build_returns hw

theorem elementIndexAll_spec {sch : Sched} {segs : List Seg} :
    (elementIndexAll sch segs).Perm ((tagged segs).map fun p => p.1.asIndex p.2) ∧
    Spec.Ranked (elementIndexAll sch segs) := by
  refine ⟨?_, sortSlice_ranked _⟩
  unfold elementIndexAll
  refine (sortSlice_perm _).trans ((sch.perm _).flatten.trans ?_)
  rw [← List.flatMap_def]
  unfold tagged
  rw [List.map_flatMap]
  apply flatMap_perm
  intro s _
  rw [List.map_map]
  exact elementIDs_perm _ _

/-- `Reindex` needs nothing of the index. -/
theorem reindex_spec {now : Nat} {sch : Sched} {st st' : ListState} (hok : SegsOK st.scores.segs)
    (hc : Counted st.scores.segs) (hid : IDsBelow st.scores) (hf : st.scores.isIndex = false)
    (hlen : st.content.length + 2 ≤ 2 ^ 32) (h : reindex now sch st = some st') :
    ListOK st' ∧ st'.scores = st.scores ∧ st'.mergeSize = st.mergeSize ∧ st'.splitSize = st.splitSize := by
  unfold reindex at h
  cases hsp : Elements.splitSize (elementIndexAll sch st.scores.segs) (wantSize st) with
  | none => simp [hsp] at h
  | some p =>
    simp only [hsp, Option.map_some, Option.some.injEq] at h
    subst h
    obtain ⟨e1, e2⟩ := elementIndexAll_spec (sch := sch) (segs := st.scores.segs)
    exact ⟨listOK_of_index hok hc hid hf e1 e2 hsp hlen, rfl, rfl, rfl⟩

theorem reindex_returns {now : Nat} {sch : Sched} {st : ListState} (hw : 0 < wantSize st) :
    ∃ st', reindex now sch st = some st' := by
  unfold reindex
  obtain ⟨p, hp⟩ := Elements.splitSize_some (l := elementIndexAll sch st.scores.segs) hw
  rw [hp]; exact ⟨_, rfl⟩

/-- Same range and elements. -/
def Copy (s t : Seg) : Prop :=
  s.min = t.min ∧ s.max = t.max ∧ s.minTie = t.minTie ∧ s.maxTie = t.maxTie ∧ s.elems = t.elems ∧ s.n = t.elems.length

theorem cloneSegs_spec {now : Nat} : ∀ {segs : List Seg} {nid : Nat},
    Forall₂ Copy (cloneSegs now nid segs).1 segs ∧
    (cloneSegs now nid segs).1.map (·.id) = List.range' nid segs.length ∧
    (cloneSegs now nid segs).2.2 = nid + segs.length ∧
    (cloneSegs now nid segs).2.1.Perm ((tagged (cloneSegs now nid segs).1).map fun p => p.1.asIndex p.2)
  | [], nid => ⟨.nil, rfl, rfl, .refl _⟩
  | s :: ss, nid => by
    obtain ⟨i1, i2, i3, i4⟩ := cloneSegs_spec (now := now) (segs := ss) (nid := nid + 1)
    unfold cloneSegs
    refine ⟨.cons ⟨rfl, rfl, rfl, rfl, rfl, rfl⟩ i1, ?_, ?_, ?_⟩
    · rw [List.map_cons, i2, List.length_cons, List.range'_succ]
    · rw [i3, List.length_cons]; omega
    · rw [tagged_cons, List.map_append, List.map_map]
      exact (elementIDs_perm _ _).append i4

theorem clone_spec {now merge split : Nat} {org st : ListState} (hok : SegsOK org.scores.segs)
    (hlen : org.content.length + 2 ≤ 2 ^ 32) (hsegs : org.scores.segs.length + 1 ≤ 2 ^ 32)
    (h : clone now merge split org = some st) :
    ListOK st ∧ st.content = org.content ∧ st.mergeSize = merge ∧ st.splitSize = split := by
  unfold clone at h
  obtain ⟨c1, c2, c3, c4⟩ := cloneSegs_spec (now := now) (segs := org.scores.segs) (nid := 1)
  generalize cloneSegs now 1 org.scores.segs = R at *
  cases hsp : Elements.splitSize (Elements.sortSlice R.2.1) ((merge + split) / 2) with
  | none => simp [hsp] at h
  | some p =>
    simp only [hsp, Option.map_some, Option.some.injEq] at h
    subst h
    have hall : allElems R.1 = allElems org.scores.segs := by
      clear c2 c3 c4 hsp hok hlen hsegs
      generalize org.scores.segs = segs at c1
      generalize R.1 = segs' at c1
      unfold allElems
      induction c1 with
      | nil => rfl
      | cons h _ ih => rw [List.flatMap_cons, List.flatMap_cons, ih, h.2.2.2.2.1]
    have htiles : Tiles top R.1 := by
      refine tiles_congr ?_ hok.tiles
      clear c2 c3 c4 hsp hok hlen hsegs hall
      generalize org.scores.segs = segs at c1
      generalize R.1 = segs' at c1
      induction c1 with
      | nil => rfl
      | cons h _ ih =>
        obtain ⟨m1, m2, m3, m4, -⟩ := h
        rw [List.map_cons, List.map_cons, ih]; unfold lo hi; rw [m1, m2, m3, m4]
    have hR : SegsOK R.1 := by
      refine ⟨htiles, ?_, ?_, ?_, ?_, ?_, ?_⟩
      · intro s hs
        obtain ⟨t, ht, m⟩ := forall₂_mem c1 s hs
        have := hok.ties t ht
        obtain ⟨m1, m2, m3, m4, -⟩ := m
        omega
      · intro s hs e he
        obtain ⟨t, ht, m⟩ := forall₂_mem c1 s hs
        obtain ⟨m1, m2, m3, m4, m5, m6⟩ := m
        rw [m5] at he
        have := hok.inRange t ht e he
        unfold InRange lo hi at *
        rw [m1, m2, m3, m4]; exact this
      · intro s hs
        obtain ⟨t, ht, m⟩ := forall₂_mem c1 s hs
        rw [m.2.2.2.2.1]; exact hok.ranked t ht
      · rw [hall]; exact hok.distinct
      · rw [hall]; exact hok.storable
      · rw [c2]; exact List.nodup_range'
    refine ⟨listOK_of_index hR ?_ ⟨?_, ?_⟩ rfl ((sortSlice_perm _).trans c4) (sortSlice_ranked _) hsp ?_, hall, rfl, rfl⟩
    · intro s hs
      obtain ⟨t, ht, m⟩ := forall₂_mem c1 s hs
      rw [m.2.2.2.2.1, m.2.2.2.2.2]
    · intro s hs
      have : s.id ∈ R.1.map (·.id) := List.mem_map.2 ⟨s, hs, rfl⟩
      rw [c2, List.mem_range'_1] at this
      simp only []
      omega
    · simp only []; omega
    · rw [hall]; exact hlen

theorem clone_returns {now merge split : Nat} {org : ListState} (hw : 0 < (merge + split) / 2) :
    ∃ st, clone now merge split org = some st := by
  unfold clone
  obtain ⟨p, hp⟩ := Elements.splitSize_some (l := Elements.sortSlice (cloneSegs now 1 org.scores.segs).2.1) hw
  simp only [hp]; exact ⟨_, rfl⟩

end Lists
end RankDB

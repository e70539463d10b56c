import Verif.Proofs.Tiles
import Verif.Proofs.Sort
/-
Helper lemmas: changes of segments that keep their ranges.
-/
namespace RankDB
open Spec

/-- Elements together with the ID of their segment. -/
def tagged (segs : List Seg) : List (Element × Nat) := segs.flatMap fun s => s.elems.map fun e => (e, s.id)

theorem tagged_cons (s : Seg) (ss : List Seg) :
    tagged (s :: ss) = s.elems.map (fun e => (e, s.id)) ++ tagged ss := rfl

theorem tagged_fst (segs : List Seg) : (tagged segs).map (·.1) = allElems segs := by
  unfold tagged allElems
  rw [List.map_flatMap]
  congr 1
  funext s
  simp [Function.comp_def]

theorem tagged_placement (segs : List Seg) : placement segs = (tagged segs).map fun p => (p.1.id, p.2) := by
  unfold tagged placement
  rw [List.map_flatMap]
  congr 1
  funext s
  simp [Function.comp_def]

theorem mem_tagged {segs : List Seg} {e : Element} {i : Nat} :
    (e, i) ∈ tagged segs ↔ ∃ s ∈ segs, s.id = i ∧ e ∈ s.elems := by
  unfold tagged
  simp only [List.mem_flatMap, List.mem_map, Prod.mk.injEq]
  constructor
  · rintro ⟨s, hs, e', he', rfl, rfl⟩; exact ⟨s, hs, rfl, he'⟩
  · rintro ⟨s, hs, rfl, he⟩; exact ⟨s, hs, e, he, rfl, rfl⟩

theorem mem_allElems {segs : List Seg} {e : Element} : e ∈ allElems segs ↔ ∃ s ∈ segs, e ∈ s.elems := by
  simp [allElems]

theorem allElems_append (a b : List Seg) : allElems (a ++ b) = allElems a ++ allElems b := by
  simp [allElems]

theorem tagged_append (a b : List Seg) : tagged (a ++ b) = tagged a ++ tagged b := by
  simp [tagged]

/-- Same ID and same range. -/
def SameRange (s t : Seg) : Prop :=
  s.id = t.id ∧ s.min = t.min ∧ s.max = t.max ∧ s.minTie = t.minTie ∧ s.maxTie = t.maxTie

theorem SameRange.lo {s t : Seg} (h : SameRange s t) : Spec.lo s = Spec.lo t := by
  obtain ⟨-, h2, h3, h4, h5⟩ := h; unfold Spec.lo; rw [h2, h4]
theorem SameRange.hi {s t : Seg} (h : SameRange s t) : Spec.hi s = Spec.hi t := by
  obtain ⟨-, h2, h3, h4, h5⟩ := h; unfold Spec.hi; rw [h3, h5]
theorem SameRange.inRange {s t : Seg} (h : SameRange s t) (e : Element) : InRange s e ↔ InRange t e := by
  unfold InRange; rw [h.lo, h.hi]
theorem SameRange.refl (s : Seg) : SameRange s s := ⟨rfl, rfl, rfl, rfl, rfl⟩
theorem SameRange.trans {s t u : Seg} (h : SameRange s t) (h' : SameRange t u) : SameRange s u := by
  unfold SameRange at *; simp_all

/-- Two sequences related element by element. -/
inductive Forall₂ {α β : Type} (R : α → β → Prop) : List α → List β → Prop
  | nil : Forall₂ R [] []
  | cons {a b l l'} : R a b → Forall₂ R l l' → Forall₂ R (a :: l) (b :: l')

/-- Two sequences of segments with the same IDs and ranges. -/
abbrev SameRanges (segs' segs : List Seg) : Prop := Forall₂ SameRange segs' segs

theorem forall₂_map_left {α : Type} {R : α → α → Prop} (f : α → α) : ∀ {l : List α}, (∀ a ∈ l, R (f a) a) →
    Forall₂ R (l.map f) l
  | [], _ => .nil
  | a :: l, h => .cons (h a (by simp)) (forall₂_map_left f fun b hb => h b (by simp [hb]))

theorem forall₂_mem {α β : Type} {R : α → β → Prop} : ∀ {l : List α} {l' : List β}, Forall₂ R l l' → ∀ a ∈ l, ∃ b ∈ l', R a b
  | _, _, .nil, _, h => by simp at h
  | _, _, .cons h hs, a, hm => by
    rcases List.mem_cons.1 hm with rfl | hm
    · exact ⟨_, by simp, h⟩
    · obtain ⟨b, hb, hr⟩ := forall₂_mem hs a hm
      exact ⟨b, by simp [hb], hr⟩

theorem forall₂_refl {α : Type} {R : α → α → Prop} (hr : ∀ a, R a a) : ∀ l : List α, Forall₂ R l l
  | [] => .nil
  | a :: l => .cons (hr a) (forall₂_refl hr l)

theorem forall₂_trans {α : Type} {R : α → α → Prop} (ht : ∀ a b c, R a b → R b c → R a c) :
    ∀ {l l' l'' : List α}, Forall₂ R l l' → Forall₂ R l' l'' → Forall₂ R l l''
  | _, _, _, .nil, .nil => .nil
  | _, _, _, .cons h hs, .cons h' hs' => .cons (ht _ _ _ h h') (forall₂_trans ht hs hs')

theorem SameRanges.refl (segs : List Seg) : SameRanges segs segs := forall₂_refl SameRange.refl segs
theorem SameRanges.trans {a b c : List Seg} (h : SameRanges a b) (h' : SameRanges b c) : SameRanges a c :=
  forall₂_trans (R := SameRange) (fun _ _ _ h1 h2 => h1.trans h2) h h'

theorem SameRanges.length {a b : List Seg} (h : SameRanges a b) : a.length = b.length := by
  induction h with
  | nil => rfl
  | cons _ _ ih => simp [ih]

theorem SameRanges.ids {a b : List Seg} (h : SameRanges a b) : a.map (·.id) = b.map (·.id) := by
  induction h with
  | nil => rfl
  | cons h _ ih => simp [ih, h.1]

theorem SameRanges.tiles {a b : List Seg} (h : SameRanges a b) {t : Nat} (ht : Tiles t b) : Tiles t a := by
  refine tiles_congr ?_ ht
  clear ht
  induction h with
  | nil => rfl
  | cons h _ ih => simp [ih, h.lo, h.hi]

/-- Well-formedness after a change of the elements. -/
theorem segsOK_of_same {segs segs' : List Seg} (h : SegsOK segs) (hs : SameRanges segs' segs)
    (hr : ∀ s ∈ segs', ∀ e ∈ s.elems, InRange s e) (hrk : ∀ s ∈ segs', Ranked s.elems)
    (hd : DistinctIDs (allElems segs')) (hst : ∀ e ∈ allElems segs', Storable e) : SegsOK segs' where
  tiles := hs.tiles h.tiles
  ties := by
    intro s hm
    obtain ⟨t, ht, he⟩ := forall₂_mem hs s hm
    have := h.ties t ht
    obtain ⟨-, -, -, e1, e2⟩ := he
    omega
  inRange := hr
  ranked := hrk
  distinct := hd
  storable := hst
  segIDs := by rw [hs.ids]; exact h.segIDs

theorem idsBelow_of_same {segs segs' : List Seg} {n : Nat} {b : Bool} (hs : SameRanges segs' segs)
    (h : IDsBelow ⟨segs, n, b⟩) : IDsBelow ⟨segs', n, b⟩ := by
  refine ⟨?_, h.2⟩
  intro s hm
  obtain ⟨t, ht, he⟩ := forall₂_mem hs s hm
  have := h.1 t ht
  rw [he.1]; exact this

theorem aligned_of_same {segs segs' : List Seg} (hs : SameRanges segs' segs)
    (h : ∀ s ∈ segs, s.minTie = 0 ∧ s.maxTie = 2 ^ 32 - 1) :
    ∀ s ∈ segs', s.minTie = 0 ∧ s.maxTie = 2 ^ 32 - 1 := by
  intro s hm
  obtain ⟨t, ht, he⟩ := forall₂_mem hs s hm
  have := h t ht
  obtain ⟨-, -, -, e1, e2⟩ := he
  omega

theorem flatMap_append_perm {α β : Type} (f g : α → List β) : ∀ l : List α,
    (l.flatMap fun a => f a ++ g a).Perm (l.flatMap f ++ l.flatMap g)
  | [] => by simp
  | a :: l => by
    simp only [List.flatMap_cons, List.append_assoc]
    refine List.Perm.append_left _ ?_
    refine ((flatMap_append_perm f g l).append_left _).trans ?_
    rw [← List.append_assoc, ← List.append_assoc]
    exact List.perm_append_comm.append_right _

theorem flatMap_perm {α β : Type} {f g : α → List β} : ∀ {l : List α}, (∀ a ∈ l, (f a).Perm (g a)) →
    (l.flatMap f).Perm (l.flatMap g)
  | [], _ => by simp
  | a :: l, h => by
    simp only [List.flatMap_cons]
    exact (h a (by simp)).append (flatMap_perm fun b hb => h b (by simp [hb]))

theorem flatMap_congr' {α β : Type} {f g : α → List β} {l : List α} (h : ∀ a ∈ l, f a = g a) :
    l.flatMap f = l.flatMap g := by
  rw [List.flatMap_def, List.flatMap_def, List.map_congr_left h]

namespace Segments

/-! ### Insert -/

/-- The segment after insertion. -/
def insSeg (now : Nat) (l : List Element) (s : Seg) : Seg :=
  if sel s l = [] then s else Segment.replace now s (Elements.merge 0 false s.elems (sel s l))

theorem insertLoop_eq {now h : Nat} {segs : List Seg} {l : List Element} (ht : Tiles h segs)
    (hties : ∀ s ∈ segs, s.minTie < 2 ^ 32 ∧ s.maxTie < 2 ^ 32) (hs : ∀ e ∈ l, Storable e)
    (hf : Falling l) (hh : ∀ e ∈ l, epos e ≤ h) :
    insertLoop now segs l = (segs.map (insSeg now l),
      segs.flatMap fun s => if sel s l = [] then [] else [Elements.elementIDs (sel s l) s.id]) := by
  induction segs generalizing h l with
  | nil => rfl
  | cons s ss ih =>
    obtain ⟨h1, h2, h3⟩ := tiles_cons.1 ht
    have hh' : ∀ e ∈ l, epos e ≤ hi s := by intro e he; have := hh e he; omega
    have ⟨e1, e2⟩ := sel_head hf hh'
    unfold insertLoop
    rw [filterIdx_below (hties s (by simp)) hs hh']
    simp only []
    rw [e1]
    by_cases hsel : sel s l = []
    · simp only [hsel, List.length_nil, if_true, List.map_cons, List.flatMap_cons, List.nil_append]
      have hfl : l.filter (fun e => decide (epos e < lo s)) = l := by
        rw [← e2, ← drop_takeWhile, e1, hsel]; rfl
      rcases h3 with ⟨rfl, h4⟩ | ⟨_, h4, h5⟩
      · simp [insertLoop, insSeg, hsel]
      · rw [ih h5 (fun s hs => hties s (by simp [hs])) hs hf]
        · simp [insSeg, hsel]
        · intro e he
          rw [← hfl] at he
          simp at he; omega
    · rw [if_neg (by intro h'; exact hsel (List.length_eq_zero_iff.1 h'.symm))]
      have hd : l.drop (sel s l).length = l.filter (fun e => decide (epos e < lo s)) := by
        rw [← e2, ← drop_takeWhile, e1]
      have htk : l.take (sel s l).length = sel s l := by
        rw [← e1]; exact take_takeWhile _ _
      rw [hd, htk, List.drop_zero, List.map_cons, List.flatMap_cons, if_neg hsel]
      have hIH : insertLoop now ss (l.filter (fun e => decide (epos e < lo s))) =
          (ss.map (insSeg now l),
            ss.flatMap fun s => if sel s l = [] then [] else [Elements.elementIDs (sel s l) s.id]) := by
        rcases h3 with ⟨rfl, h4⟩ | ⟨_, h4, h5⟩
        · simp [insertLoop]
        · have hsel' : ∀ t ∈ ss, sel t (l.filter (fun e => decide (epos e < lo s))) = sel t l := by
            intro t hm
            exact sel_filter_lt (by have := tiles_le h5 t hm; omega)
          rw [ih h5 (fun s hs => hties s (by simp [hs])) (fun e he => hs e (List.mem_filter.1 he).1)
            (hf.filter _) (by intro e he; simp at he; omega)]
          refine Prod.ext ?_ ?_
          · apply List.map_congr_left
            intro t hm
            unfold insSeg
            rw [hsel' t hm]
          · apply flatMap_congr'
            intro t hm
            rw [hsel' t hm]
      rw [hIH]
      simp [insSeg, hsel]

theorem insSeg_same (now : Nat) (l : List Element) (s : Seg) : SameRange (insSeg now l s) s := by
  unfold insSeg; split
  · exact SameRange.refl s
  · exact ⟨rfl, rfl, rfl, rfl, rfl⟩

theorem insSeg_perm (now : Nat) (l : List Element) (s : Seg) :
    (insSeg now l s).elems.Perm (s.elems ++ sel s l) := by
  unfold insSeg; split
  · rename_i h; simp [h]
  · exact Elements.merge_perm 0 false s.elems _

theorem insSeg_ranked (now : Nat) {l : List Element} {s : Seg} (hs : Spec.Ranked s.elems) (hl : Spec.Ranked l) :
    Spec.Ranked (insSeg now l s).elems := by
  unfold insSeg; split
  · exact hs
  · exact Elements.merge_ranked 0 false s.elems _ hs (hl.filter _)

theorem insSeg_count (now : Nat) {l : List Element} {s : Seg} (h : s.n = s.elems.length) :
    (insSeg now l s).n = (insSeg now l s).elems.length := by
  unfold insSeg; split
  · exact h
  · rfl

theorem elementIDs_perm (l : List Element) (i : Nat) :
    (Elements.elementIDs l i).Perm (l.map (·.asIndex i)) := sortSlice_perm _

/-- Insertion into well-formed segments. -/
theorem insert_spec {now : Nat} {sch : Sched} {segs : List Seg} {l : List Element} (hok : SegsOK segs)
    (hl : ∀ e ∈ l, Storable e) (hd : DistinctIDs (allElems segs ++ l)) :
    SegsOK (insert now sch segs l).1 ∧ SameRanges (insert now sch segs l).1 segs ∧
    (Counted segs → Counted (insert now sch segs l).1) ∧
    (tagged (insert now sch segs l).1).Perm
      (tagged segs ++ segs.flatMap fun s => (sel s l).map fun e => (e, s.id)) ∧
    (allElems (insert now sch segs l).1).Perm (allElems segs ++ l) ∧
    (insert now sch segs l).2.Perm (segs.flatMap fun s => (sel s l).map (·.asIndex s.id)) := by
  have hp := sortSlice_perm l
  have hl' : ∀ e ∈ Elements.sortSlice l, Storable e := fun e he => hl e (hp.mem_iff.1 he)
  have hf : Falling (Elements.sortSlice l) :=
    falling_of_ranked (sortSlice_ranked l) fun e he => (hl' e he).tie
  have heq := insertLoop_eq (now := now) hok.tiles hok.ties hl' hf fun e he => epos_le_top (hl' e he)
  have h1 : (insert now sch segs l).1 = segs.map (insSeg now (Elements.sortSlice l)) := by
    unfold insert; rw [heq]
  have h2 : (insert now sch segs l).2 = Elements.sortSlice (sch.order (segs.flatMap fun s =>
      if sel s (Elements.sortSlice l) = [] then []
      else [Elements.elementIDs (sel s (Elements.sortSlice l)) s.id])).flatten := by
    unfold insert; rw [heq]
  have hsame : SameRanges (insert now sch segs l).1 segs := by
    rw [h1]; exact forall₂_map_left _ fun s _ => insSeg_same now _ s
  have htag : (tagged (insert now sch segs l).1).Perm
      (tagged segs ++ segs.flatMap fun s => (sel s l).map fun e => (e, s.id)) := by
    rw [h1]
    unfold tagged
    rw [List.flatMap_map]
    refine List.Perm.trans ?_ (flatMap_append_perm _ _ segs)
    apply flatMap_perm
    intro s hs
    rw [(insSeg_same now _ s).1, ← List.map_append]
    exact ((insSeg_perm now _ s).trans ((sel_perm hp).append_left _)).map _
  have hall : (allElems (insert now sch segs l).1).Perm (allElems segs ++ l) := by
    rw [← tagged_fst]
    refine (htag.map _).trans ?_
    rw [List.map_append, tagged_fst, List.map_flatMap]
    simp only [List.map_map, Function.comp_def, List.map_id']
    exact (sel_flatMap_perm hok.tiles hl fun e he => epos_le_top (hl e he)).append_left _
  refine ⟨?_, hsame, ?_, htag, hall, ?_⟩
  · refine segsOK_of_same hok hsame ?_ ?_ (hd.perm hall.symm) ?_
    · rw [h1]
      intro s hs e he
      obtain ⟨t, ht, rfl⟩ := List.mem_map.1 hs
      rw [(insSeg_same now _ t).inRange]
      have := (insSeg_perm now _ t).mem_iff.1 he
      rcases List.mem_append.1 this with he | he
      · exact hok.inRange t ht e he
      · exact (mem_sel.1 he).2
    · rw [h1]
      intro s hs
      obtain ⟨t, ht, rfl⟩ := List.mem_map.1 hs
      exact insSeg_ranked now (hok.ranked t ht) (sortSlice_ranked l)
    · intro e he
      rcases List.mem_append.1 (hall.mem_iff.1 he) with he | he
      · exact hok.storable e he
      · exact hl e he
  · intro hc s hs
    rw [h1] at hs
    obtain ⟨t, ht, rfl⟩ := List.mem_map.1 hs
    exact insSeg_count now (hc t ht)
  · rw [h2]
    refine (sortSlice_perm _).trans ?_
    refine ((sch.perm _).flatten).trans ?_
    rw [List.flatten_eq_flatMap, List.flatMap_assoc]
    apply flatMap_perm
    intro s hs
    split
    · rename_i h
      have : sel s l = [] := by
        have := (sel_perm (s := s) hp)
        rw [h] at this
        exact this.symm.eq_nil
      simp [this]
    · simp only [List.flatMap_cons, List.flatMap_nil, List.append_nil, id_eq]
      exact (elementIDs_perm _ _).trans ((sel_perm hp).map _)

/-! ### DeleteElements -/

/-- The segment after deletion of the IDs of the selected elements. -/
def delSeg (now : Nat) (l : List Element) (s : Seg) : Seg :=
  if sel s l = [] then s
  else Segment.replace now s (s.elems.filter fun x => !((sel s l).any (·.id == x.id)))

theorem deleteElements_eq {now h : Nat} {segs : List Seg} {l : List Element} (ht : Tiles h segs)
    (hties : ∀ s ∈ segs, s.minTie < 2 ^ 32 ∧ s.maxTie < 2 ^ 32) (hs : ∀ e ∈ l, Storable e)
    (hf : Falling l) (hh : ∀ e ∈ l, epos e ≤ h) :
    deleteElements now segs l = segs.map (delSeg now l) := by
  induction segs generalizing h l with
  | nil => rfl
  | cons s ss ih =>
    obtain ⟨h1, h2, h3⟩ := tiles_cons.1 ht
    have hh' : ∀ e ∈ l, epos e ≤ hi s := by intro e he; have := hh e he; omega
    have ⟨e1, e2⟩ := sel_head hf hh'
    unfold deleteElements
    rw [filterIdx_below (hties s (by simp)) hs hh']
    simp only []
    rw [e1]
    by_cases hsel : sel s l = []
    · simp only [hsel, List.length_nil, if_true, List.map_cons]
      have hfl : l.filter (fun e => decide (epos e < lo s)) = l := by
        rw [← e2, ← drop_takeWhile, e1, hsel]; rfl
      rcases h3 with ⟨rfl, h4⟩ | ⟨_, h4, h5⟩
      · simp [deleteElements, delSeg, hsel]
      · rw [ih h5 (fun s hs => hties s (by simp [hs])) hs hf]
        · simp [delSeg, hsel]
        · intro e he
          rw [← hfl] at he
          simp at he; omega
    · rw [if_neg (by intro h'; exact hsel (List.length_eq_zero_iff.1 h'.symm))]
      have hd : l.drop (sel s l).length = l.filter (fun e => decide (epos e < lo s)) := by
        rw [← e2, ← drop_takeWhile, e1]
      have htk : l.take (sel s l).length = sel s l := by
        rw [← e1]; exact take_takeWhile _ _
      rw [hd, htk, List.drop_zero, List.map_cons]
      have hIH : deleteElements now ss (l.filter (fun e => decide (epos e < lo s))) =
          ss.map (delSeg now l) := by
        rcases h3 with ⟨rfl, h4⟩ | ⟨_, h4, h5⟩
        · simp [deleteElements]
        · rw [ih h5 (fun s hs => hties s (by simp [hs])) (fun e he => hs e (List.mem_filter.1 he).1)
            (hf.filter _) (by intro e he; simp at he; omega)]
          apply List.map_congr_left
          intro t hm
          have hsel' : sel t (l.filter (fun e => decide (epos e < lo s))) = sel t l := by
            exact sel_filter_lt (by have := tiles_le h5 t hm; omega)
          unfold delSeg
          rw [hsel']
      rw [hIH]
      simp [delSeg, hsel]

end Segments
end RankDB

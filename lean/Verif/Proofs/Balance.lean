import Verif.Proofs.SplitList
import Verif.Proofs.Sort
import Verif.Spec.Balance
import Verif.Model.Balance
/-
Lemmas for `Props/Balance`: every pass over the segments makes a measure smaller or changes nothing.
-/
namespace RankDB.Balance
open Segments Spec

/-! ### Which segments can be split -/

theorem extendCut_rest (a : Element) : ∀ (l acc : List Element),
    (Elements.extendCut (a :: acc) l).2 = [] ↔ ∀ b ∈ l, Elements.sameKey a b = true := by
  intro l
  induction l generalizing a with
  | nil => intro acc; simp [Elements.extendCut]
  | cons b l ih =>
    intro acc
    unfold Elements.extendCut
    split
    · rename_i hk
      rw [ih b (a :: acc)]
      have hab : a.score = b.score ∧ a.tie = b.tie := by simpa [Elements.sameKey] using hk
      constructor
      · intro h x hx
        rcases List.mem_cons.1 hx with rfl | hx
        · exact hk
        · have := h x hx
          simp only [Elements.sameKey, Bool.and_eq_true, beq_iff_eq] at this ⊢
          exact ⟨hab.1.trans this.1, hab.2.trans this.2⟩
      · intro h x hx
        have := h x (List.mem_cons_of_mem _ hx)
        simp only [Elements.sameKey, Bool.and_eq_true, beq_iff_eq] at this ⊢
        exact ⟨hab.1.symm.trans this.1, hab.2.symm.trans this.2⟩
    · rename_i hk
      constructor
      · intro h; cases h
      · intro h; exact absurd (h b List.mem_cons_self) hk

theorem extendCut_append : ∀ (l acc : List Element), (Elements.extendCut acc l).1 ++ (Elements.extendCut acc l).2 = acc.reverse ++ l := by
  intro l
  induction l with
  | nil => intro acc; unfold Elements.extendCut; simp
  | cons b l ih =>
    intro acc
    cases acc with
    | nil => simp [Elements.extendCut]
    | cons a acc =>
      unfold Elements.extendCut
      split
      · rw [ih]; simp
      · rfl

theorem extendCut_all (acc : List Element) : (Elements.extendCut acc []) = (acc.reverse, []) := by
  cases acc <;> rfl

/-- The pieces of a slice that is cut in the middle. -/
theorem halves {l : List Element} (hl : 2 ≤ l.length) :
    Elements.splitSize l ((l.length + 1) / 2) =
      some (let r := Elements.extendCut (l.take ((l.length + 1) / 2)).reverse (l.drop ((l.length + 1) / 2))
        if r.2 = [] then [l] else [r.1, r.2]) := by
  have hn : (l.length + (l.length + 1) / 2 - 1) / ((l.length + 1) / 2) = 2 := by
    have hk : 0 < (l.length + 1) / 2 := by omega
    apply Nat.div_eq_of_lt_le <;> omega
  unfold Elements.splitSize
  rw [if_neg (by omega), if_neg (by omega)]
  simp only [hn, Option.some.injEq]
  have he : (l.length + 2 - 1) / 2 = (l.length + 1) / 2 := by omega
  rw [he]
  have happ := extendCut_append (l.drop ((l.length + 1) / 2)) (l.take ((l.length + 1) / 2)).reverse
  rw [List.reverse_reverse, List.take_append_drop] at happ
  have hne : (Elements.extendCut (l.take ((l.length + 1) / 2)).reverse (l.drop ((l.length + 1) / 2))).1 ≠ [] ∧
      (Elements.extendCut (l.take ((l.length + 1) / 2)).reverse (l.drop ((l.length + 1) / 2))).2.length ≤
        l.length - (l.length + 1) / 2 := by
    have hlen : ∀ (r acc : List Element), acc.length ≤ (Elements.extendCut acc r).1.length := by
      intro r
      induction r with
      | nil => intro acc; rw [extendCut_all]; simp
      | cons b r ih =>
        intro acc
        cases acc with
        | nil => simp
        | cons a acc =>
          unfold Elements.extendCut
          split
          · have := ih (b :: a :: acc)
            simp only [List.length_cons] at this ⊢
            omega
          · simp
    have := hlen (l.drop ((l.length + 1) / 2)) (l.take ((l.length + 1) / 2)).reverse
    rw [List.length_reverse, List.length_take] at this
    have h2 := congrArg List.length happ
    rw [List.length_append] at h2
    constructor
    · intro h0
      rw [h0] at this
      simp only [List.length_nil] at this
      omega
    · omega
  have hr : ∀ n (m : List Element), Elements.splitLoop (n + 1) ((l.length + 1) / 2) m =
      if (Elements.extendCut (m.take ((l.length + 1) / 2)).reverse (m.drop ((l.length + 1) / 2))).1.isEmpty then []
      else (Elements.extendCut (m.take ((l.length + 1) / 2)).reverse (m.drop ((l.length + 1) / 2))).1 ::
        Elements.splitLoop n ((l.length + 1) / 2)
          (Elements.extendCut (m.take ((l.length + 1) / 2)).reverse (m.drop ((l.length + 1) / 2))).2 := by
    intro n m
    conv => lhs; unfold Elements.splitLoop
  rw [hr 1 l]
  generalize Elements.extendCut (l.take ((l.length + 1) / 2)).reverse (l.drop ((l.length + 1) / 2)) = r at *
  rw [if_neg (by simpa using hne.1), hr 0 r.2]
  have htake : r.2.take ((l.length + 1) / 2) = r.2 := List.take_of_length_le (by omega)
  have hdrop : r.2.drop ((l.length + 1) / 2) = [] := List.drop_eq_nil_of_le (by omega)
  rw [htake, hdrop, extendCut_all, List.reverse_reverse]
  by_cases h0 : r.2 = []
  · rw [if_pos h0, if_pos (by simp [h0])]
    rw [h0, List.append_nil] at happ
    rw [happ]
  · rw [if_neg h0, if_neg (by simpa using h0)]
    rfl

theorem lowerTied_short {l : List Element} (h : l.length ≤ 1) : LowerTied l := by
  intro x hx y hy
  match l, h with
  | [], _ => cases hx
  | [a], _ =>
    have hx := List.mem_of_mem_drop hx
    have hy := List.mem_of_mem_drop hy
    rw [List.mem_singleton.1 hx, List.mem_singleton.1 hy]
    exact ⟨rfl, rfl⟩

theorem rest_lowerTied {l : List Element} (hl : 2 ≤ l.length) :
    (Elements.extendCut (l.take ((l.length + 1) / 2)).reverse (l.drop ((l.length + 1) / 2))).2 = [] ↔ LowerTied l := by
  have hk : (l.length - 1) / 2 < l.length := by omega
  have hk1 : (l.length + 1) / 2 = (l.length - 1) / 2 + 1 := by omega
  have htake : (l.take ((l.length + 1) / 2)).reverse = l[(l.length - 1) / 2] :: (l.take ((l.length - 1) / 2)).reverse := by
    rw [hk1, List.take_add_one, List.getElem?_eq_getElem hk]
    simp
  have hdrop : l.drop ((l.length - 1) / 2) = l[(l.length - 1) / 2] :: l.drop ((l.length + 1) / 2) := by
    rw [hk1]; exact List.drop_eq_getElem_cons hk
  rw [htake, extendCut_rest]
  unfold LowerTied
  rw [hdrop]
  generalize l[(l.length - 1) / 2] = a
  generalize l.drop ((l.length + 1) / 2) = m
  constructor
  · intro h
    have hb : ∀ x ∈ a :: m, a.score = x.score ∧ a.tie = x.tie := by
      intro x hx
      rcases List.mem_cons.1 hx with rfl | hx
      · exact ⟨rfl, rfl⟩
      · simpa [Elements.sameKey] using h x hx
    intro x hx y hy
    exact ⟨(hb x hx).1.symm.trans (hb y hy).1, (hb x hx).2.symm.trans (hb y hy).2⟩
  · intro h b hb
    have := h a List.mem_cons_self b (List.mem_cons_of_mem _ hb)
    simpa [Elements.sameKey] using this

/-- A segment cannot be split exactly if it has ties from the middle on. -/
theorem splitIdx_none (now nid : Nat) (isIndex : Bool) (s : Seg) :
    splitIdx now isIndex nid s = none ↔ LowerTied s.elems := by
  by_cases hl : 2 ≤ s.elems.length
  · unfold splitIdx
    rw [halves hl, ← rest_lowerTied hl]
    simp only []
    generalize Elements.extendCut (s.elems.take ((s.elems.length + 1) / 2)).reverse (s.elems.drop ((s.elems.length + 1) / 2)) = r
    by_cases h0 : r.2 = []
    · rw [if_pos h0]; simp [h0]
    · rw [if_neg h0]
      obtain ⟨a, b⟩ := r
      cases b with
      | nil => exact absurd rfl h0
      | cons e b => simp
  · constructor
    · intro _; exact lowerTied_short (by omega)
    · intro _
      unfold splitIdx Elements.splitSize
      rw [if_pos (by omega)]

theorem splitIdx_sizes {now nid : Nat} {isIndex : Bool} {s s1 s2 : Seg} {U : List IndexUpdate}
    (h : splitIdx now isIndex nid s = some (s1, s2, U)) :
    s1.elems ++ s2.elems = s.elems ∧ s1.n = s1.elems.length ∧ s2.n = s2.elems.length ∧ 0 < s1.n ∧ 0 < s2.n := by
  have hne : ∀ a e b, Elements.splitSize s.elems ((s.elems.length + 1) / 2) = some [a, e :: b] → a ≠ [] ∧ a ++ e :: b = s.elems := by
    intro a e b h
    have hf := Elements.splitSize_flatten h
    simp only [List.flatten_cons, List.flatten_nil, List.append_nil] at hf
    exact ⟨Elements.splitSize_ne_nil (by rw [← hf]; simp) h a (by simp), hf⟩
  unfold splitIdx at h
  split at h
  · rename_i a e b hsp
    simp only [Option.some.injEq, Prod.mk.injEq] at h
    obtain ⟨rfl, rfl, -⟩ := h
    obtain ⟨h1, h2⟩ := hne a e b hsp
    exact ⟨h2, rfl, rfl, List.length_pos_iff.2 h1, by simp⟩
  · cases h

/-! ### The measure -/

/-- The weight of a segment: how often it and its parts can be split and merged. -/
def weight (split : Nat) (s : Seg) : Nat := 1 + if split ≤ s.n then 2 * (s.n - 1) else 0

/-- The weight of all segments. -/
def total (split : Nat) (segs : List Seg) : Nat := (segs.map (weight split)).sum

theorem total_append (k : Nat) (a b : List Seg) : total k (a ++ b) = total k a + total k b := by
  simp [total]

theorem total_cons (k : Nat) (a : Seg) (b : List Seg) : total k (a :: b) = weight k a + total k b := by
  simp [total]

theorem total_reverse (k : Nat) (a : List Seg) : total k a.reverse = total k a := by
  simp [total, List.sum_reverse]

theorem weight_pos (k : Nat) (s : Seg) : 0 < weight k s := by unfold weight; omega

theorem weight_split {k : Nat} {s s1 s2 : Seg} (hs : k ≤ s.n) (hn : s1.n + s2.n = s.n) (h1 : 0 < s1.n) (h2 : 0 < s2.n) :
    weight k s1 + weight k s2 < weight k s := by
  unfold weight
  rw [if_pos hs]
  split <;> split <;> omega

/-- The segments are as a pass leaves them, with the one before. -/
def Fine (merge split : Nat) : Option Seg → List Seg → Prop
  | _, [] => True
  | prev, s :: ss => (split ≤ s.n → LowerTied s.elems) ∧ (s.n < split → ∀ p, prev = some p → merge < s.n + p.n) ∧
    Fine merge split (some s) ss

instance fineDecidable (merge split : Nat) : ∀ (prev : Option Seg) (segs : List Seg), Decidable (Fine merge split prev segs)
  | _, [] => isTrue trivial
  | none, s :: ss =>
    have := fineDecidable merge split (some s) ss
    decidable_of_iff ((split ≤ s.n → LowerTied s.elems) ∧ Fine merge split (some s) ss)
      ⟨fun h => ⟨h.1, fun _ _ hp => (nomatch hp), h.2⟩, fun h => ⟨h.1, h.2.2⟩⟩
  | some p, s :: ss =>
    have := fineDecidable merge split (some s) ss
    decidable_of_iff ((split ≤ s.n → LowerTied s.elems) ∧ (s.n < split → merge < s.n + p.n) ∧ Fine merge split (some s) ss)
      ⟨fun h => ⟨h.1, fun hn _ hp => by cases hp; exact h.2.1 hn, h.2.2⟩, fun h => ⟨h.1, fun hn => h.2.1 hn p rfl, h.2.2⟩⟩

theorem same_count {s : Seg} (h : s.n = s.elems.length) : ({ s with n := s.elems.length } : Seg) = s := by
  rw [← h]

/-- What a pass does to counts, content and measure. -/
theorem splitLoop_total {now split merge : Nat} (hms : merge < split) {isIndex : Bool} {u : Nat} :
    ∀ {ss done : List Seg} {nid skip : Nat}, (∀ g ∈ ss, g.n = g.elems.length) → (∀ g ∈ done, g.n = g.elems.length) →
    total split (splitLoop now split merge true isIndex u nid skip done ss).1 ≤ total split done + total split ss ∧
    Counted (splitLoop now split merge true isIndex u nid skip done ss).1 ∧
    allElems (splitLoop now split merge true isIndex u nid skip done ss).1 = allElems (done.reverse ++ ss)
  | [], done, nid, skip, _, hd => by
    unfold splitLoop
    refine ⟨by rw [total_reverse]; omega, fun s hs => hd s (List.mem_reverse.1 hs), by simp⟩
  | s :: ss, done, nid, skip, hc, hd => by
    have hc' : ∀ g ∈ ss, g.n = g.elems.length := fun g hg => hc g (by simp [hg])
    have hcs := hc s (by simp)
    have hds : ∀ g ∈ s :: done, g.n = g.elems.length := fun g hg => by
      rcases List.mem_cons.1 hg with rfl | hg
      · exact hcs
      · exact hd g hg
    have hmove : done.reverse ++ s :: ss = (s :: done).reverse ++ ss := by simp
    have hw : total split (s :: done) + total split ss = total split done + total split (s :: ss) := by
      rw [total_cons, total_cons]; omega
    have hnext : ∀ k nid, total split (splitLoop now split merge true isIndex u nid k (s :: done) ss).1 ≤
        total split done + total split (s :: ss) ∧
        Counted (splitLoop now split merge true isIndex u nid k (s :: done) ss).1 ∧
        allElems (splitLoop now split merge true isIndex u nid k (s :: done) ss).1 = allElems (done.reverse ++ s :: ss) := by
      intro k nid
      rw [hmove, ← hw]
      exact splitLoop_total hms hc' hds
    cases skip with
    | succ k => unfold splitLoop; exact hnext k nid
    | zero =>
      unfold splitLoop
      by_cases hn : s.n < split
      · rw [if_pos hn]
        cases done with
        | nil => exact hnext 0 nid
        | cons p done' =>
          simp only []
          by_cases hm : s.n + p.n > merge
          · rw [if_pos hm]; exact hnext 0 nid
          · rw [if_neg hm]
            simp only []
            have hp := hd p (by simp)
            have hmn : (mergeWithNext now p s).1.n = p.n + s.n := by
              unfold mergeWithNext Segment.replace
              simp only [List.length_append, hp, hcs]
            have hme : (mergeWithNext now p s).1.elems = p.elems ++ s.elems := rfl
            have hm1 : weight split (mergeWithNext now p s).1 = 1 := by
              unfold weight
              rw [if_neg (by omega)]
            obtain ⟨a, b, c⟩ := splitLoop_total (now := now) hms (isIndex := isIndex) (u := u) (nid := nid) (skip := 2)
              (done := (mergeWithNext now p s).1 :: done') hc' (fun g hg => by
                rcases List.mem_cons.1 hg with rfl | hg
                · rw [hmn, hme, List.length_append, hp, hcs]
                · exact hd g (by simp [hg]))
            refine ⟨?_, b, ?_⟩
            · rw [total_cons, hm1] at a
              rw [total_cons, total_cons]
              have := weight_pos split p
              have := weight_pos split s
              omega
            · rw [c]
              simp only [allElems, List.reverse_cons, List.append_assoc, List.flatMap_append, List.flatMap_cons,
                List.flatMap_nil, List.append_nil, hme]
      · rw [if_neg hn]
        cases hsp : splitIdx now isIndex nid s with
        | none =>
          simp only []
          rw [same_count hcs]
          exact hnext u nid
        | some v =>
          obtain ⟨s1, s2, U⟩ := v
          simp only []
          obtain ⟨h1, h2, h3, h4, h5⟩ := splitIdx_sizes hsp
          have hsum : s1.n + s2.n = s.n := by rw [h2, h3, hcs, ← h1, List.length_append]
          have hlt := weight_split (k := split) (s := s) (s1 := s1) (s2 := s2) (by omega) hsum h4 h5
          obtain ⟨a, b, c⟩ := splitLoop_total (now := now) hms (isIndex := isIndex) (u := u) (nid := nid + 1) (skip := 0)
            (done := s2 :: s1 :: done) hc' (fun g hg => by
              rcases List.mem_cons.1 hg with rfl | hg
              · exact h3
              · rcases List.mem_cons.1 hg with rfl | hg
                · exact h2
                · exact hd g hg)
          refine ⟨?_, b, ?_⟩
          · rw [total_cons, total_cons] at a
            rw [total_cons]
            omega
          · rw [c]
            simp only [allElems, List.reverse_cons, List.append_assoc, List.flatMap_append, List.flatMap_cons,
              List.flatMap_nil, List.append_nil, ← h1]

/-- A pass that does not make the measure smaller found nothing to do. -/
theorem splitLoop_fine {now split merge : Nat} (hms : merge < split) {isIndex : Bool} {u : Nat} :
    ∀ {ss done : List Seg} {nid : Nat}, (∀ g ∈ ss, g.n = g.elems.length) → (∀ g ∈ done, g.n = g.elems.length) →
    (u = 0 ∨ ∀ g ∈ ss, split ≤ g.n → ¬ LowerTied g.elems) →
    ¬ total split (splitLoop now split merge true isIndex u nid 0 done ss).1 < total split done + total split ss →
    Fine merge split done.head? ss
  | [], _, _, _, _, _, _ => trivial
  | s :: ss, done, nid, hc, hd, hu, h => by
    have hc' : ∀ g ∈ ss, g.n = g.elems.length := fun g hg => hc g (by simp [hg])
    have hcs := hc s (by simp)
    have hds : ∀ g ∈ s :: done, g.n = g.elems.length := fun g hg => by
      rcases List.mem_cons.1 hg with rfl | hg
      · exact hcs
      · exact hd g hg
    have hu' : u = 0 ∨ ∀ g ∈ ss, split ≤ g.n → ¬ LowerTied g.elems :=
      hu.imp_right fun h g hg => h g (List.mem_cons_of_mem _ hg)
    have hw : total split (s :: done) + total split ss = total split done + total split (s :: ss) := by
      rw [total_cons, total_cons]; omega
    have hnext : ¬ total split (splitLoop now split merge true isIndex u nid 0 (s :: done) ss).1 <
        total split done + total split (s :: ss) → Fine merge split (some s) ss := by
      intro h
      rw [← hw] at h
      exact splitLoop_fine hms hc' hds hu' h
    unfold splitLoop at h
    unfold Fine
    by_cases hn : s.n < split
    · rw [if_pos hn] at h
      refine ⟨fun h' => absurd hn (by omega), fun _ p hp => ?_, ?_⟩
      · cases done with
        | nil => cases hp
        | cons p' done' =>
          cases hp
          simp only [] at h
          by_cases hm : s.n + p.n > merge
          · exact hm
          · rw [if_neg hm] at h
            exfalso
            apply h
            simp only []
            have hp := hd p (by simp)
            have hmn : (mergeWithNext now p s).1.n = p.n + s.n := by
              unfold mergeWithNext Segment.replace
              simp only [List.length_append, hp, hcs]
            have hme : (mergeWithNext now p s).1.elems = p.elems ++ s.elems := rfl
            have hm1 : weight split (mergeWithNext now p s).1 = 1 := by
              unfold weight
              rw [if_neg (by omega)]
            obtain ⟨a, -, -⟩ := splitLoop_total (now := now) hms (isIndex := isIndex) (u := u) (nid := nid) (skip := 2)
              (done := (mergeWithNext now p s).1 :: done') hc' (fun g hg => by
                rcases List.mem_cons.1 hg with rfl | hg
                · rw [hmn, hme, List.length_append, hp, hcs]
                · exact hd g (by simp [hg]))
            rw [total_cons, hm1] at a
            rw [total_cons, total_cons]
            have := weight_pos split p
            have := weight_pos split s
            omega
      · cases done with
        | nil => exact hnext h
        | cons p done' =>
          simp only [] at h
          by_cases hm : s.n + p.n > merge
          · rw [if_pos hm] at h
            exact hnext h
          · rw [if_neg hm] at h
            exfalso
            apply h
            simp only []
            have hp := hd p (by simp)
            have hmn : (mergeWithNext now p s).1.n = p.n + s.n := by
              unfold mergeWithNext Segment.replace
              simp only [List.length_append, hp, hcs]
            have hme : (mergeWithNext now p s).1.elems = p.elems ++ s.elems := rfl
            have hm1 : weight split (mergeWithNext now p s).1 = 1 := by
              unfold weight
              rw [if_neg (by omega)]
            obtain ⟨a, -, -⟩ := splitLoop_total (now := now) hms (isIndex := isIndex) (u := u) (nid := nid) (skip := 2)
              (done := (mergeWithNext now p s).1 :: done') hc' (fun g hg => by
                rcases List.mem_cons.1 hg with rfl | hg
                · rw [hmn, hme, List.length_append, hp, hcs]
                · exact hd g (by simp [hg]))
            rw [total_cons, hm1] at a
            rw [total_cons, total_cons]
            have := weight_pos split p
            have := weight_pos split s
            omega
    · rw [if_neg hn] at h
      cases hsp : splitIdx now isIndex nid s with
      | none =>
        have htied := (splitIdx_none now nid isIndex s).1 hsp
        refine ⟨fun _ => htied, fun h' => absurd h' hn, ?_⟩
        rw [hsp] at h
        simp only [] at h
        rw [same_count hcs] at h
        rcases hu with rfl | hu
        · exact hnext h
        · exact absurd htied (hu s (by simp) (by omega))
      | some v =>
        exfalso
        rw [hsp] at h
        obtain ⟨s1, s2, U⟩ := v
        apply h
        simp only []
        obtain ⟨h1, h2, h3, h4, h5⟩ := splitIdx_sizes hsp
        have hsum : s1.n + s2.n = s.n := by rw [h2, h3, hcs, ← h1, List.length_append]
        have hlt := weight_split (k := split) (s := s) (s1 := s1) (s2 := s2) (by omega) hsum h4 h5
        obtain ⟨a, -, -⟩ := splitLoop_total (now := now) hms (isIndex := isIndex) (u := u) (nid := nid + 1) (skip := 0)
          (done := s2 :: s1 :: done) hc' (fun g hg => by
            rcases List.mem_cons.1 hg with rfl | hg
            · exact h3
            · rcases List.mem_cons.1 hg with rfl | hg
              · exact h2
              · exact hd g hg)
        rw [total_cons, total_cons] at a
        rw [total_cons]
        omega

/-- A pass over such segments changes nothing. -/
theorem splitLoop_rest {now split merge : Nat} {isIndex : Bool} {u : Nat} :
    ∀ {ss done : List Seg} {nid : Nat}, (∀ g ∈ ss, g.n = g.elems.length) →
    (u = 0 ∨ ∀ g ∈ ss, split ≤ g.n → ¬ LowerTied g.elems) → Fine merge split done.head? ss →
    splitLoop now split merge true isIndex u nid 0 done ss = (done.reverse ++ ss, nid, [])
  | [], done, nid, _, _, _ => by unfold splitLoop; simp
  | s :: ss, done, nid, hc, hu, h => by
    have hc' : ∀ g ∈ ss, g.n = g.elems.length := fun g hg => hc g (by simp [hg])
    have hu' : u = 0 ∨ ∀ g ∈ ss, split ≤ g.n → ¬ LowerTied g.elems :=
      hu.imp_right fun h g hg => h g (List.mem_cons_of_mem _ hg)
    have hmove : done.reverse ++ s :: ss = (s :: done).reverse ++ ss := by simp
    unfold Fine at h
    obtain ⟨f1, f2, f3⟩ := h
    have hnext := splitLoop_rest (now := now) (isIndex := isIndex) (done := s :: done) (nid := nid) hc' hu' f3
    rw [hmove]
    unfold splitLoop
    by_cases hn : s.n < split
    · rw [if_pos hn]
      cases done with
      | nil => exact hnext
      | cons p done' =>
        simp only []
        rw [if_pos (f2 hn p rfl)]
        exact hnext
    · rw [if_neg hn, (splitIdx_none now nid isIndex s).2 (f1 (by omega))]
      simp only []
      rw [same_count (hc s (by simp))]
      rcases hu with rfl | hu
      · exact hnext
      · exact absurd (f1 (by omega)) (hu s (by simp) (by omega))

theorem fine_iff {merge split : Nat} : ∀ {segs : List Seg} {prev : Option Seg}, (∀ s ∈ segs, s.n = s.elems.length) →
    (∀ p, prev = some p → p.n = p.elems.length) →
    (Fine merge split prev segs ↔ (∀ s ∈ segs, s.elems.length < split ∨ LowerTied s.elems) ∧
      ∀ pre p q post, prev.toList ++ segs = pre ++ p :: q :: post → q.elems.length < split →
        merge < p.elems.length + q.elems.length)
  | [], prev, _, _ => by
    constructor
    · intro _
      refine ⟨fun _ h => (nomatch h), ?_⟩
      intro pre p q post h
      have := congrArg List.length h
      cases prev <;> simp at this
      omega
    · intro _; trivial
  | s :: ss, prev, hc, hp => by
    have hcs := hc s (by simp)
    have ih := fine_iff (merge := merge) (split := split) (segs := ss) (prev := some s)
      (fun g hg => hc g (by simp [hg])) (fun p h => by cases h; exact hcs)
    unfold Fine
    rw [ih]
    constructor
    · rintro ⟨f1, f2, f3, f4⟩
      refine ⟨?_, ?_⟩
      · intro g hg
        rcases List.mem_cons.1 hg with rfl | hg
        · by_cases hlt : g.elems.length < split
          · exact .inl hlt
          · exact .inr (f1 (by omega))
        · exact f3 g hg
      · intro pre p q post h hq
        cases prev with
        | none => exact f4 pre p q post (by simpa using h) hq
        | some r =>
          cases pre with
          | nil =>
            simp only [Option.toList_some, List.cons_append, List.nil_append, List.cons.injEq] at h
            obtain ⟨rfl, rfl, -⟩ := h
            have := f2 (by omega) r rfl
            have := hp r rfl
            omega
          | cons x pre =>
            simp only [Option.toList_some, List.cons_append, List.nil_append, List.cons.injEq] at h
            exact f4 pre p q post (by simpa using h.2) hq
    · rintro ⟨f1, f2⟩
      refine ⟨fun h => ?_, fun h p hpp => ?_, fun g hg => f1 g (by simp [hg]), ?_⟩
      · rcases f1 s (by simp) with h' | h'
        · omega
        · exact h'
      · subst hpp
        have := f2 [] p s ss (by simp) (by omega)
        have := hp p rfl
        omega
      · intro pre p q post h hq
        cases prev with
        | none => exact f2 pre p q post (by simpa using h) hq
        | some r => exact f2 (r :: pre) p q post (by simpa using h) hq

theorem fine_balanced {merge split : Nat} {segs : List Seg} (hc : Counted segs) :
    Fine merge split none segs ↔ Balanced merge split segs := by
  rw [fine_iff hc (fun p h => by cases h)]
  constructor
  · rintro ⟨a, b⟩
    exact ⟨a, fun pre p q post h => b pre p q post (by simpa using h)⟩
  · rintro ⟨a, b⟩
    exact ⟨a, fun pre p q post h => b pre p q post (by simpa using h)⟩

/-! ### Lists -/

theorem setSegment_scores (now : Nat) (u : IndexUpdate) : ∀ l : List Element,
    (setSegment now u l).map (·.score) = l.map (·.score)
  | [] => rfl
  | e :: l => by
    unfold setSegment
    split
    · rfl
    · rw [List.map_cons, List.map_cons, setSegment_scores now u l]

theorem applyUpdates_scores (now : Nat) (U : List IndexUpdate) (s : Seg) :
    (applyUpdates now U s).elems.map (·.score) = s.elems.map (·.score) ∧
    (applyUpdates now U s).n = (applyUpdates now U s).elems.length := by
  refine ⟨?_, rfl⟩
  unfold applyUpdates Segment.replace
  simp only []
  have : ∀ (U : List IndexUpdate) (l : List Element),
      (U.foldl (fun l u => setSegment now u l) l).map (·.score) = l.map (·.score) := by
    intro U
    induction U with
    | nil => intro l; rfl
    | cons u U ih => intro l; rw [List.foldl_cons, ih, setSegment_scores]
  exact this U s.elems

/-- The scores in every segment. -/
def shape (segs : List Seg) : List (List Nat) := segs.map fun s => s.elems.map (·.score)

theorem modifyAt_shape {f : Seg → Seg} (hf : ∀ s, (f s).elems.map (·.score) = s.elems.map (·.score) ∧ (f s).n = (f s).elems.length) :
    ∀ (segs : List Seg) (i : Nat), shape (modifyAt f i segs) = shape segs ∧ (Counted segs → Counted (modifyAt f i segs))
  | [], _ => ⟨by simp [modifyAt], fun h => by simpa [modifyAt] using h⟩
  | s :: ss, 0 => by
    refine ⟨by simp [modifyAt, shape, (hf s).1], fun h g hg => ?_⟩
    simp only [modifyAt, List.mem_cons] at hg
    rcases hg with rfl | hg
    · exact (hf s).2
    · exact h g (by simp [hg])
  | s :: ss, i + 1 => by
    obtain ⟨a, b⟩ := modifyAt_shape hf ss i
    refine ⟨by simp only [modifyAt, shape, List.map_cons] at a ⊢; rw [a], fun h g hg => ?_⟩
    simp only [modifyAt, List.mem_cons] at hg
    rcases hg with rfl | hg
    · exact h g (by simp)
    · exact b (fun x hx => h x (by simp [hx])) g hg

theorem updateIndexElements_shape (now : Nat) (segs : List Seg) (U : List IndexUpdate) :
    shape (updateIndexElements now segs U) = shape segs ∧ (Counted segs → Counted (updateIndexElements now segs U)) := by
  unfold updateIndexElements
  split
  · exact ⟨rfl, id⟩
  · generalize splitIndexUpdates segs U = ms
    induction ms generalizing segs with
    | nil => exact ⟨rfl, id⟩
    | cons m ms ih =>
      rw [List.foldl_cons]
      obtain ⟨a, b⟩ := ih (if m.2.isEmpty then segs else modifyAt (applyUpdates now m.2) m.1 segs)
      split at a <;> rename_i hm
      · rw [if_pos hm] at b ⊢
        exact ⟨a, b⟩
      · rw [if_neg hm] at b ⊢
        obtain ⟨c, d⟩ := modifyAt_shape (applyUpdates_scores now m.2) segs m.1
        exact ⟨a.trans c, fun h => b (d h)⟩

theorem total_shape (k : Nat) {a b : List Seg} (ha : Counted a) (hb : Counted b) (h : shape a = shape b) : total k a = total k b := by
  have : ∀ {segs : List Seg}, Counted segs → segs.map (weight k) =
      (shape segs).map fun l => 1 + if k ≤ l.length then 2 * (l.length - 1) else 0 := by
    intro segs hc
    unfold shape
    rw [List.map_map]
    apply List.map_congr_left
    intro s hs
    simp only [weight, Function.comp, List.length_map, hc s hs]
  unfold total
  rw [this ha, this hb, h]

theorem scores_shape (segs : List Seg) : (allElems segs).map (·.score) = (shape segs).flatten := by
  unfold allElems shape
  rw [List.map_flatMap, List.flatten_eq_flatMap, List.flatMap_map]
  rfl

/-- What is needed of a list for balancing it. -/
structure Ready (st : ListState) : Prop where
  scores : Counted st.scores.segs
  index : Counted st.index.segs
  distinct : ((allElems st.index.segs).map (·.score)).Nodup
  sizes : st.mergeSize < st.splitSize
  two : 2 ≤ st.splitSize

theorem not_tied {segs : List Seg} {k : Nat} (hk : 2 ≤ k) (hc : Counted segs) (hd : ((allElems segs).map (·.score)).Nodup) :
    ∀ g ∈ segs, k ≤ g.n → ¬ LowerTied g.elems := by
  intro g hg hn ht
  have hsub : (g.elems.map (·.score)).Sublist ((allElems segs).map (·.score)) := by
    rw [scores_shape]
    exact List.sublist_flatten_of_mem (List.mem_map.2 ⟨g, hg, rfl⟩ : g.elems.map (·.score) ∈ shape segs)
  have hnd := hd.sublist hsub
  have hlen := hc g hg
  have hdrop : (g.elems.drop ((g.elems.length - 1) / 2)).length ≥ 2 := by
    rw [List.length_drop]; omega
  have hnd2 := hnd.sublist (List.Sublist.map (·.score) (List.drop_sublist ((g.elems.length - 1) / 2) g.elems))
  unfold LowerTied at ht
  generalize g.elems.drop ((g.elems.length - 1) / 2) = m at *
  match m, hdrop with
  | a :: b :: m, _ =>
    have := (ht a (by simp) b (by simp)).1
    simp [this] at hnd2

/-- The measure of a list. -/
def measure (st : ListState) : Nat := total st.splitSize st.scores.segs + total st.splitSize st.index.segs

/-- A pass keeps the list ready, and makes the measure smaller unless the list is balanced. -/
theorem pass_measure {st : ListState} (h : Ready st) (now : Nat) :
    Ready (Lists.split now true st) ∧ (Lists.split now true st).splitSize = st.splitSize ∧
    (Lists.split now true st).mergeSize = st.mergeSize ∧
    (measure (Lists.split now true st) < measure st ∨
      Balanced st.mergeSize st.splitSize st.scores.segs ∧ Balanced st.mergeSize st.splitSize st.index.segs) := by
  obtain ⟨s1, s2, s3⟩ := splitLoop_total (now := now) h.sizes (isIndex := false) (u := 0) (nid := st.scores.nextID) (skip := 0)
    (ss := st.scores.segs) (done := []) h.scores (fun g hg => by cases hg)
  have hr : Lists.split now true st =
      let r := splitLoop now st.splitSize st.mergeSize true false 0 st.scores.nextID 0 [] st.scores.segs
      let i := splitLoop now st.splitSize st.mergeSize true true 1 st.index.nextID 0 []
        (updateIndexElements now st.index.segs r.2.2)
      { st with
        scores := { st.scores with segs := r.1, nextID := r.2.1 }
        index := { st.index with segs := i.1, nextID := i.2.1 } } := rfl
  simp only [] at hr
  obtain ⟨u1, u2⟩ := updateIndexElements_shape now st.index.segs
    (splitLoop now st.splitSize st.mergeSize true false 0 st.scores.nextID 0 [] st.scores.segs).2.2
  have hu := u2 h.index
  have htot := total_shape st.splitSize hu h.index u1
  have hdist : ((allElems (updateIndexElements now st.index.segs
      (splitLoop now st.splitSize st.mergeSize true false 0 st.scores.nextID 0 [] st.scores.segs).2.2)).map (·.score)).Nodup := by
    rw [scores_shape, u1, ← scores_shape]
    exact h.distinct
  obtain ⟨i1, i2, i3⟩ := splitLoop_total (now := now) h.sizes (isIndex := true) (u := 1) (nid := st.index.nextID) (skip := 0)
    (ss := updateIndexElements now st.index.segs
      (splitLoop now st.splitSize st.mergeSize true false 0 st.scores.nextID 0 [] st.scores.segs).2.2)
    (done := []) hu (fun g hg => by cases hg)
  rw [htot] at i1
  have h0 : total st.splitSize [] = 0 := rfl
  rw [h0, Nat.zero_add] at s1 i1
  have hms : measure (Lists.split now true st) =
      total st.splitSize (splitLoop now st.splitSize st.mergeSize true false 0 st.scores.nextID 0 [] st.scores.segs).1 +
      total st.splitSize (splitLoop now st.splitSize st.mergeSize true true 1 st.index.nextID 0 []
        (updateIndexElements now st.index.segs
          (splitLoop now st.splitSize st.mergeSize true false 0 st.scores.nextID 0 [] st.scores.segs).2.2)).1 := by
    rw [hr]; rfl
  refine ⟨?_, by rw [hr], by rw [hr], ?_⟩
  · rw [hr]
    refine ⟨s2, i2, ?_, h.sizes, h.two⟩
    simp only []
    rw [i3]
    exact hdist
  · by_cases hs : total st.splitSize (splitLoop now st.splitSize st.mergeSize true false 0 st.scores.nextID 0 [] st.scores.segs).1 <
      total st.splitSize [] + total st.splitSize st.scores.segs
    · left
      rw [hms]
      unfold measure
      rw [h0] at hs
      omega
    · have f1 := splitLoop_fine h.sizes (done := []) h.scores (fun g hg => by cases hg) (.inl rfl) hs
      have r1 := splitLoop_rest (now := now) (isIndex := false) (nid := st.scores.nextID) (done := []) h.scores (.inl rfl) f1
      rw [r1] at i1 hms hu hdist htot
      have hux : updateIndexElements now st.index.segs [] = st.index.segs := rfl
      simp only [List.reverse_nil, List.nil_append, hux] at i1 hms hu hdist htot
      have htied := not_tied h.two h.index h.distinct
      by_cases hi : total st.splitSize (splitLoop now st.splitSize st.mergeSize true true 1 st.index.nextID 0 [] st.index.segs).1 <
        total st.splitSize [] + total st.splitSize st.index.segs
      · left
        rw [hms]
        unfold measure
        rw [h0] at hi
        omega
      · have f2 := splitLoop_fine h.sizes (done := []) h.index (fun g hg => by cases hg) (.inr htied) hi
        exact .inr ⟨(fine_balanced h.scores).1 f1, (fine_balanced h.index).1 f2⟩

/-- A pass over a balanced list changes nothing. -/
theorem pass_balanced {st : ListState} (h : Ready st) (now : Nat) (hs : Balanced st.mergeSize st.splitSize st.scores.segs)
    (hi : Balanced st.mergeSize st.splitSize st.index.segs) : Lists.split now true st = st := by
  have r1 := splitLoop_rest (now := now) (isIndex := false) (nid := st.scores.nextID) (done := []) h.scores
    (.inl rfl) ((fine_balanced h.scores).2 hs)
  have r2 := splitLoop_rest (now := now) (isIndex := true) (u := 1) (nid := st.index.nextID) (done := []) h.index
    (.inr (not_tied h.two h.index h.distinct)) ((fine_balanced h.index).2 hi)
  unfold Lists.split
  simp only [r1]
  have hux : updateIndexElements now st.index.segs [] = st.index.segs := rfl
  simp only [hux, r2]
  rfl

theorem passes_rest {st : ListState} (h : Ready st) (hs : Balanced st.mergeSize st.splitSize st.scores.segs)
    (hi : Balanced st.mergeSize st.splitSize st.index.segs) : ∀ times : List Nat, passes times st = st := by
  intro times
  induction times with
  | nil => rfl
  | cons t ts ih =>
    unfold passes at ih ⊢
    rw [List.foldl_cons, pass_balanced h t hs hi]
    exact ih

theorem passes_balanced : ∀ {times : List Nat} {st : ListState}, Ready st → measure st ≤ times.length →
    Balanced st.mergeSize st.splitSize (passes times st).scores.segs ∧
    Balanced st.mergeSize st.splitSize (passes times st).index.segs
  | [], st, h, hm => by
    have h0 : ∀ {segs : List Seg}, total st.splitSize segs = 0 → segs = [] := by
      intro segs hs
      cases segs with
      | nil => rfl
      | cons s ss =>
        rw [total_cons] at hs
        have := weight_pos st.splitSize s
        omega
    unfold measure at hm
    simp only [List.length_nil] at hm
    have e : ∀ {segs : List Seg}, segs = [] → Balanced st.mergeSize st.splitSize segs := by
      rintro _ rfl
      exact ⟨fun _ h => (nomatch h), fun pre p q post h => by
        have := congrArg List.length h
        simp at this⟩
    have e0 : passes [] st = st := rfl
    rw [e0]
    exact ⟨e (h0 (by omega)), e (h0 (by omega))⟩
  | now :: times, st, h, hm => by
    obtain ⟨a, b, c, d⟩ := pass_measure h now
    rcases d with d | ⟨d1, d2⟩
    · have := passes_balanced (times := times) a (by simp only [List.length_cons] at hm; omega)
      rw [b, c] at this
      exact this
    · rw [passes_rest h d1 d2]
      exact ⟨d1, d2⟩

theorem passes_ready : ∀ {times : List Nat} {st : ListState}, Ready st → Ready (passes times st) ∧
    (passes times st).mergeSize = st.mergeSize ∧ (passes times st).splitSize = st.splitSize
  | [], _, h => ⟨h, rfl, rfl⟩
  | now :: times, st, h => by
    obtain ⟨a, b, c, -⟩ := pass_measure h now
    obtain ⟨x, y, z⟩ := passes_ready (times := times) a
    exact ⟨x, y.trans c, z.trans b⟩

theorem total_le (k : Nat) : ∀ {segs : List Seg}, Counted segs → total k segs ≤ 2 * (allElems segs).length + segs.length
  | [], _ => by simp [total]
  | s :: ss, h => by
    have := total_le k (segs := ss) fun g hg => h g (by simp [hg])
    have hs := h s (by simp)
    rw [total_cons]
    unfold weight
    simp only [allElems, List.flatMap_cons, List.length_append, List.length_cons] at this ⊢
    split <;> omega

/-! ### Requests -/

theorem uneven_false {merge split : Nat} : ∀ {segs : List Seg} {p : Nat}, uneven merge split p segs = false ↔
    (∀ s ∈ segs, s.n ≤ split) ∧ (∀ s, segs.head? = some s → merge ≤ s.n + p) ∧
      ∀ pre a b post, segs = pre ++ a :: b :: post → merge ≤ a.n + b.n
  | [], p => by
    unfold uneven
    simp
  | s :: ss, p => by
    unfold uneven
    rw [Bool.or_eq_false_iff, Bool.or_eq_false_iff, decide_eq_false_iff_not, decide_eq_false_iff_not, uneven_false]
    constructor
    · rintro ⟨⟨a, b⟩, c, d, e⟩
      refine ⟨fun g hg => ?_, fun g hg => ?_, ?_⟩
      · rcases List.mem_cons.1 hg with rfl | hg
        · omega
        · exact c g hg
      · cases hg; omega
      · intro pre x y post h
        cases pre with
        | nil =>
          simp only [List.nil_append, List.cons.injEq] at h
          obtain ⟨rfl, rfl⟩ := h
          have := d y rfl
          omega
        | cons z pre =>
          simp only [List.cons_append, List.cons.injEq] at h
          exact e pre x y post h.2
    · rintro ⟨a, b, c⟩
      refine ⟨⟨by have := a s (by simp); omega, by have := b s rfl; omega⟩, fun g hg => a g (by simp [hg]), ?_, ?_⟩
      · intro g hg
        cases ss with
        | nil => cases hg
        | cons g' ss =>
          cases hg
          have := c [] s g ss rfl
          omega
      · intro pre x y post h
        exact c (s :: pre) x y post (by rw [h]; rfl)

theorem shouldSplit_false {merge split : Nat} {segs : List Seg} : shouldSplit merge split segs = false ↔
    (∀ s ∈ segs, s.n ≤ split) ∧ ∀ pre a b post, segs = pre ++ a :: b :: post → merge ≤ a.n + b.n := by
  cases segs with
  | nil => simp [shouldSplit]
  | cons s ss =>
    have := uneven_false (merge := merge) (split := split) (segs := s :: ss) (p := merge)
    unfold shouldSplit
    unfold uneven at this
    rw [Bool.or_eq_false_iff, Bool.or_eq_false_iff, decide_eq_false_iff_not, decide_eq_false_iff_not] at this
    rw [Bool.or_eq_false_iff, decide_eq_false_iff_not]
    constructor
    · rintro ⟨a, b⟩
      obtain ⟨c, -, d⟩ := this.1 ⟨⟨a, by omega⟩, b⟩
      exact ⟨c, d⟩
    · rintro ⟨a, b⟩
      obtain ⟨⟨c, -⟩, d⟩ := this.2 ⟨a, fun g hg => by omega, b⟩
      exact ⟨c, d⟩

end RankDB.Balance

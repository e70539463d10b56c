import Verif.Model.Near
import Verif.Spec.Near
import Verif.Proofs.Concurrent
/-
What one goroutine of a lookup with neighbours sees.
-/
namespace RankDB.Concurrent
open Segments Spec Lists

theorem see_unlocked {w : World} {i : Nat} {l : List Element} (h : seeScores w i = some l) : i ∉ lockedScores w := by
  obtain ⟨cur, phase, hist⟩ := w
  cases phase with
  | idle => nofun
  | locking u gi gs =>
    unfold seeScores at h
    dsimp only at h
    split at h
    · cases h
    · assumption
  | storing u oi cs os =>
    unfold seeScores at h
    dsimp only at h
    unfold lockedScores
    simp only [List.mem_filter, decide_eq_true_eq, not_and, Decidable.not_not]
    intro hi
    rw [if_pos hi] at h
    split at h
    · assumption
    · cases h

/-- A segment that is not locked for writing keeps its elements. -/
theorem logical_kept {w w' : World} (hw : WorldOK w) (hs : Step (w, none) (w', none)) {i : Nat} (hi : i ∉ lockedScores w') :
    elemsAt (logical w').scores.segs i = elemsAt (logical w).scores.segs i := by
  cases hs with
  | begin => rfl
  | lockIndex => rfl
  | lockScores => rfl
  | change h1 h2 =>
    refine elemsAt_congr (hw.phase.scores i ?_)
    intro hm
    exact hi (by simp [lockedScores, hm])
  | storeIndex => rfl
  | setCount => rfl
  | storeScores => rfl
  | finish => rfl

theorem hist_kept {w w' : World} (hs : Step (w, none) (w', none)) : ∀ s ∈ w.hist, s ∈ w'.hist := by
  cases hs with
  | change => exact fun s h => List.mem_cons_of_mem _ h
  | _ => exact fun s h => h

/-- A result: the element with its neighbours below as in one list in effect, and above as in one. -/
structure NearOK (hist : List ListState) (radius : Nat) (failed : Bool) (r : Ranked) : Prop where
  below : ∃ s ∈ hist, r.elem ∈ s.content ∧ r.below <+: rightBelow s.content r.elem radius ∧
    (failed = false → r.below = rightBelow s.content r.elem radius)
  above : ∃ s ∈ hist, r.elem ∈ s.content ∧ r.above <+: rightAbove s.content r.elem radius ∧
    (failed = false → r.above = rightAbove s.content r.elem radius)

theorem NearOK.mono {h h' : List ListState} {radius : Nat} {f f' : Bool} {r : Ranked} (h1 : NearOK h radius f r)
    (hh : ∀ s ∈ h, s ∈ h') (hf : f' = false → f = false) : NearOK h' radius f' r := by
  obtain ⟨⟨s, a1, a2, a3, a4⟩, t, b1, b2, b3, b4⟩ := h1
  exact ⟨⟨s, hh s a1, a2, a3, fun h => a4 (hf h)⟩, t, hh t b1, b2, b3, fun h => b4 (hf h)⟩

/-- Neighbours below that were found. -/
structure BelowOK (hist : List ListState) (radius : Nat) (failed : Bool) (e : Element) (b : List Element) : Prop where
  below : ∃ s ∈ hist, e ∈ s.content ∧ b <+: rightBelow s.content e radius ∧ (failed = false → b = rightBelow s.content e radius)

structure GoroOK (w : World) (g : Goro) : Prop where
  held : ∀ x ∈ g.held, x.1 ∉ lockedScores w ∧ x.2 = elemsAt (logical w).scores.segs x.1
  size : ∀ e seen, g.way = .below e seen → g.seg + 1 + seen.length ≤ w.cur.scores.segs.length
  sizeAbove : ∀ e b seen, g.way = .above e b seen → seen.length ≤ g.seg
  pos : ∀ e seen, g.way = .below e seen → e < g.elems.length
  posAbove : ∀ e b seen, g.way = .above e b seen → e < g.elems.length
  way : ∀ e b seen, g.way = .above e b seen → BelowOK w.hist g.radius g.failed (g.elems.getD e default) b
  res : ∀ r ∈ g.res, NearOK w.hist g.radius g.failed r

theorem sizes_kept {w w' : World} (hw : WorldOK w) (hs : Step (w, none) (w', none)) :
    w'.cur.scores.segs.length = w.cur.scores.segs.length := by
  cases hs with
  | finish => exact hw.phase.1.same.1.length
  | _ => rfl

theorem logical_size {w : World} (hw : WorldOK w) : (logical w).scores.segs.length = w.cur.scores.segs.length :=
  (hw.hist _ (logical_mem hw)).2.1.length

theorem logical_ok {w : World} (hw : WorldOK w) : ListOK (logical w) := (hw.hist _ (logical_mem hw)).1

theorem take_prefix {l m : List Element} {n : Nat} (h : l <+: m) : l.take n <+: m.take n := by
  obtain ⟨t, rfl⟩ := h
  exact (List.take_append (l₁ := l) (l₂ := t) (i := n)) ▸ List.prefix_append _ _

theorem content_split {st : ListState} {i e : Nat} {l : List Element} (hl : l = elemsAt st.scores.segs i) (he : e < l.length) :
    ∃ s, st.scores.segs[i]? = some s ∧ s.elems = l ∧ s.elems[e]? = some (l.getD e default) := by
  unfold elemsAt at hl
  cases hs : st.scores.segs[i]? with
  | none => rw [hs] at hl; rw [hl] at he; cases he
  | some s =>
    rw [hs] at hl
    refine ⟨s, rfl, hl.symm, ?_⟩
    have : s.elems = l := hl.symm
    rw [this, List.getElem?_eq_getElem he, List.getD_eq_getElem?_getD, List.getElem?_eq_getElem he]
    rfl

/-- The elements below, segment by segment. -/
theorem below_content {st : ListState} (h : ListOK st) {i e : Nat} {l : List Element} (hl : l = elemsAt st.scores.segs i) (he : e < l.length) :
    l.getD e default ∈ st.content ∧
    (st.content.filter fun x => decide (RanksAbove (l.getD e default) x)) = l.drop (e + 1) ++ allElems (st.scores.segs.drop (i + 1)) ∧
    (st.content.filter fun x => decide (RanksAbove x (l.getD e default))).reverse =
      (l.take e).reverse ++ (allElems (st.scores.segs.take i)).reverse := by
  obtain ⟨s, h1, h2, h3⟩ := content_split hl he
  have hp := posOf_spec h1 h3
  obtain ⟨u1, u2⟩ := strict_take h.scores.strict hp
  have hall : allElems st.scores.segs = allElems (st.scores.segs.take i) ++ (s.elems ++ allElems (st.scores.segs.drop (i + 1))) := by
    conv => lhs; rw [take_drop_split h1]
    rw [allElems_append, allElems_cons]
  refine ⟨List.mem_of_getElem? hp, ?_, ?_⟩
  · show (allElems st.scores.segs).filter _ = _
    rw [← u2]
    unfold posOf
    rw [hall, Nat.add_assoc, List.drop_length_add_append, List.drop_append_of_le_length (by rw [h2]; omega), h2]
  · show ((allElems st.scores.segs).filter _).reverse = _
    rw [← u1]
    unfold posOf
    have hj' : (allElems (st.scores.segs.take i)).length + e - (allElems (st.scores.segs.take i)).length = e := by omega
    rw [hall, List.take_append, hj', List.take_append_of_le_length (l₁ := s.elems) (by rw [h2]; omega),
      List.take_of_length_le (l := allElems (st.scores.segs.take i)) (by omega), List.reverse_append, h2]

theorem seen_below {st : ListState} {i : Nat} {seen : List (List Element)} (hn : i + 1 + seen.length ≤ st.scores.segs.length)
    (h : ∀ x ∈ seen.zipIdx, x.1 = elemsAt st.scores.segs (i + 1 + x.2)) :
    seen = ((st.scores.segs.drop (i + 1)).take seen.length).map (·.elems) := by
  apply List.ext_getElem?
  intro j
  by_cases hj : j < seen.length
  · have h1 := h (seen[j], j) (by rw [List.mem_zipIdx_iff_getElem?]; simp [hj])
    have h2 : i + 1 + j < st.scores.segs.length := by omega
    rw [List.getElem?_map, List.getElem?_take_of_lt hj, List.getElem?_drop, List.getElem?_eq_getElem h2, List.getElem?_eq_getElem hj]
    dsimp only at h1
    rw [h1, elemsAt, List.getElem?_eq_getElem h2]
    rfl
  · rw [List.getElem?_eq_none (by omega), List.getElem?_map, List.getElem?_eq_none (by simp; omega)]
    rfl

theorem seen_above {st : ListState} {i : Nat} {seen : List (List Element)} (hi : i ≤ st.scores.segs.length) (hn : seen.length ≤ i)
    (h : ∀ x ∈ seen.zipIdx, x.1 = elemsAt st.scores.segs (i - 1 - x.2)) :
    seen = ((st.scores.segs.take i).reverse.take seen.length).map (·.elems) := by
  apply List.ext_getElem?
  intro j
  by_cases hj : j < seen.length
  · have h1 := h (seen[j], j) (by rw [List.mem_zipIdx_iff_getElem?]; simp [hj])
    have h2 : i - 1 - j < st.scores.segs.length := by omega
    have h3 : j < (st.scores.segs.take i).length := by rw [List.length_take]; omega
    rw [List.getElem?_map, List.getElem?_take_of_lt hj, List.getElem?_reverse h3, List.length_take, Nat.min_eq_left hi,
      List.getElem?_take_of_lt (by omega), List.getElem?_eq_getElem h2, List.getElem?_eq_getElem hj]
    dsimp only at h1
    rw [h1, elemsAt, List.getElem?_eq_getElem h2]
    rfl
  · rw [List.getElem?_eq_none (by omega), List.getElem?_map, List.getElem?_eq_none (by simp; omega)]
    rfl

theorem below_right {st : ListState} (h : ListOK st) {i e radius : Nat} {l : List Element} {seen : List (List Element)}
    (hl : l = elemsAt st.scores.segs i) (he : e < l.length) (hn : i + 1 + seen.length ≤ st.scores.segs.length)
    (hs : ∀ x ∈ seen.zipIdx, x.1 = elemsAt st.scores.segs (i + 1 + x.2)) :
    belowOf l e radius seen <+: rightBelow st.content (l.getD e default) radius ∧
    ((belowOf l e radius seen).length = radius ∨ i + 1 + seen.length = st.scores.segs.length →
      belowOf l e radius seen = rightBelow st.content (l.getD e default) radius) := by
  have hpre : belowOf l e radius seen <+: rightBelow st.content (l.getD e default) radius := by
    unfold belowOf rightBelow
    rw [collect_eq, (below_content h hl he).2.1, seen_below hn hs, flatten_map_elems]
    apply take_prefix
    rw [List.prefix_append_right_inj]
    conv => rhs; rw [← List.take_append_drop seen.length (st.scores.segs.drop (i + 1)), allElems_append]
    exact List.prefix_append _ _
  refine ⟨hpre, ?_⟩
  rintro (hh | hh)
  · apply hpre.eq_of_length_le
    rw [hh]
    unfold rightBelow
    rw [List.length_take]
    omega
  · unfold belowOf rightBelow
    rw [collect_eq, (below_content h hl he).2.1, seen_below hn hs, flatten_map_elems,
      List.take_of_length_le (l := st.scores.segs.drop (i + 1)) (by rw [List.length_drop]; omega)]

theorem above_right {st : ListState} (h : ListOK st) {i e radius : Nat} {l : List Element} {seen : List (List Element)}
    (hl : l = elemsAt st.scores.segs i) (he : e < l.length) (hn : seen.length ≤ i)
    (hs : ∀ x ∈ seen.zipIdx, x.1 = elemsAt st.scores.segs (i - 1 - x.2)) :
    aboveOf l e radius seen <+: rightAbove st.content (l.getD e default) radius ∧
    ((aboveOf l e radius seen).length = radius ∨ seen.length = i →
      aboveOf l e radius seen = rightAbove st.content (l.getD e default) radius) := by
  have hi : i ≤ st.scores.segs.length := by
    obtain ⟨s, h1, -, -⟩ := content_split hl he
    have := (List.getElem?_eq_some_iff.1 h1).1
    omega
  have hseen : (seen.map List.reverse).flatten = (allElems ((st.scores.segs.take i).drop (i - seen.length))).reverse := by
    rw [seen_above hi hn hs, List.map_map, List.length_map]
    have : ((st.scores.segs.take i).reverse.take seen.length) = ((st.scores.segs.take i).drop (i - seen.length)).reverse := by
      rw [List.take_reverse, List.length_take, Nat.min_eq_left hi]
    have hlen : ((st.scores.segs.take i).reverse.take seen.length).length = seen.length := by
      rw [List.length_take, List.length_reverse, List.length_take]; omega
    rw [hlen, this]
    exact flatten_reverse_elems _
  have hpre : aboveOf l e radius seen <+: rightAbove st.content (l.getD e default) radius := by
    unfold aboveOf rightAbove
    rw [collect_eq, (below_content h hl he).2.2, hseen]
    apply take_prefix
    rw [List.prefix_append_right_inj]
    conv => rhs; rw [← List.take_append_drop (i - seen.length) (st.scores.segs.take i), allElems_append, List.reverse_append]
    exact List.prefix_append _ _
  refine ⟨hpre, ?_⟩
  rintro (hh | hh)
  · apply hpre.eq_of_length_le
    rw [hh]
    unfold rightAbove
    rw [List.length_take]
    omega
  · unfold aboveOf rightAbove
    rw [collect_eq, (below_content h hl he).2.2, hseen, hh, Nat.sub_self, List.drop_zero]

theorem flatMap_congr_mem {α β : Type} {f g : α → List β} : ∀ {l : List α}, (∀ x ∈ l, f x = g x) → l.flatMap f = l.flatMap g
  | [], _ => rfl
  | a :: l, h => by
    rw [List.flatMap_cons, List.flatMap_cons, h a (by simp), flatMap_congr_mem fun x hx => h x (by simp [hx])]

theorem findIdx_lt {l : List Element} {id j : Nat} (h : Elements.findIdx l id = some j) : j < l.length := by
  obtain ⟨e, he, -⟩ := Elements.findIdx_some h
  exact (List.getElem?_eq_some_iff.1 he).1

theorem goro_world {w w' : World} {g : Goro} (hw : WorldOK w) (hg : GoroOK w g) (hs : Step (w, none) (w', none))
    (hl : ∀ x ∈ g.held, x.1 ∉ lockedScores w') : GoroOK w' g := by
  have hh := hist_kept hs
  refine ⟨fun x hx => ⟨hl x hx, ?_⟩, ?_, hg.sizeAbove, hg.pos, hg.posAbove, ?_, fun r hr => (hg.res r hr).mono hh id⟩
  · rw [logical_kept hw hs (hl x hx)]
    exact (hg.held x hx).2
  · rw [sizes_kept hw hs]; exact hg.size
  · intro e b seen h2
    obtain ⟨s, a1, a2⟩ := (hg.way e b seen h2).below
    exact ⟨s, hh s a1, a2⟩

theorem held_base {w : World} {g : Goro} (hg : GoroOK w g) :
    g.seg ∉ lockedScores w ∧ g.elems = elemsAt (logical w).scores.segs g.seg :=
  hg.held (g.seg, g.elems) (by simp [Goro.held])

theorem held_below {w : World} {g : Goro} (hg : GoroOK w g) {e : Nat} {seen : List (List Element)}
    (hw : g.way = .below e seen) : ∀ x ∈ seen.zipIdx, g.seg + 1 + x.2 ∉ lockedScores w ∧ x.1 = elemsAt (logical w).scores.segs (g.seg + 1 + x.2) := by
  intro x hx
  refine hg.held (g.seg + 1 + x.2, x.1) ?_
  simp only [Goro.held, hw]
  exact List.mem_cons_of_mem _ (List.mem_map.2 ⟨x, hx, rfl⟩)

theorem held_above {w : World} {g : Goro} (hg : GoroOK w g) {b : List Element} {e : Nat} {seen : List (List Element)}
    (hw : g.way = .above e b seen) : ∀ x ∈ seen.zipIdx, g.seg - 1 - x.2 ∉ lockedScores w ∧ x.1 = elemsAt (logical w).scores.segs (g.seg - 1 - x.2) := by
  intro x hx
  refine hg.held (g.seg - 1 - x.2, x.1) ?_
  simp only [Goro.held, hw]
  exact List.mem_cons_of_mem _ (List.mem_map.2 ⟨x, hx, rfl⟩)

theorem below_found {w : World} {g : Goro} (hw : WorldOK w) (hg : GoroOK w g) {e : Nat} {seen : List (List Element)}
    (hway : g.way = .below e seen) (f : Bool)
    (hf : f = false → (belowOf g.elems e g.radius seen).length = g.radius ∨ g.seg + 1 + seen.length = w.cur.scores.segs.length) :
    BelowOK w.hist g.radius f (g.elems.getD e default) (belowOf g.elems e g.radius seen) := by
  have h1 := (held_base hg).2
  have h2 := hg.pos e seen hway
  have h3 := hg.size e seen hway
  rw [← logical_size hw] at h3 hf
  have := below_right (radius := g.radius) (logical_ok hw) h1 h2 h3 fun x hx => (held_below hg hway x hx).2
  exact ⟨logical w, logical_mem hw, (below_content (logical_ok hw) h1 h2).1, this.1, fun h => this.2 (hf h)⟩

theorem above_found {w : World} {g : Goro} (hw : WorldOK w) (hg : GoroOK w g) {b : List Element} {e : Nat} {seen : List (List Element)}
    (hway : g.way = .above e b seen) (f : Bool) (hff : f = false → g.failed = false)
    (hf : f = false → (aboveOf g.elems e g.radius seen).length = g.radius ∨ seen.length = g.seg) :
    NearOK w.hist g.radius f (g.result e (aboveOf g.elems e g.radius seen) b) := by
  have h1 := (held_base hg).2
  have h2 := hg.posAbove e b seen hway
  have := above_right (radius := g.radius) (logical_ok hw) h1 h2 (hg.sizeAbove e b seen hway) fun x hx => (held_above hg hway x hx).2
  refine ⟨?_, logical w, logical_mem hw, (below_content (logical_ok hw) h1 h2).1, this.1, fun h => this.2 (hf h)⟩
  obtain ⟨s, a1, a2, a3, a4⟩ := (hg.way e b seen hway).below
  exact ⟨s, a1, a2, a3, fun h => a4 (hff h)⟩

theorem held_only {w : World} {g g' : Goro} (hg : GoroOK w g) (h1 : g'.seg = g.seg) (h2 : g'.elems = g.elems)
    (h : g'.held = [(g'.seg, g'.elems)]) : ∀ x ∈ g'.held, x.1 ∉ lockedScores w ∧ x.2 = elemsAt (logical w).scores.segs x.1 := by
  intro x hx
  rw [h, List.mem_singleton] at hx
  subst hx
  rw [h1, h2]
  exact held_base hg

theorem goro_step {w : World} {g g' : Goro} (hw : WorldOK w) (hg : GoroOK w g) (hs : GoroStep w g g') : GoroOK w g' := by
  cases hs with
  | skip hway hi hf => exact ⟨hg.held, hg.size, hg.sizeAbove, hg.pos, hg.posAbove, hg.way, hg.res⟩
  | @find id eidx ids hway hi hf =>
    refine ⟨held_only hg rfl rfl rfl, ?_, nofun, ?_, nofun, nofun, hg.res⟩
    · intro e seen h
      cases h
      obtain ⟨s, h1, -, -⟩ := content_split (held_base hg).2 (findIdx_lt hf)
      have := (List.getElem?_eq_some_iff.1 h1).1
      rw [logical_size hw] at this
      exact this
    · intro e seen h
      cases h
      exact findIdx_lt hf
  | @goBelow l eidx seen hway hn hsz hl =>
    refine ⟨?_, ?_, nofun, ?_, nofun, nofun, hg.res⟩
    · intro x hx
      simp only [Goro.held, List.zipIdx_append, List.map_append, List.mem_cons, List.mem_append] at hx
      rcases hx with rfl | hx | hx
      · exact held_base hg
      · obtain ⟨y, hy, rfl⟩ := List.mem_map.1 hx
        exact held_below hg hway y hy
      · simp only [List.zipIdx_cons, List.zipIdx_nil, List.map_cons, List.map_nil, List.mem_singleton] at hx
        subst hx
        simp only [Nat.zero_add]
        exact ⟨see_unlocked hl, seeScores_logical hw hl⟩
    · intro e seen' h
      cases h
      rw [List.length_append, List.length_singleton]
      dsimp only
      omega
    · intro e seen' h
      cases h
      exact hg.pos _ _ hway
  | @failBelow eidx seen hway hn hsz =>
    refine ⟨held_only hg rfl rfl rfl, nofun, ?_, nofun, ?_, ?_, fun r hr => (hg.res r hr).mono (fun _ h => h) nofun⟩
    · intro e b seen h; cases h; exact Nat.zero_le _
    · intro e b seen' h; cases h; exact hg.pos _ _ hway
    · intro e b seen' h; cases h; exact below_found hw hg hway true nofun
  | @endBelow eidx seen hway hn =>
    refine ⟨held_only hg rfl rfl rfl, nofun, ?_, nofun, ?_, ?_, hg.res⟩
    · intro e b seen h; cases h; exact Nat.zero_le _
    · intro e b seen' h; cases h; exact hg.pos _ _ hway
    · intro e b seen' h; cases h; exact below_found hw hg hway g.failed fun _ => hn
  | @goAbove l b eidx seen hway hn hsz hl =>
    refine ⟨?_, nofun, ?_, nofun, ?_, ?_, hg.res⟩
    · intro x hx
      simp only [Goro.held, List.zipIdx_append, List.map_append, List.mem_cons, List.mem_append] at hx
      rcases hx with rfl | hx | hx
      · exact held_base hg
      · obtain ⟨y, hy, rfl⟩ := List.mem_map.1 hx
        exact held_above hg hway y hy
      · simp only [List.zipIdx_cons, List.zipIdx_nil, List.map_cons, List.map_nil, List.mem_singleton] at hx
        subst hx
        simp only [Nat.zero_add]
        exact ⟨see_unlocked hl, seeScores_logical hw hl⟩
    · intro e b seen' h
      cases h
      rw [List.length_append, List.length_singleton]
      dsimp only
      omega
    · intro e b seen' h; cases h; exact hg.posAbove _ _ _ hway
    · intro e b2 seen' h; cases h; exact hg.way _ _ _ hway
  | @failAbove b eidx seen hway hn hsz =>
    refine ⟨held_only hg rfl rfl rfl, nofun, nofun, nofun, nofun, nofun, ?_⟩
    intro r hr
    rcases List.mem_append.1 hr with hr | hr
    · exact (hg.res r hr).mono (fun _ h => h) nofun
    · rw [List.mem_singleton.1 hr]
      exact above_found hw hg hway true nofun nofun
  | @endAbove b eidx seen hway hn =>
    refine ⟨held_only hg rfl rfl rfl, nofun, nofun, nofun, nofun, nofun, ?_⟩
    intro r hr
    rcases List.mem_append.1 hr with hr | hr
    · exact hg.res r hr
    · rw [List.mem_singleton.1 hr]
      exact above_found hw hg hway g.failed id fun _ => hn

/-! ### Without the neighbours -/

/-- A result without the neighbours. -/
def strip (r : Ranked) : Ranked := { r with above := [], below := [] }

/-- What the goroutine finds. -/
def Goro.finds (g : Goro) : List Ranked := findIn g.elems g.off g.total g.given

/-- The element it is at. -/
def Goro.now (g : Goro) : List Ranked :=
  match g.way with
  | .idle => []
  | .below e _ => [g.result e [] []]
  | .above e _ _ => [g.result e [] []]

/-- What was found and what will be found. -/
def Goro.Sum (g : Goro) : Prop := g.finds = g.res.map strip ++ g.now ++ findIn g.elems g.off g.total g.ids

theorem sum_step {w : World} {g g' : Goro} (h : g.Sum) (hs : GoroStep w g g') : g'.Sum ∧ g'.finds = g.finds ∧ g'.radius = g.radius := by
  unfold Goro.Sum at h ⊢
  cases hs with
  | skip hway hi hf =>
    refine ⟨h.trans ?_, rfl, rfl⟩
    rw [hi]
    simp [findIn, hf, Goro.now, hway]
  | find hway hi hf =>
    refine ⟨h.trans ?_, rfl, rfl⟩
    rw [hi]
    simp [findIn, hf, Goro.now, hway, Goro.result]
  | goBelow hway => exact ⟨h.trans (by simp [Goro.now, hway, Goro.result]), rfl, rfl⟩
  | failBelow hway => exact ⟨h.trans (by simp [Goro.now, hway, Goro.result]), rfl, rfl⟩
  | endBelow hway => exact ⟨h.trans (by simp [Goro.now, hway, Goro.result]), rfl, rfl⟩
  | goAbove hway => exact ⟨h.trans (by simp [Goro.now, hway, Goro.result]), rfl, rfl⟩
  | failAbove hway =>
    exact ⟨h.trans (by simp [Goro.now, hway, Goro.result, strip, calculateFromBottom]), rfl, rfl⟩
  | endAbove hway =>
    exact ⟨h.trans (by simp [Goro.now, hway, Goro.result, strip, calculateFromBottom]), rfl, rfl⟩

/-- The lookup without neighbours that it goes along with. -/
def Near.plain (n : Near) : World × Option Look :=
  (n.w, n.look.map fun k => { k with res := n.gos.flatMap (·.finds) })

theorem step_any {w w' : World} (k : Option Look) (hs : Step (w, none) (w', none)) : Step (w, k) (w', k) := by
  cases hs with
  | begin now sch es hf => exact .begin now sch es hf
  | lockIndex i hi => exact .lockIndex i hi
  | lockScores i hi => exact .lockScores i hi
  | change h1 h2 => exact .change h1 h2
  | storeIndex i hi => exact .storeIndex i hi
  | setCount i hi ha => exact .setCount i hi ha
  | storeScores i hi => exact .storeScores i hi
  | finish h1 h2 => exact .finish h1 h2

structure NearAll (radius : Nat) (n : Near) : Prop where
  world : WorldOK n.w
  gos : ∀ g ∈ n.gos, GoroOK n.w g ∧ g.Sum ∧ g.radius = radius

theorem plain_step {radius : Nat} {x y : Near} (h : NearAll radius x) (hs : NearStep radius x y) :
    Step x.plain y.plain ∨ x.plain = y.plain := by
  cases hs with
  | world hs hl => exact .inl (step_any _ hs)
  | call ids => exact .inl (.call ids)
  | @readIndex w k gos a b i ids l ht hl => exact .inl (.readIndex (k := { k with res := gos.flatMap (·.finds) }) ht hl)
  | @offsets w k gos ht ho => exact .inl (.offsets (k := { k with res := gos.flatMap (·.finds) }) ht ho)
  | @read w k gos a b i ids l offs total ho hr hl =>
    left
    have := Step.readScores (w := w) (k := { k with res := gos.flatMap (·.finds) }) ho hr hl
    simpa [Near.plain, Goro.finds] using this
  | @go w k a b g g' hs =>
    right
    have := (sum_step (h.gos g (by simp)).2.1 hs).2.1
    simp [Near.plain, this]

theorem near_step {radius : Nat} {x y : Near} (h : NearAll radius x) (hs : NearStep radius x y) : NearAll radius y := by
  have hp := plain_step h hs
  have hw : WorldOK y.w := by
    rcases hp with hp | hp
    · exact world_step (w := x.plain.1) (k := x.plain.2) h.world hp
    · rw [show y.w = x.w from (congrArg Prod.fst hp).symm]
      exact h.world
  refine ⟨hw, ?_⟩
  cases hs with
  | world hs hl => exact fun g hg => ⟨goro_world h.world (h.gos g hg).1 hs (hl g hg), (h.gos g hg).2⟩
  | call ids => nofun
  | readIndex ht hl => exact h.gos
  | offsets ht ho => exact h.gos
  | @read w k gos a b i ids l offs total ho hr hl =>
    intro g hg
    rcases List.mem_append.1 hg with hg | hg
    · exact h.gos g hg
    · rw [List.mem_singleton.1 hg]
      refine ⟨⟨?_, nofun, nofun, nofun, nofun, nofun, nofun⟩, rfl, rfl⟩
      intro x hx
      simp only [Goro.held, List.mem_singleton] at hx
      subst hx
      exact ⟨see_unlocked hl, seeScores_logical h.world hl⟩
  | @go w k a b g g' hs =>
    intro g2 hg2
    rcases List.mem_append.1 hg2 with hg2 | hg2
    · exact h.gos g2 (List.mem_append_left _ hg2)
    rcases List.mem_cons.1 hg2 with rfl | hg2
    · have hg := h.gos g (by simp)
      have := sum_step hg.2.1 hs
      exact ⟨goro_step h.world hg.1 hs, this.1, this.2.2.trans hg.2.2⟩
    · exact h.gos g2 (by simp [hg2])

theorem near_run {radius : Nat} {x y : Near} (hr : NearRun radius x y) (h : NearAll radius x) :
    NearAll radius y ∧ Run x.plain y.plain := by
  induction hr with
  | refl => exact ⟨h, .refl _⟩
  | step _ hs ih =>
    refine ⟨near_step ih.1 hs, ?_⟩
    rcases plain_step ih.1 hs with hp | hp
    · exact .step ih.2 hp
    · rw [← hp]; exact ih.2

/-- When it has returned, the result without the neighbours is that of the other lookup. -/
theorem near_result {radius : Nat} {n : Near} {ids : List Nat} (h : NearAll radius n) (hr : n.Returned ids) :
    ∃ k : Look, n.plain = (n.w, some k) ∧ k.Returned ∧ k.ids = ids ∧ k.res = n.result.map strip := by
  obtain ⟨⟨k, h1, h2, h3, h4, h5⟩, h6⟩ := hr
  refine ⟨{ k with res := n.gos.flatMap (·.finds) }, by simp [Near.plain, h1], ⟨h3, h4, h5⟩, h2, ?_⟩
  unfold Near.result
  rw [List.map_flatMap]
  apply flatMap_congr_mem
  intro g hg
  have := (h.gos g hg).2.1
  rw [this, Goro.now, (h6 g hg).2, (h6 g hg).1]
  simp [findIn]

end RankDB.Concurrent

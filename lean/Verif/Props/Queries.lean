import Verif.Proofs.Query
import Verif.Props.Maintenance
/-
Properties C22 - C28: queries.
Specification: `Verif/Spec/Ranking.lean` (`ranking`, `rankFromTop`, `rankFromBottom`). In a well-formed
list `content` is the ranking of the elements (`C21_content_is_ranked`).
-/
namespace RankDB.Props
open Spec

/-! ### C22 GetRankTop -/

theorem C22_rank_top (st : ListState) (offset n : Nat) (h : ListOK st) :
    Lists.getRankTop st offset n =
      if offset < st.content.length then some ((st.content.drop offset).take n) else none := by
  unfold Lists.getRankTop
  rcases Segments.segIdxTop_spec 0 offset h.scoresCount with ⟨h1, h2⟩ | ⟨h1, i, o, h2, h3⟩
  · rw [h1, if_neg (by unfold ListState.content; omega)]; rfl
  · rw [h2, if_pos (show offset < st.content.length from h1)]
    simp only [Option.map_some, Segments.getElementsOffset_eq, Nat.zero_add]
    rw [← h3]; rfl

example : ListOK exList ∧ (Lists.getRankTop exList 2 4).map (·.map (·.id)) = some [1, 2, 9, 5] ∧
    Lists.getRankTop exList 9 4 = none := ⟨exList_ok, by decide +kernel⟩

/-! ### C23 GetRankBottom -/

theorem C23_rank_bottom (st : ListState) (offset n : Nat) (h : ListOK st) :
    Lists.getRankBottom st offset n =
      if offset < st.content.length then
        some ((st.content.drop (st.content.length - 1 - offset)).take n)
      else none := by
  unfold Lists.getRankBottom
  rcases Segments.segIdxBottom_spec offset h.scoresCount with ⟨h1, h2⟩ | ⟨h1, i, o, h2, h3⟩
  · rw [h1, if_neg (by unfold ListState.content; omega)]; rfl
  · rw [h2, if_pos (show offset < st.content.length from h1)]
    simp only [Option.map_some, Segments.getElementsOffset_eq]
    rw [h3]; rfl

example : ListOK exList ∧ (Lists.getRankBottom exList 2 4).map (·.map (·.id)) = some [8, 7, 4] ∧
    (Lists.getRankBottom exList 8 2).map (·.map (·.id)) = some [6, 3] ∧
    Lists.getRankBottom exList 9 4 = none := ⟨exList_ok, by decide +kernel⟩

/-! ### C24 GetRankScoreDesc -/

theorem rankFrom_spec {total above : Nat} : ∀ {l : List Element} {first : Nat},
    (Lists.rankFrom total above first l).map (·.1) = l ∧
    ∀ (i : Nat) x, (Lists.rankFrom total above first l)[i]? = some x →
      x.2.1 = (above : Int) + first + i ∧ x.2.2 = (total : Int) - 1 - (above + first + i)
  | [], first => by simp [Lists.rankFrom]
  | e :: l, first => by
    obtain ⟨h1, h2⟩ := rankFrom_spec (total := total) (above := above) (l := l) (first := first + 1)
    unfold Lists.rankFrom
    refine ⟨by rw [List.map_cons, h1], ?_⟩
    intro i x hx
    cases i with
    | zero =>
      simp only [List.getElem?_cons_zero, Option.some.injEq] at hx
      subst hx
      simp only []; omega
    | succ i =>
      rw [List.getElem?_cons_succ] at hx
      have := h2 i x hx
      omega

theorem C24_rank_score (st : ListState) (score n : Nat) (h : ListOK st) (hs : score < 2 ^ 64) :
    ∃ r, Lists.getRankScoreDesc st score n = some r ∧
      r.map (·.1) = (st.content.filter fun e => decide (e.score ≤ score)).take n ∧
      ∀ x ∈ r, x.2.1 = rankFromTop st.content x.1 ∧ x.2.2 = rankFromBottom st.content x.1 := by
  have hc := h.scoresCount
  unfold Lists.getRankScoreDesc
  rcases Segments.segIdxScore_spec (score := score) 0 0 hc with ⟨-, h2⟩ | ⟨pre, s, post, h1, h2, h3, h4, h5⟩
  · exfalso
    obtain ⟨s, hsm, h1, h3⟩ := tiles_exists h.scores.tiles (p := pos score (2 ^ 32 - 1))
      (by unfold top pos; omega)
    refine h2 s hsm ?_
    have := h.scores.ties s hsm
    unfold lo hi pos at *; omega
  · rw [h5]
    simp only [Nat.zero_add]
    have hall : st.content = allElems pre ++ (s.elems ++ allElems post) := by
      unfold ListState.content
      rw [h1, allElems_append, Segments.allElems_cons]
    -- above the segment all scores are larger, below it none
    have hpw := tiles_pairwise h.scores.tiles
    rw [h1, List.pairwise_append, List.pairwise_cons] at hpw
    have hmem : ∀ t, t ∈ pre ++ s :: post → t ∈ st.scores.segs := fun t ht => by rw [h1]; exact ht
    have hpre : ∀ e ∈ allElems pre, score < e.score := by
      intro e he
      obtain ⟨t, ht, het⟩ := mem_allElems.1 he
      have htm := hmem t (by simp [ht])
      have hr := h.scores.inRange t htm e het
      have hno := h4 t ht
      have hts := hpw.2.2 t ht s (by simp)
      have ht1 := h.scores.ties t htm
      have ht2 := h.scores.ties s (hmem s (by simp))
      have ht3 := (h.scores.storable e (mem_allElems.2 ⟨t, htm, het⟩)).tie
      have hle := tiles_le h.scores.tiles t htm
      unfold InRange lo hi pos at *; omega
    have hpost : ∀ e ∈ allElems post, e.score ≤ score := by
      intro e he
      obtain ⟨t, ht, het⟩ := mem_allElems.1 he
      have htm := hmem t (by simp [ht])
      have hr := h.scores.inRange t htm e het
      have hts := hpw.2.1.1 t ht
      have ht1 := h.scores.ties t htm
      have ht2 := h.scores.ties s (hmem s (by simp))
      have ht3 := (h.scores.storable e (mem_allElems.2 ⟨t, htm, het⟩)).tie
      unfold InRange lo hi pos at *; omega
    have hsegi : st.scores.segs[pre.length]? = some s := by rw [h1]; simp
    have hsd : st.scores.segs.drop pre.length = s :: post := by rw [h1, List.drop_left]
    have hsd1 : st.scores.segs.drop (pre.length + 1) = post := by
      rw [← List.drop_drop, hsd]; rfl
    have hsn : s.n = s.elems.length := hc s (hmem s (by simp))
    have hcnt : Segments.count st.scores.segs = st.content.length := Segments.count_eq hc
    have hsorted : s.elems.Pairwise (fun a b => b.score ≤ a.score) := by
      refine (h.scores.ranked s (hmem s (by simp))).imp fun {a b} hab => ?_
      unfold RanksAbove at hab; omega
    -- the result starts at position `k` of the rest of the list
    have main : ∃ k, Segments.getElementsFromScore st.scores.segs score pre.length n =
        some (((s.elems ++ allElems post).drop k).take n, k) ∧
        st.content.filter (fun e => decide (e.score ≤ score)) = st.content.drop ((allElems pre).length + k) := by
      have hf1 : (allElems pre).filter (fun e => decide (e.score ≤ score)) = [] :=
        List.filter_eq_nil_iff.2 fun e he => by have := hpre e he; simp; omega
      have hf2 : (allElems post).filter (fun e => decide (e.score ≤ score)) = allElems post :=
        List.filter_eq_self.2 fun e he => by simpa using hpost e he
      unfold Segments.getElementsFromScore
      rw [hsegi]
      simp only []
      rcases Segments.firstAtMost_spec (score := score) hsorted with ⟨g1, g2⟩ | ⟨k, g1, g2, g3, g4⟩
      · rw [g1]
        refine ⟨s.elems.length, ?_, ?_⟩
        · simp only []
          rw [hsd1, Segments.getElementsOffset_eq, List.drop_left, List.drop_zero, hsn]
        · have : s.elems.filter (fun e => decide (e.score ≤ score)) = [] :=
            List.filter_eq_nil_iff.2 fun e he => by have := g2 e he; simp; omega
          rw [hall, List.filter_append, List.filter_append, hf1, hf2, this, List.drop_length_add_append,
            List.drop_left]; simp
      · rw [g1]
        refine ⟨k, ?_, ?_⟩
        · simp only []
          rw [hsd, Segments.getElementsOffset_eq, Segments.allElems_cons]
        · have : s.elems.filter (fun e => decide (e.score ≤ score)) = s.elems.drop k := by
            conv => lhs; rw [← List.take_append_drop k s.elems]
            rw [List.filter_append, List.filter_eq_nil_iff.2, List.filter_eq_self.2, List.nil_append]
            · intro e he; simpa using g4 e he
            · intro e he; have := g3 e he; simp; omega
          rw [hall, List.filter_append, List.filter_append, hf1, hf2, this, List.drop_length_add_append,
            List.drop_append_of_le_length (by omega)]; simp
    obtain ⟨k, m1, m2⟩ := main
    rw [m1]
    simp only [Option.map_some]
    refine ⟨_, rfl, ?_, ?_⟩
    · rw [rankFrom_spec.1, m2, hall, List.drop_length_add_append]
    · intro x hx
      obtain ⟨i, hi⟩ := List.mem_iff_getElem?.1 hx
      obtain ⟨r1, r2⟩ := rankFrom_spec.2 i x hi
      have hxe : (Lists.rankFrom (Segments.count st.scores.segs) (allElems pre).length k
          (((s.elems ++ allElems post).drop k).take n)).map (·.1) = _ := rankFrom_spec.1
      have h2 := congrArg (·[i]?) hxe
      simp only [List.getElem?_map, hi, Option.map_some] at h2
      have hin : i < n := by
        rcases Nat.lt_or_ge i n with hlt | hge
        · exact hlt
        · rw [List.getElem?_take, if_neg (by omega)] at h2; simp at h2
      rw [List.getElem?_take_of_lt hin, List.getElem?_drop] at h2
      have hcx : st.content[(allElems pre).length + k + i]? = some x.1 := by
        rw [hall, List.getElem?_append_right (by omega), h2]
        congr 1; omega
      obtain ⟨t1, t2⟩ := Segments.countP_pos_of_strict h.scores.strict hcx
      have hlt := (List.getElem?_eq_some_iff.1 hcx).1
      unfold ListState.content at *
      rw [t1, t2, r1, r2, hcnt]
      omega

example : ListOK exList ∧ (Lists.getRankScoreDesc exList 49 2) =
    some [(⟨33, 9, [], 0, 7⟩, 4, 4), (⟨20, 5, [], 0, 7⟩, 5, 3)] ∧
    Lists.getRankScoreDesc exList 3 2 = some [] := ⟨exList_ok, by decide +kernel⟩

/-! ### C25 GetPercentile

The property is false of the code in two ways: the query panics if the offset is the length and the last
segment is empty, and the product of length and percentile is rounded to 64 bits before it is truncated. -/

/-- Bounds of the offset: the true offset or, because of the rounding, the next one. -/
theorem C25_offset (total m e : Nat) (ht : total < 2 ^ 63) (hm : m ≤ 2 ^ e) :
    Lists.percentileOffset total m e ≤ total ∧
    total * m / 2 ^ e ≤ Lists.percentileOffset total m e ∧
    Lists.percentileOffset total m e ≤ total * m / 2 ^ e + 1 ∧
    (total * m < 2 ^ 64 → Lists.percentileOffset total m e = total * m / 2 ^ e) := by
  unfold Lists.percentileOffset
  simp only []
  have hle : total * m ≤ total * 2 ^ e := Nat.mul_le_mul_left _ hm
  generalize ha : total * m = a at *
  by_cases hsmall : a < 2 ^ 64
  · have hlog : Nat.log2 a + 1 - 64 = 0 := by
      by_cases h0 : a = 0
      · subst h0; simp
      · have := (Nat.log2_lt h0).2 hsmall; omega
    rw [hlog]
    simp only [Nat.pow_zero, Nat.div_one, Nat.mod_one, Nat.mul_zero, Nat.mul_one]
    rw [if_neg (by omega)]
    refine ⟨?_, Nat.le_refl _, by omega, fun _ => rfl⟩
    exact Nat.div_le_of_le_mul (by rw [Nat.mul_comm]; exact hle)
  · have ha0 : a ≠ 0 := by omega
    have hlog : 64 ≤ Nat.log2 a := (Nat.le_log2 ha0).2 (by omega)
    obtain ⟨sh, hsh⟩ : ∃ sh, Nat.log2 a + 1 - 64 = sh := ⟨_, rfl⟩
    have hlb : 2 ^ (63 + sh) ≤ a := by
      have := Nat.log2_self_le ha0
      have e1 : Nat.log2 a = 63 + sh := by omega
      rwa [e1] at this
    rw [hsh]
    have hshe : sh ≤ e := by
      rcases Nat.lt_or_ge e sh with hlt | hge
      · exfalso
        have h1 : a < 2 ^ 63 * 2 ^ e := Nat.lt_of_le_of_lt hle (Nat.mul_lt_mul_of_pos_right ht (Nat.two_pow_pos e))
        rw [← Nat.pow_add] at h1
        have : 2 ^ (63 + e) ≤ 2 ^ (63 + sh) := Nat.pow_le_pow_right (by omega) (by omega)
        omega
      · exact hge
    obtain ⟨d, rfl⟩ : ∃ d, e = sh + d := ⟨e - sh, by omega⟩
    have hpos : 0 < 2 ^ sh := Nat.two_pow_pos sh
    have hposd : 0 < 2 ^ d := Nat.two_pow_pos d
    have hdiv : ∀ q, q * 2 ^ sh / 2 ^ (sh + d) = q / 2 ^ d := by
      intro q
      rw [Nat.pow_add, Nat.mul_comm q, Nat.mul_div_mul_left _ _ hpos]
    rw [hdiv]
    have hex : a / 2 ^ (sh + d) = a / 2 ^ sh / 2 ^ d := by rw [Nat.pow_add, Nat.div_div_eq_div_mul]
    rw [hex]
    have hqle : a / 2 ^ sh ≤ total * 2 ^ d := by
      refine Nat.div_le_of_le_mul ?_
      rw [Nat.mul_left_comm, ← Nat.pow_add]; exact hle
    have hdm := Nat.div_add_mod a (2 ^ sh)
    generalize hq : a / 2 ^ sh = q at *
    generalize hr : a % 2 ^ sh = r at *
    have hup : (if 2 ^ sh < 2 * r ∨ 2 ^ sh = 2 * r ∧ q % 2 = 1 then q + 1 else q) ≤ total * 2 ^ d := by
      split
      · rename_i hc
        rcases Nat.lt_or_eq_of_le hqle with hlt | heq
        · exact hlt
        · exfalso
          have hr0 : r = 0 := by
            have : 2 ^ sh * q + r ≤ total * 2 ^ (sh + d) := by rw [hdm]; exact hle
            rw [heq, Nat.mul_left_comm, ← Nat.pow_add] at this
            omega
          omega
      · exact hqle
    have hge : q ≤ (if 2 ^ sh < 2 * r ∨ 2 ^ sh = 2 * r ∧ q % 2 = 1 then q + 1 else q) ∧
        (if 2 ^ sh < 2 * r ∨ 2 ^ sh = 2 * r ∧ q % 2 = 1 then q + 1 else q) ≤ q + 1 := by
      split <;> omega
    generalize (if 2 ^ sh < 2 * r ∨ 2 ^ sh = 2 * r ∧ q % 2 = 1 then q + 1 else q) = q' at *
    refine ⟨Nat.div_le_of_le_mul (by rw [Nat.mul_comm]; exact hup), Nat.div_le_div_right hge.1, ?_, by omega⟩
    have : q' / 2 ^ d ≤ (q + 1 * 2 ^ d) / 2 ^ d := Nat.div_le_div_right (by omega)
    rw [Nat.add_mul_div_right _ _ hposd] at this
    exact this

/-- Partial: the returned element is the one at the computed offset (the last one if that is the
length), with true ranks and neighbours, *if* the last segment is not empty or the offset is below the
length. The computed offset is the true one or, because of rounding, the next (`C25_offset`). -/
theorem C25_percentile_partial (st : ListState) (m e radius : Nat) (h : ListOK st) (hm : m ≤ 2 ^ e)
    (hlen : st.content.length < 2 ^ 63) (hne : st.content ≠ [])
    (hlast : ∀ s, st.scores.segs.getLast? = some s → s.elems ≠ []) :
    ∃ r, Lists.getPercentile st m e radius = some (some r) ∧
      st.content[min (Lists.percentileOffset st.content.length m e) (st.content.length - 1)]? = some r.elem ∧
      r.fromTop = rankFromTop st.content r.elem ∧ r.fromBottom = rankFromBottom st.content r.elem := by
  have hpos : 0 < st.content.length := List.length_pos_iff.2 hne
  have hcnt : Segments.count st.scores.segs = st.content.length := Segments.count_eq h.scoresCount
  unfold Lists.getPercentile
  rw [if_neg (by omega), hcnt]
  obtain ⟨o1, -⟩ := C25_offset _ m e hlen hm
  rcases Nat.lt_or_eq_of_le o1 with hlt | heq
  · obtain ⟨r, r1, r2, r3⟩ := Lists.getAtOffset_spec (radius := radius) h hlt
    refine ⟨r, r1, ?_, r2.top, r2.bottom⟩
    rw [show min (Lists.percentileOffset st.content.length m e) (st.content.length - 1) =
      Lists.percentileOffset st.content.length m e by omega]
    exact r3
  · obtain ⟨s, hs⟩ : ∃ s, st.scores.segs.getLast? = some s := by
      cases hl : st.scores.segs.getLast? with
      | none => exact absurd (List.getLast?_eq_none_iff.1 hl) (tiles_ne_nil h.scores.tiles)
      | some s => exact ⟨s, rfl⟩
    rcases Lists.getAtOffset_end (radius := radius) h (Nat.le_of_eq heq.symm) hs with ⟨h1, -⟩ | ⟨r, r1, r2, r3⟩
    · exact absurd h1 (hlast s hs)
    · refine ⟨r, r1, ?_, r2.top, r2.bottom⟩
      rw [heq, show min st.content.length (st.content.length - 1) = st.content.length - 1 by omega,
        ← List.getLast?_eq_getElem?]
      exact r3

/-- The true rank: with fewer than 2^11 elements (or fewer significant bits) there is no rounding. -/
theorem C25_percentile_exact (st : ListState) (m e radius : Nat) (h : ListOK st) (hm : m < 2 ^ e)
    (hbits : st.content.length * m < 2 ^ 64) (hlen : st.content.length < 2 ^ 63) (hne : st.content ≠ []) :
    ∃ r, Lists.getPercentile st m e radius = some (some r) ∧
      st.content[st.content.length * m / 2 ^ e]? = some r.elem ∧
      r.fromTop = rankFromTop st.content r.elem ∧ r.fromBottom = rankFromBottom st.content r.elem := by
  have hpos : 0 < st.content.length := List.length_pos_iff.2 hne
  have hcnt : Segments.count st.scores.segs = st.content.length := Segments.count_eq h.scoresCount
  unfold Lists.getPercentile
  obtain ⟨-, -, -, o4⟩ := C25_offset _ m e hlen (Nat.le_of_lt hm)
  rw [if_neg (by omega), hcnt, o4 hbits]
  have hlt : st.content.length * m / 2 ^ e < st.content.length := by
    rw [Nat.div_lt_iff_lt_mul (Nat.two_pow_pos e)]
    exact Nat.mul_lt_mul_of_pos_left hm hpos
  obtain ⟨r, r1, r2, r3⟩ := Lists.getAtOffset_spec (radius := radius) h hlt
  exact ⟨r, r1, r3, r2.top, r2.bottom⟩

/-- The rounding never goes past the last element if the percentile is a float64 below 1. -/
theorem C25_offset_inside (total m e : Nat) (ht : total < 2 ^ 63) (h0 : 0 < total) (hm : m < 2 ^ e) (hm' : m < 2 ^ 53) :
    Lists.percentileOffset total m e < total := by
  by_cases hsmall : total * m < 2 ^ 64
  · obtain ⟨-, -, -, o4⟩ := C25_offset total m e ht (Nat.le_of_lt hm)
    rw [o4 hsmall, Nat.div_lt_iff_lt_mul (Nat.two_pow_pos e)]
    exact Nat.mul_lt_mul_of_pos_left hm h0
  · unfold Lists.percentileOffset
    simp only []
    rw [Nat.div_lt_iff_lt_mul (Nat.two_pow_pos e)]
    have h1 : total * m < total * 2 ^ 53 := Nat.mul_lt_mul_of_pos_left hm' h0
    have h2 : total * m + total ≤ total * 2 ^ e := by
      have := Nat.mul_le_mul_left total (show m + 1 ≤ 2 ^ e from hm)
      rwa [Nat.mul_add, Nat.mul_one] at this
    have h3 : 53 < e → 2 * (total * 2 ^ 53) ≤ total * 2 ^ e := by
      intro he
      have : 2 ^ 54 ≤ 2 ^ e := Nat.pow_le_pow_right (by omega) he
      have := Nat.mul_le_mul_left total this
      omega
    have h4 : e ≤ 53 → total * 2 ^ e ≤ total * 2 ^ 53 := fun he => Nat.mul_le_mul_left _ (Nat.pow_le_pow_right (by omega) he)
    generalize ha : total * m = a at *
    have ha0 : a ≠ 0 := by omega
    have hlog : 64 ≤ Nat.log2 a := (Nat.le_log2 ha0).2 (by omega)
    obtain ⟨sh, hsh⟩ : ∃ sh, Nat.log2 a + 1 - 64 = sh := ⟨_, rfl⟩
    have hlb : 2 ^ 63 * 2 ^ sh ≤ a := by
      have := Nat.log2_self_le ha0
      have e1 : Nat.log2 a = 63 + sh := by omega
      rwa [e1, Nat.pow_add] at this
    rw [hsh]
    have hdm := Nat.div_add_mod a (2 ^ sh)
    have hup : (if 2 ^ sh < 2 * (a % 2 ^ sh) ∨ 2 ^ sh = 2 * (a % 2 ^ sh) ∧ a / 2 ^ sh % 2 = 1 then a / 2 ^ sh + 1
        else a / 2 ^ sh) * 2 ^ sh ≤ a + 2 ^ sh := by
      split
      · rw [Nat.add_mul, Nat.mul_comm]; omega
      · rw [Nat.mul_comm]; omega
    refine Nat.lt_of_le_of_lt hup ?_
    generalize total * 2 ^ e = T at *
    generalize 2 ^ sh = S at *
    rcases Nat.lt_or_ge 53 e with he | he
    · have := h3 he; omega
    · have := h4 he; omega

/-- For every float64 below 1 and every list that is not empty, an element is returned: the one at the true rank, or
the next if the product of length and percentile needs more than 64 bits. -/
theorem C25_percentile_below_one (st : ListState) (m e radius : Nat) (h : ListOK st) (hm : m < 2 ^ e) (hm' : m < 2 ^ 53)
    (hlen : st.content.length < 2 ^ 63) (hne : st.content ≠ []) :
    ∃ r, Lists.getPercentile st m e radius = some (some r) ∧ Lists.ResultOK st.content radius r ∧
      (st.content[st.content.length * m / 2 ^ e]? = some r.elem ∨
        2 ^ 64 ≤ st.content.length * m ∧ st.content[st.content.length * m / 2 ^ e + 1]? = some r.elem) := by
  have hpos : 0 < st.content.length := List.length_pos_iff.2 hne
  have hcnt : Segments.count st.scores.segs = st.content.length := Segments.count_eq h.scoresCount
  obtain ⟨-, o2, o3, o4⟩ := C25_offset _ m e hlen (Nat.le_of_lt hm)
  have hlt := C25_offset_inside _ m e hlen hpos hm hm'
  obtain ⟨r, r1, r2, r3⟩ := Lists.getAtOffset_spec (radius := radius) h hlt
  refine ⟨r, ?_, r2, ?_⟩
  · unfold Lists.getPercentile
    rw [if_neg (by omega), hcnt, r1]
  · rcases Nat.lt_or_ge (st.content.length * m) (2 ^ 64) with hb | hb
    · left; rw [← o4 hb]; exact r3
    · rcases Nat.lt_or_eq_of_le o2 with hl | he
      · right; exact ⟨hb, by rw [show st.content.length * m / 2 ^ e + 1 = Lists.percentileOffset st.content.length m e by omega]; exact r3⟩
      · left; rw [he]; exact r3

/-- It panics for every percentile on every list without elements. -/
theorem C25_no_elements_panics (st : ListState) (m e radius : Nat) (h : ListOK st) (he : st.content = []) :
    Lists.getPercentile st m e radius = none := by
  obtain ⟨s, hs⟩ : ∃ s, st.scores.segs.getLast? = some s := by
    cases hl : st.scores.segs.getLast? with
    | none => exact absurd (List.getLast?_eq_none_iff.1 hl) (tiles_ne_nil h.scores.tiles)
    | some s => exact ⟨s, rfl⟩
  unfold Lists.getPercentile
  generalize Lists.percentileOffset _ _ _ = want
  rcases Lists.getAtOffset_end (radius := radius) h (want := want) (by rw [he]; exact Nat.zero_le _) hs with ⟨-, h2⟩ | ⟨r, -, -, h3⟩
  · exact h2
  · rw [he] at h3; cases h3

/-- The panic: a well-formed, non-empty list, reached by deleting the two lowest elements, and the
percentile 1. -/
theorem C25_percentile_panics : ∃ st, ListOK st ∧ st.content ≠ [] ∧ Lists.getPercentile st 1 0 0 = none :=
  ⟨Lists.deleteElements 9 .inOrder exList [7, 4], (C17_delete _ _ _ _ exList_ok (by decide)).1,
    by decide +kernel, by decide +kernel⟩

/-- It also panics for every percentile on an empty list. -/
theorem C25_percentile_empty_panics (now merge split m e radius : Nat) :
    Lists.getPercentile (Lists.initEmpty now merge split) m e radius = none := by
  have hcnt : Segments.count (Lists.initEmpty now merge split).scores.segs = 0 := rfl
  have ho : ∀ m e, Lists.percentileOffset 0 m e = 0 := by
    intro m e; unfold Lists.percentileOffset; simp
  unfold Lists.getPercentile
  rw [hcnt, ho]
  rfl

/-- Rounding: for 62571 elements and a percentile just below 1/62571 (a float64) the element at rank 1 is
returned instead of the one at rank 0. -/
theorem C25_rounding_differs : ∃ total m e, total < 2 ^ 31 ∧ m < 2 ^ 53 ∧ m ≤ 2 ^ e ∧
    total * m / 2 ^ e = 0 ∧ Lists.percentileOffset total m e = 1 :=
  ⟨62571, (2 ^ 66 - 1) / 62571, 66, by decide +kernel⟩

example : ListOK exList ∧ exList.content.length < 2 ^ 63 ∧ exList.content ≠ [] ∧
    (∀ s, exList.scores.segs.getLast? = some s → s.elems ≠ []) ∧
    ((Lists.getPercentile exList 3 2 1).map (·.map fun r => (r.elem.id, r.fromTop, r.fromBottom))) =
      some (some (8, 6, 2)) ∧
    ((Lists.getPercentile exList 1 0 1).map (·.map fun r => (r.elem.id, r.fromTop, r.fromBottom))) =
      some (some (4, 8, 0)) := by
  refine ⟨exList_ok, by decide +kernel, by decide +kernel, ?_, by decide +kernel⟩
  intro s hs
  have : s = exList.scores.segs.getLastD default := by rw [List.getLastD_eq_getLast?, hs]; rfl
  rw [this]; decide +kernel

/-! ### C26 GetElements -/

/-- Exactly one result for every requested ID in the list, with its element and true ranks, for every
schedule of the workers.
Partial: the documentation promises an order by rank, which the code does not give. -/
theorem C26_get_elements_partial (sch : Sched) (st : ListState) (ids : List Nat) (radius : Nat) (h : ListOK st)
    (hid : ∀ v ∈ ids, v < 2 ^ 64) :
    let res := Lists.getElements sch st ids radius
    (res.map (·.elem)).Perm (st.content.filter fun e => decide (e.id ∈ ids)) ∧
    ∀ r ∈ res, r.fromTop = rankFromTop st.content r.elem ∧ r.fromBottom = rankFromBottom st.content r.elem := by
  intro res
  obtain ⟨h1, h2, h3⟩ := Lists.getElements_spec (sch := sch) h hid radius
  refine ⟨?_, fun r hr => ⟨(h2 r hr).1.top, (h2 r hr).1.bottom⟩⟩
  refine (List.perm_ext_iff_of_nodup ?_ (h.scores.distinct.nodup.sublist List.filter_sublist)).2 ?_
  · refine nodup_of_map (·.id) ?_
    rw [List.map_map]; exact h1
  · intro e
    rw [List.mem_map, List.mem_filter, decide_eq_true_eq]
    constructor
    · rintro ⟨r, hr, rfl⟩
      exact ⟨(h2 r hr).1.mem, (h2 r hr).2⟩
    · rintro ⟨he, hi⟩
      exact h3 e he hi

/-- "The returned elements are sorted by rank" does not hold. -/
theorem C26_get_elements_unsorted : ∃ st ids sch, ListOK st ∧ (∀ v ∈ ids, v < 2 ^ 64) ∧
    ¬ Ranked ((Lists.getElements sch st ids 0).map (·.elem)) :=
  ⟨exList, [6, 4], .reversed, exList_ok, by decide, by decide +kernel⟩

/-- Not even if everything is processed in order: the order within a segment is that of the index. -/
theorem C26_get_elements_unsorted_in_order : ∃ st ids, ListOK st ∧ (∀ v ∈ ids, v < 2 ^ 64) ∧
    ¬ Ranked ((Lists.getElements .inOrder st ids 0).map (·.elem)) :=
  ⟨exList, [5, 9, 2], exList_ok, by decide, by decide +kernel⟩

example : ListOK exList ∧ ((Lists.getElements .inOrder exList [5, 6, 5, 1000] 0).map
    fun r => (r.elem.id, r.fromTop, r.fromBottom)) = [(6, 0, 8), (5, 5, 3)] := ⟨exList_ok, by decide +kernel⟩

/-! ### C27 Neighbours -/

/-- `Below` has the closest elements ranked below, closest first. `Above` has the closest elements ranked
above, closest first.
Partial: the documentation says that `Above` ends with the closest element. -/
theorem C27_neighbours_partial (sch : Sched) (st : ListState) (ids : List Nat) (radius : Nat) (h : ListOK st)
    (hid : ∀ v ∈ ids, v < 2 ^ 64) :
    ∀ r ∈ Lists.getElements sch st ids radius,
      r.below = (st.content.filter fun x => decide (RanksAbove r.elem x)).take radius ∧
      r.above = (st.content.filter fun x => decide (RanksAbove x r.elem)).reverse.take radius := by
  intro r hr
  obtain ⟨-, h2, -⟩ := Lists.getElements_spec (sch := sch) h hid radius
  exact ⟨(h2 r hr).1.below, (h2 r hr).1.above⟩

/-- "Ends with element just above current" does not hold. -/
theorem C27_above_order : ∃ st id, ListOK st ∧ ∃ r ∈ Lists.getElements .inOrder st [id] 2,
    r.above.getLast? ≠ (st.content.filter fun x => decide (RanksAbove x r.elem)).getLast? :=
  ⟨exList, 9, exList_ok, by decide +kernel⟩

example : ListOK exList ∧ ((Lists.getElements .inOrder exList [9] 3).map
    fun r => (r.elem.id, r.above.map (·.id), r.below.map (·.id))) = [(9, [2, 1, 3], [5, 8, 7])] :=
  ⟨exList_ok, by decide +kernel⟩

/-! ### C28 Len -/

theorem C28_len (st : ListState) (h : ListOK st) : Lists.len st = st.content.length :=
  Segments.count_eq h.scoresCount

/-- After every history the length is the number of elements of the map. -/
theorem C28_len_history (st : ListState) (m : ElementMap) (h : History st m) (l : List Element)
    (hl : DistinctIDs l) (hm : ∀ e, e ∈ l ↔ m e.id = some e) : Lists.len st = l.length := by
  obtain ⟨h1, -, h3, h4⟩ := C21_history st m h
  rw [C28_len st h1]
  exact ((List.perm_ext_iff_of_nodup h3.nodup hl.nodup).2 fun e => by rw [h4, hm]).length_eq

/-- Statistics: the number of elements, and the first and the last element with their ranks. -/
theorem C28_stats (st : ListState) (h : ListOK st) :
    (Lists.stats st).elements = st.content.length ∧
    (Lists.stats st).top.map (·.1) = st.content.head? ∧
    (Lists.stats st).bottom.map (·.1) = st.content.getLast? ∧
    (∀ x, (Lists.stats st).top = some x →
      x.2.1 = rankFromTop st.content x.1 ∧ x.2.2 = rankFromBottom st.content x.1) ∧
    (∀ x, (Lists.stats st).bottom = some x →
      x.2.1 = rankFromTop st.content x.1 ∧ x.2.2 = rankFromBottom st.content x.1) := by
  have hcnt : Segments.count st.scores.segs = st.content.length := Segments.count_eq h.scoresCount
  have hstrict := h.scores.strict
  unfold Lists.stats
  simp only []
  rw [hcnt, C22_rank_top st 0 1 h, C23_rank_bottom st 0 1 h]
  have hb : (st.content.drop (st.content.length - 1)).head? = st.content.getLast? := by
    rw [List.head?_drop, List.getLast?_eq_getElem?]
  by_cases hne : st.content = []
  · simp [hne]
  · have hpos : 0 < st.content.length := List.length_pos_iff.2 hne
    rw [if_pos hpos, if_pos hpos]
    simp only [Option.getD_some, List.drop_zero, List.head?_take, Nat.sub_zero, hb]
    refine ⟨trivial, by simp [Function.comp_def], by simp [Function.comp_def], ?_, ?_⟩
    · intro x hx
      simp only [Nat.one_ne_zero, if_false, Option.map_eq_some_iff] at hx
      obtain ⟨e, he, rfl⟩ := hx
      rw [List.head?_eq_getElem?] at he
      obtain ⟨t1, t2⟩ := Segments.countP_pos_of_strict hstrict he
      unfold ListState.content at *
      dsimp only
      rw [t1, t2]; omega
    · intro x hx
      simp only [Nat.one_ne_zero, if_false, Option.map_eq_some_iff] at hx
      obtain ⟨e, he, rfl⟩ := hx
      rw [List.getLast?_eq_getElem?] at he
      obtain ⟨t1, t2⟩ := Segments.countP_pos_of_strict hstrict he
      unfold ListState.content at *
      dsimp only
      rw [t1, t2]; omega

example : ListOK exList ∧ (Lists.stats exList).elements = 9 ∧
    (Lists.stats exList).bottom.map (fun x => (x.1.id, x.2.1, x.2.2)) = some (4, 8, 0) :=
  ⟨exList_ok, by decide +kernel⟩

example : ListOK exList ∧ Lists.len exList = 9 := ⟨exList_ok, by decide +kernel⟩

end RankDB.Props

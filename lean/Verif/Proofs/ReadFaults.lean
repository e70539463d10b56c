import Verif.Model.ReadFaults
import Verif.Proofs.Query
import Verif.Proofs.FromScore
/-
Lemmas about the runs of queries when reads fail.
-/
namespace RankDB.ReadFaults

open Segments Spec Lists

theorem runs_run {fails : Nat → Place → Bool} {elems : Place → List Element} : ∀ (m : Reading α) (k : Nat),
    Runs elems m (run fails elems k m).1 (run fails elems k m).2
  | .done r, k => .done r
  | .load p next, k => by
    unfold run
    split
    · exact .fail (runs_run (next none) (k + 1))
    · exact .ok (runs_run (next (some (elems p))) (k + 1))

theorem runs_bind {elems : Place → List Element} {m : Reading α} {f : α → Reading β} : ∀ {t r}, Runs elems (m.bind f) t r →
    ∃ t₁ t₂ a, t = t₁ ++ t₂ ∧ Runs elems m t₁ a ∧ Runs elems (f a) t₂ r := by
  induction m with
  | done a => intro t r h; exact ⟨[], t, a, rfl, .done a, h⟩
  | load p next ih =>
    intro t r h
    simp only [Reading.bind] at h
    cases h with
    | ok h =>
      obtain ⟨t₁, t₂, a, rfl, h1, h2⟩ := ih _ h
      exact ⟨(p, true) :: t₁, t₂, a, rfl, .ok h1, h2⟩
    | fail h =>
      obtain ⟨t₁, t₂, a, rfl, h1, h2⟩ := ih _ h
      exact ⟨(p, false) :: t₁, t₂, a, rfl, .fail h1, h2⟩

theorem runs_done {elems : Place → List Element} {a r : α} {t} (h : Runs elems (.done a) t r) : t = [] ∧ r = a := by
  cases h; exact ⟨rfl, rfl⟩

/-- No read failed. -/
def Fine (t : List (Place × Bool)) : Prop := ∀ x ∈ t, x.2 = true

theorem fine_nil : Fine [] := nofun

theorem fine_cons {p : Place} {b : Bool} {t} : Fine ((p, b) :: t) ↔ b = true ∧ Fine t := by
  unfold Fine
  rw [List.forall_mem_cons]

theorem fine_append {t u : List (Place × Bool)} : Fine (t ++ u) ↔ Fine t ∧ Fine u := by
  unfold Fine
  rw [List.forall_mem_append]

/-- What `getElementsOffset` gives, which segments it reads, and how many. -/
theorem readOffset_runs {elems : Place → List Element} {segs : List Seg} (hst : ∀ j, elems (false, j) = elemsAt segs j) :
    ∀ (left i first n : Nat), left = segs.length - i → ∀ {t r}, Runs elems (readOffset left i first n) t r →
    ((r = .failed ∧ ¬ Fine t) ∨ (r = .given (getElementsOffset (segs.drop i) first n) ∧ Fine t)) ∧
    (first = 0 ∨ first < (elemsAt segs i).length → ∀ x ∈ t, ∃ j, x.1 = (false, j) ∧ j < segs.length ∧
      (elemsAt segs j = [] ∨ ∃ e ∈ elemsAt segs j, e ∈ getElementsOffset (segs.drop i) first n)) ∧
    (first = 0 ∨ first < (elemsAt segs i).length → ∀ m, (∀ s ∈ segs, m ≤ s.elems.length) →
      (t.length - 2) * m ≤ n ∧ (first = 0 → (t.length - 1) * m ≤ n))
  | 0, i, first, n, hl, t, r, h => by
    obtain ⟨rfl, rfl⟩ := runs_done h
    rw [List.drop_of_length_le (by omega)]
    exact ⟨.inr ⟨rfl, fine_nil⟩, fun _ x hx => (List.not_mem_nil hx).elim, fun _ m _ => by simp⟩
  | left + 1, i, first, n, hl, t, r, h => by
    have hi : i < segs.length := by omega
    have hdrop : segs.drop i = segs[i] :: segs.drop (i + 1) := List.drop_eq_getElem_cons hi
    have hat : elemsAt segs i = segs[i].elems := by
      unfold elemsAt
      rw [List.getElem?_eq_getElem hi]; rfl
    have hmem : segs[i] ∈ segs := List.getElem_mem hi
    unfold readOffset at h
    rw [hdrop]
    unfold getElementsOffset
    by_cases hn : n = 0
    · rw [if_pos hn] at h
      obtain ⟨rfl, rfl⟩ := runs_done h
      rw [if_pos hn]
      exact ⟨.inr ⟨rfl, fine_nil⟩, fun _ x hx => (List.not_mem_nil hx).elim, fun _ m _ => by simp⟩
    rw [if_neg hn] at h
    rw [if_neg hn]
    cases h with
    | fail h =>
      obtain ⟨rfl, rfl⟩ := runs_done h
      refine ⟨.inl ⟨rfl, fun hf => absurd (fine_cons.1 hf).1 (by decide)⟩, fun hfirst x hx => ?_, fun _ m _ => by simp⟩
      rw [List.mem_singleton.1 hx]
      refine ⟨i, rfl, hi, ?_⟩
      rcases Nat.lt_or_ge first segs[i].elems.length with hlt | hge
      · refine .inr ?_
        rw [if_neg (by omega), hat]
        refine ⟨segs[i].elems[first], List.getElem_mem hlt, ?_⟩
        have hd : segs[i].elems.drop first = segs[i].elems[first] :: segs[i].elems.drop (first + 1) := List.drop_eq_getElem_cons hlt
        split
        · rw [hd]
          obtain ⟨n, rfl⟩ : ∃ m, n = m + 1 := ⟨n - 1, by omega⟩
          rw [List.take_succ_cons]
          exact List.mem_cons_self
        · rw [hd]
          exact List.mem_append_left _ List.mem_cons_self
      · rcases hfirst with rfl | hlt
        · exact .inl (by rw [hat]; exact List.eq_nil_of_length_eq_zero (by omega))
        · rw [hat] at hlt; omega
    | ok h =>
      dsimp only at h
      rw [hst, hat] at h
      by_cases hge : first ≥ segs[i].elems.length
      · rw [if_pos hge] at h
        rw [if_pos hge]
        obtain ⟨h1, h2, h3⟩ := readOffset_runs hst left (i + 1) (first - segs[i].elems.length) n (by omega) h
        have h0 : first = 0 ∨ first < (elemsAt segs i).length → first = 0 := by
          rintro (h0 | hlt)
          · exact h0
          · rw [hat] at hlt; omega
        refine ⟨?_, fun hfirst x hx => ?_, fun hfirst m hm => ?_⟩
        · rcases h1 with ⟨h1, h4⟩ | ⟨h1, h4⟩
          · exact .inl ⟨h1, fun hf => h4 (fine_cons.1 hf).2⟩
          · exact .inr ⟨h1, fine_cons.2 ⟨rfl, h4⟩⟩
        · have h0 := h0 hfirst
          subst h0
          rcases List.mem_cons.1 hx with rfl | hx
          · exact ⟨i, rfl, hi, .inl (by rw [hat]; exact List.eq_nil_of_length_eq_zero (by omega))⟩
          · exact h2 (.inl (by omega)) x hx
        · have hmi := hm _ hmem
          have h0 := h0 hfirst
          subst h0
          have : m = 0 := by omega
          subst this
          simp
      · rw [if_neg hge] at h
        rw [if_neg hge]
        have hlt : first < segs[i].elems.length := by omega
        have hd : segs[i].elems.drop first = segs[i].elems[first] :: segs[i].elems.drop (first + 1) := List.drop_eq_getElem_cons hlt
        have hown : elemsAt segs i = [] ∨ ∃ e ∈ elemsAt segs i, e ∈
            if (segs[i].elems.drop first).length > n then (segs[i].elems.drop first).take n
            else segs[i].elems.drop first ++ getElementsOffset (segs.drop (i + 1)) 0 (n - (segs[i].elems.drop first).length) := by
          refine .inr ?_
          rw [hat]
          refine ⟨segs[i].elems[first], List.getElem_mem hlt, ?_⟩
          split
          · rw [hd]
            obtain ⟨n, rfl⟩ : ∃ m, n = m + 1 := ⟨n - 1, by omega⟩
            rw [List.take_succ_cons]
            exact List.mem_cons_self
          · rw [hd]
            exact List.mem_append_left _ List.mem_cons_self
        by_cases hgt : (segs[i].elems.drop first).length > n
        · rw [if_pos hgt] at h
          rw [if_pos hgt] at hown ⊢
          obtain ⟨rfl, rfl⟩ := runs_done h
          refine ⟨.inr ⟨rfl, fine_cons.2 ⟨rfl, fine_nil⟩⟩, fun _ x hx => ?_, fun _ m _ => by simp⟩
          rw [List.mem_singleton.1 hx]
          exact ⟨i, rfl, hi, hown⟩
        · rw [if_neg hgt] at h
          rw [if_neg hgt] at hown ⊢
          obtain ⟨t₁, t₂, a, rfl, h1, h2⟩ := runs_bind h
          obtain ⟨h3, h4, h5⟩ := readOffset_runs hst left (i + 1) 0 (n - (segs[i].elems.drop first).length) (by omega) h1
          have ht₂ : t₂ = [] := by
            revert h2
            cases a <;> exact fun h2 => (runs_done h2).1
          subst ht₂
          rw [List.append_nil]
          refine ⟨?_, fun _ x hx => ?_, fun _ m hm => ?_⟩
          · rcases h3 with ⟨rfl, h6⟩ | ⟨rfl, h6⟩
            · exact .inl ⟨(runs_done h2).2, fun hf => h6 (fine_cons.1 hf).2⟩
            · exact .inr ⟨(runs_done h2).2, fine_cons.2 ⟨rfl, h6⟩⟩
          · rcases List.mem_cons.1 hx with rfl | hx
            · exact ⟨i, rfl, hi, hown⟩
            · obtain ⟨j, j1, j2, j3⟩ := h4 (.inl rfl) x hx
              refine ⟨j, j1, j2, j3.imp id ?_⟩
              rintro ⟨e, e1, e2⟩
              exact ⟨e, e1, List.mem_append_right _ e2⟩
          · obtain ⟨-, h6⟩ := h5 (.inl rfl) m hm
            have h6 := h6 rfl
            have hmi := hm _ hmem
            rw [List.length_cons]
            rw [List.length_drop] at h6 hgt
            constructor
            · rw [Nat.add_sub_add_right _ 1 1]
              exact Nat.le_trans h6 (Nat.sub_le _ _)
            · intro h0
              subst h0
              rw [Nat.add_sub_cancel]
              cases hl : t₁.length with
              | zero => simp
              | succ k =>
                rw [hl, Nat.add_sub_cancel] at h6
                rw [Nat.succ_mul]
                omega

theorem segIdxTop_inside : ∀ {segs : List Seg} {k off i o : Nat}, Counted segs → segIdxTop segs k off = some (k + i, o) →
    o < (elemsAt segs i).length
  | [], _, _, _, _, _, h => nomatch h
  | s :: ss, k, off, i, o, hc, h => by
    unfold segIdxTop at h
    split at h
    · obtain ⟨h1, rfl⟩ := Prod.mk.inj (Option.some.inj h)
      obtain rfl : i = 0 := by omega
      have := hc s List.mem_cons_self
      show off < s.elems.length
      omega
    · cases i with
      | zero =>
        exfalso
        have : ∀ (segs : List Seg) (k' off : Nat), k < k' → segIdxTop segs k' off ≠ some (k, o) := by
          intro segs
          induction segs with
          | nil => intro _ _ _ h; nomatch h
          | cons t ts ih =>
            intro k' off hk h
            unfold segIdxTop at h
            split at h
            · have := (Prod.mk.inj (Option.some.inj h)).1; omega
            · exact ih _ _ (by omega) h
        exact this _ _ _ (by omega) h
      | succ i =>
        exact segIdxTop_inside (segs := ss) (k := k + 1) (fun t ht => hc t (List.mem_cons_of_mem _ ht))
          (by rw [h]; congr 2; omega)

theorem segIdxBottom_inside {segs : List Seg} {off i o : Nat} (hc : Counted segs) (h : segIdxBottom segs off = some (i, o)) :
    o < (elemsAt segs i).length := by
  have key : ∀ {ss : List Seg} {off i o : Nat}, Counted ss → segIdxBottomLoop ss (ss.length - 1) off = some (i, o) →
      ∃ s, ss.reverse[i]? = some s ∧ o < s.elems.length := by
    intro ss
    induction ss with
    | nil => intro _ _ _ _ h; nomatch h
    | cons s ss ih =>
      intro off i o hc h
      unfold segIdxBottomLoop at h
      split at h
      · obtain ⟨h1, h2⟩ := Prod.mk.inj (Option.some.inj h)
        rw [List.length_cons, Nat.add_sub_cancel] at h1
        have := hc s List.mem_cons_self
        refine ⟨s, ?_, by omega⟩
        rw [List.reverse_cons, ← h1, List.getElem?_append_right (by simp)]
        simp
      · rw [List.length_cons, Nat.add_sub_cancel] at h
        obtain ⟨t, t1, t2⟩ := ih (fun t ht => hc t (List.mem_cons_of_mem _ ht)) h
        refine ⟨t, ?_, t2⟩
        rw [List.reverse_cons, List.getElem?_append_left (List.getElem?_eq_some_iff.1 t1).1]
        exact t1
  unfold segIdxBottom at h
  rw [← List.length_reverse] at h
  obtain ⟨s, h1, h2⟩ := key (ss := segs.reverse) (fun s hs => hc s (by simpa using hs)) h
  rw [List.reverse_reverse] at h1
  unfold elemsAt
  rw [h1]
  exact h2

/-- What is found on one side: a prefix, all if no read failed, and how many segments are read. -/
theorem near_runs {elems : Place → List Element} {up : Bool} : ∀ {rest : List Nat} {radius : Nat} {cur : List Element} {t r},
    Runs elems (near up rest radius cur) t r →
    let all := (cur ++ (rest.map fun i => if up then (elems (false, i)).reverse else elems (false, i)).flatten).take radius
    r <+: all ∧ (Fine t → r = all) ∧ (∀ x ∈ t, ∃ i ∈ rest, x.1 = (false, i)) ∧
    (∀ m, (∀ i ∈ rest, m ≤ (elems (false, i)).length) → t ≠ [] → cur.length + (t.length - 1) * m ≤ radius)
  | [], radius, cur, t, r, h => by
    obtain ⟨rfl, rfl⟩ := runs_done h
    simp
  | i :: rest, radius, cur, t, r, h => by
    unfold near at h
    intro all
    by_cases hle : radius ≤ cur.length
    · rw [if_pos hle] at h
      obtain ⟨rfl, rfl⟩ := runs_done h
      have hall : all = cur.take radius := by
        show (cur ++ _).take radius = _
        rw [List.take_append, Nat.sub_eq_zero_of_le hle, List.take_zero, List.append_nil]
      rw [hall]
      exact ⟨List.prefix_refl _, fun _ => rfl, fun x hx => (List.not_mem_nil hx).elim, fun m _ h => absurd rfl h⟩
    rw [if_neg hle] at h
    have hall : all = cur ++ (((if up then (elems (false, i)).reverse else elems (false, i)) ++
        (rest.map fun i => if up then (elems (false, i)).reverse else elems (false, i)).flatten).take (radius - cur.length)) := by
      show (cur ++ _).take radius = _
      rw [List.take_append, List.take_of_length_le (by omega), List.map_cons, List.flatten_cons]
    cases h with
    | fail h =>
      obtain ⟨rfl, rfl⟩ := runs_done h
      rw [hall]
      refine ⟨List.prefix_append _ _, fun hf => absurd (fine_cons.1 hf).1 (by decide), fun x hx => ?_, fun m _ _ => ?_⟩
      · rw [List.mem_singleton.1 hx]
        exact ⟨i, List.mem_cons_self, rfl⟩
      · simp; omega
    | ok h =>
      obtain ⟨t₁, t₂, a, rfl, h1, h2⟩ := runs_bind h
      obtain ⟨rfl, rfl⟩ := runs_done h2
      obtain ⟨h3, h4, h5, h6⟩ := near_runs h1
      rw [hall, List.append_nil]
      refine ⟨(List.prefix_append_right_inj cur).2 h3, fun hf => by rw [h4 (fine_cons.1 hf).2], fun x hx => ?_,
        fun m hm _ => ?_⟩
      · rcases List.mem_cons.1 hx with rfl | hx
        · exact ⟨i, List.mem_cons_self, rfl⟩
        · obtain ⟨j, hj, e⟩ := h5 x hx
          exact ⟨j, List.mem_cons_of_mem _ hj, e⟩
      · rw [List.length_cons, Nat.add_sub_cancel]
        have hmi := hm i List.mem_cons_self
        have hlen : (if up then (elems (false, i)).reverse else elems (false, i)).length = (elems (false, i)).length := by
          split <;> simp
        cases hl : t₁ with
        | nil => simp; omega
        | cons x t =>
          have h7 := h6 m (fun j hj => hm j (List.mem_cons_of_mem _ hj)) (by rw [hl]; nofun)
          rw [hlen, hl, List.length_cons, Nat.add_sub_cancel] at h7
          rw [List.length_cons, Nat.succ_mul]
          omega

theorem near_zero {elems : Place → List Element} {up : Bool} {rest : List Nat} {cur : List Element} {t r}
    (h : Runs elems (near up rest 0 cur) t r) : t = [] := by
  cases rest with
  | nil => exact (runs_done h).1
  | cons i rest =>
    unfold near at h
    rw [if_pos (Nat.zero_le _)] at h
    exact (runs_done h).1

/-- The same result, with some of the neighbours left out at the far ends. -/
structure Cut (r full : Ranked) : Prop where
  elem : r.elem = full.elem
  top : r.fromTop = full.fromTop
  bottom : r.fromBottom = full.fromBottom
  before : r.before = full.before
  below : r.below <+: full.below
  above : r.above <+: full.above

theorem upFrom_elems (segs : List Seg) : ∀ (k i : Nat), k = segs.length - i →
    (upFrom i k).map (elemsAt segs) = (segs.drop i).map (·.elems)
  | 0, i, h => by rw [List.drop_of_length_le (by omega)]; rfl
  | k + 1, i, h => by
    have hi : i < segs.length := by omega
    rw [List.drop_eq_getElem_cons hi, List.map_cons, ← upFrom_elems segs k (i + 1) (by omega)]
    show elemsAt segs i :: _ = _
    unfold elemsAt
    rw [List.getElem?_eq_getElem hi]
    rfl

theorem downFrom_elems (segs : List Seg) : ∀ (i : Nat), i ≤ segs.length →
    (downFrom i).map (fun j => (elemsAt segs j).reverse) = (segs.take i).reverse.map (·.elems.reverse)
  | 0, _ => rfl
  | i + 1, h => by
    have hi : i < segs.length := by omega
    rw [List.take_succ_eq_append_getElem hi, List.reverse_append, List.map_append, ← downFrom_elems segs i (by omega)]
    show (elemsAt segs i).reverse :: _ = _
    unfold elemsAt
    rw [List.getElem?_eq_getElem hi]
    rfl

theorem mem_upFrom {j : Nat} : ∀ {k i : Nat}, j ∈ upFrom i k → i ≤ j ∧ j < i + k
  | 0, _, h => nomatch h
  | k + 1, i, h => by
    rcases List.mem_cons.1 h with rfl | h
    · omega
    · have := mem_upFrom h; omega

theorem mem_downFrom {j : Nat} : ∀ {i : Nat}, j ∈ downFrom i → j < i
  | 0, h => nomatch h
  | i + 1, h => by
    rcases List.mem_cons.1 h with rfl | h
    · omega
    · have := mem_downFrom h; omega

/-- `findRanked` finds what it finds without failures, up to neighbours, and reads at most the segments that are needed
for the neighbours. -/
theorem findRanked_runs {elems : Place → List Element} {segs : List Seg} (hst : ∀ j, elems (false, j) = elemsAt segs j)
    {i id offset radius : Nat} (hi : i < segs.length) {t x}
    (h : Runs elems (findRanked segs.length i (elemsAt segs i) id offset radius) t x) :
    ((x = none ∧ Segments.findRanked segs i id offset radius = none ∧ t = []) ∨
      ∃ r full, x = some r ∧ Segments.findRanked segs i id offset radius = some full ∧ Cut r full ∧ (Fine t → r = full)) ∧
    (∀ y ∈ t, ∃ j, y.1 = (false, j) ∧ j < segs.length) ∧
    (∀ m, (∀ s ∈ segs, m ≤ s.elems.length) → (t.length - 2) * m ≤ 2 * radius) ∧ (radius = 0 → t = []) := by
  have hs : segs[i]? = some segs[i] := List.getElem?_eq_getElem hi
  have hat : elemsAt segs i = segs[i].elems := by unfold elemsAt; rw [hs]; rfl
  unfold Segments.findRanked
  rw [hs]
  unfold findRanked at h
  rw [hat] at h
  cases hf : Elements.findIdx segs[i].elems id with
  | none =>
    rw [hf] at h
    obtain ⟨rfl, rfl⟩ := runs_done h
    exact ⟨.inl ⟨rfl, by simp only [hf], rfl⟩, fun y hy => (List.not_mem_nil hy).elim, fun m _ => by simp, fun _ => rfl⟩
  | some eidx =>
    rw [hf] at h
    dsimp only at h
    obtain ⟨t₁, t₂, below, rfl, h1, h⟩ := runs_bind h
    obtain ⟨t₂, t₃, above, rfl, h2, h⟩ := runs_bind h
    obtain ⟨rfl, rfl⟩ := runs_done h
    obtain ⟨b1, b2, b3, b4⟩ := near_runs h1
    obtain ⟨a1, a2, a3, a4⟩ := near_runs h2
    simp only [hst, if_true, Bool.false_eq_true, if_false] at b1 b2 a1 a2
    have hb : (upFrom (i + 1) (segs.length - (i + 1))).map (fun j => elemsAt segs j) = (segs.drop (i + 1)).map (·.elems) :=
      upFrom_elems segs _ _ rfl
    rw [hb] at b1 b2
    rw [downFrom_elems segs i (by omega)] at a1 a2
    rw [List.append_nil, List.length_append]
    refine ⟨.inr ⟨_, _, rfl, by simp only [hf]; rfl, ?_, ?_⟩, ?_, ?_, ?_⟩
    · refine ⟨rfl, rfl, rfl, rfl, ?_, ?_⟩
      · dsimp only; rw [collect_eq]; exact b1
      · dsimp only; rw [collect_eq]; exact a1
    · intro hfine
      obtain ⟨f1, f2⟩ := fine_append.1 hfine
      rw [collect_eq, collect_eq, ← b2 f1, ← a2 f2]
    · intro y hy
      rcases List.mem_append.1 hy with hy | hy
      · obtain ⟨j, j1, j2⟩ := b3 y hy
        exact ⟨j, j2, by have := mem_upFrom j1; omega⟩
      · obtain ⟨j, j1, j2⟩ := a3 y hy
        exact ⟨j, j2, by have := mem_downFrom j1; omega⟩
    · intro m hm
      have hlen : ∀ j, j < segs.length → m ≤ (elems (false, j)).length := by
        intro j hj
        rw [hst]
        unfold elemsAt
        rw [List.getElem?_eq_getElem hj]
        exact hm _ (List.getElem_mem hj)
      have hB : (t₁.length - 1) * m ≤ radius := by
        by_cases h0 : t₁ = []
        · simp [h0]
        · have := b4 m (fun j hj => hlen j (by have := mem_upFrom hj; omega)) h0; omega
      have hA : (t₂.length - 1) * m ≤ radius := by
        by_cases h0 : t₂ = []
        · simp [h0]
        · have := a4 m (fun j hj => hlen j (by have := mem_downFrom hj; omega)) h0; omega
      refine Nat.le_trans (Nat.mul_le_mul_right m (show t₁.length + t₂.length - 2 ≤ (t₁.length - 1) + (t₂.length - 1) by omega)) ?_
      rw [Nat.add_mul]
      omega
    · intro h0
      subst h0
      rw [near_zero h1, near_zero h2]
      rfl

/-- What goroutines send that either get an error because a read failed, or send `full` up to parts that `strip` takes
away. -/
def Sends (full : List γ) (strip : γ → δ) (C : γ → γ → Prop) (t : List (Place × Bool)) (x : Option (List γ)) : Prop :=
  (x = none ∧ ¬ Fine t) ∨
  ∃ rs, x = some rs ∧ rs.map strip = full.map strip ∧ (∀ r ∈ rs, ∃ y ∈ full, C r y) ∧ (Fine t → rs = full)

theorem fan_runs {elems : Place → List Element} {f : β → Reading (Option (List γ))} {full : β → List γ} {strip : γ → δ}
    {C : γ → γ → Prop} {Q : β → Place → Prop} {c : Nat} :
    ∀ {ws : List β}, (∀ w ∈ ws, ∀ t x, Runs elems (f w) t x → Sends (full w) strip C t x ∧ (∀ y ∈ t, Q w y.1)) → ∀ {t x},
      Runs elems (fan f ws) t x → Sends (ws.flatMap full) strip C t x ∧ (∀ y ∈ t, ∃ w ∈ ws, Q w y.1) ∧
      ((∀ w ∈ ws, ∀ t x, Runs elems (f w) t x → t.length ≤ c) → t.length ≤ ws.length * c)
  | [], _, t, x, h => by
    obtain ⟨rfl, rfl⟩ := runs_done h
    refine ⟨.inr ⟨[], rfl, rfl, fun r hr => (List.not_mem_nil hr).elim, fun _ => rfl⟩, fun y hy => (List.not_mem_nil hy).elim, ?_⟩
    simp
  | w :: ws, hw, t, x, h => by
    unfold fan at h
    obtain ⟨t₁, t₂, a, rfl, h1, h⟩ := runs_bind h
    obtain ⟨t₂, t₃, b, rfl, h2, h⟩ := runs_bind h
    obtain ⟨rfl, rfl⟩ := runs_done h
    obtain ⟨s1, s2⟩ := hw w List.mem_cons_self t₁ a h1
    obtain ⟨r1, r2, r3⟩ := fan_runs (c := c) (fun w' hw' => hw w' (List.mem_cons_of_mem _ hw')) h2
    rw [List.append_nil]
    refine ⟨?_, fun y hy => ?_, fun hc => ?_⟩
    · rcases s1 with ⟨rfl, n1⟩ | ⟨ra, rfl, a1, a2, a3⟩
      · exact .inl ⟨rfl, fun hf => n1 (fine_append.1 hf).1⟩
      · rcases r1 with ⟨rfl, n1⟩ | ⟨rb, rfl, b1, b2, b3⟩
        · exact .inl ⟨rfl, fun hf => n1 (fine_append.1 hf).2⟩
        · refine .inr ⟨ra ++ rb, rfl, ?_, fun r hr => ?_, fun hf => ?_⟩
          · rw [List.flatMap_cons, List.map_append, List.map_append, a1, b1]
          · rw [List.flatMap_cons]
            rcases List.mem_append.1 hr with hr | hr
            · obtain ⟨y, y1, y2⟩ := a2 r hr
              exact ⟨y, List.mem_append_left _ y1, y2⟩
            · obtain ⟨y, y1, y2⟩ := b2 r hr
              exact ⟨y, List.mem_append_right _ y1, y2⟩
          · rw [List.flatMap_cons, a3 (fine_append.1 hf).1, b3 (fine_append.1 hf).2]
    · rcases List.mem_append.1 hy with hy | hy
      · exact ⟨w, List.mem_cons_self, s2 y hy⟩
      · obtain ⟨w', w1, w2⟩ := r2 y hy
        exact ⟨w', List.mem_cons_of_mem _ w1, w2⟩
    · have h3 := hc w List.mem_cons_self t₁ a h1
      have h4 := r3 fun w' hw' => hc w' (List.mem_cons_of_mem _ hw')
      rw [List.length_append, List.length_cons, Nat.succ_mul]
      omega

/-- One goroutine that looks into the index. -/
theorem firstIn_runs {elems : Place → List Element} {segs : List Seg} (hst : ∀ j, elems (true, j) = elemsAt segs j)
    {m : Nat × List Nat} {t x} (h : Runs elems (firstIn m) t x) :
    Sends (Elements.firstWithScore (elemsAt segs m.1) m.2) id Eq t x ∧ (∀ y ∈ t, y.1 = (true, m.1)) ∧ t.length ≤ 1 := by
  unfold firstIn at h
  cases h with
  | fail h =>
    obtain ⟨rfl, rfl⟩ := runs_done h
    exact ⟨.inl ⟨rfl, fun hf => absurd (fine_cons.1 hf).1 (by decide)⟩, by simp, by simp⟩
  | ok h =>
    dsimp only at h
    obtain ⟨rfl, rfl⟩ := runs_done h
    rw [hst]
    exact ⟨.inr ⟨_, rfl, rfl, fun r hr => ⟨r, hr, rfl⟩, fun _ => rfl⟩, by simp, by simp⟩

/-- A result without neighbours. -/
def bare (r : Ranked) : Element × Nat × Nat := (r.elem, r.fromTop, r.fromBottom)

theorem cut_total {r full : Ranked} (h : Cut r full) (total : Nat) :
    Cut (calculateFromBottom total r) (calculateFromBottom total full) := by
  refine ⟨h.elem, h.top, ?_, h.before, h.below, h.above⟩
  show total - r.fromTop - 1 = total - full.fromTop - 1
  rw [h.top]

theorem cut_bare {r full : Ranked} (h : Cut r full) : bare r = bare full := by
  unfold bare
  rw [h.elem, h.top, h.bottom]

theorem findEach_runs {elems : Place → List Element} {segs : List Seg} (hst : ∀ j, elems (false, j) = elemsAt segs j)
    {total i offset radius : Nat} (hi : i < segs.length) : ∀ {ids : List Nat} {t rs},
    Runs elems (findEach segs.length total i (elemsAt segs i) offset radius ids) t rs →
    let full := ids.filterMap fun id => (Segments.findRanked segs i id offset radius).map (calculateFromBottom total)
    rs.map bare = full.map bare ∧ (∀ r ∈ rs, ∃ y ∈ full, Cut r y) ∧ (Fine t → rs = full) ∧
    (∀ y ∈ t, ∃ j, y.1 = (false, j) ∧ j < segs.length) ∧ (radius = 0 → t = [])
  | [], t, rs, h => by
    obtain ⟨rfl, rfl⟩ := runs_done h
    exact ⟨rfl, fun r hr => (List.not_mem_nil hr).elim, fun _ => rfl, fun y hy => (List.not_mem_nil hy).elim, fun _ => rfl⟩
  | id :: ids, t, rs, h => by
    unfold findEach at h
    obtain ⟨t₁, t₂, a, rfl, h1, h⟩ := runs_bind h
    obtain ⟨t₂, t₃, b, rfl, h2, h⟩ := runs_bind h
    obtain ⟨rfl, rfl⟩ := runs_done h
    obtain ⟨f1, f2, -, f4⟩ := findRanked_runs hst hi h1
    obtain ⟨r1, r2, r3, r4, r5⟩ := findEach_runs hst hi h2
    rw [List.append_nil]
    have hreads : (∀ y ∈ t₁ ++ t₂, ∃ j, y.1 = (false, j) ∧ j < segs.length) ∧ (radius = 0 → t₁ ++ t₂ = []) := by
      refine ⟨fun y hy => ?_, fun h0 => by rw [f4 h0, r5 h0]; rfl⟩
      rcases List.mem_append.1 hy with hy | hy
      · exact f2 y hy
      · exact r4 y hy
    rcases f1 with ⟨rfl, g1, -⟩ | ⟨r, full, rfl, g1, g2, g3⟩
    · rw [List.filterMap_cons, g1]
      exact ⟨r1, r2, fun hf => r3 (fine_append.1 hf).2, hreads⟩
    · rw [List.filterMap_cons, g1]
      refine ⟨?_, fun x hx => ?_, fun hf => ?_, hreads⟩
      · dsimp only [Option.map_some]
        rw [List.map_cons, List.map_cons, r1, cut_bare (cut_total g2 total)]
      · rcases List.mem_cons.1 hx with rfl | hx
        · exact ⟨_, List.mem_cons_self, cut_total g2 total⟩
        · obtain ⟨y, y1, y2⟩ := r2 x hx
          exact ⟨y, List.mem_cons_of_mem _ y1, y2⟩
      · dsimp only [Option.map_some]
        rw [g3 (fine_append.1 hf).1, ← r3 (fine_append.1 hf).2]

/-- One goroutine that looks up elements. -/
theorem findIn_runs {elems : Place → List Element} {segs : List Seg} (hst : ∀ j, elems (false, j) = elemsAt segs j)
    {idx : List Element} {radius i : Nat} (hi : i < segs.length) {t x} (h : Runs elems (findIn segs idx radius i) t x) :
    Sends (Segments.findIn segs radius i (idsAt segs idx i)) bare Cut t x ∧
    (∀ y ∈ t, ∃ j, y.1 = (false, j) ∧ j < segs.length ∧ (radius = 0 → j = i)) ∧ (radius = 0 → t.length ≤ 1) := by
  unfold findIn at h
  cases h with
  | fail h =>
    obtain ⟨rfl, rfl⟩ := runs_done h
    refine ⟨.inl ⟨rfl, fun hf => absurd (fine_cons.1 hf).1 (by decide)⟩, fun y hy => ?_, by simp⟩
    rw [List.mem_singleton.1 hy]
    exact ⟨i, rfl, hi, fun _ => rfl⟩
  | ok h =>
    dsimp only at h
    rw [hst] at h
    obtain ⟨t₁, t₂, a, rfl, h1, h⟩ := runs_bind h
    obtain ⟨rfl, rfl⟩ := runs_done h
    obtain ⟨r1, r2, r3, r4, r5⟩ := findEach_runs hst hi h1
    rw [List.append_nil]
    refine ⟨.inr ⟨a, rfl, r1, r2, fun hf => r3 (fine_cons.1 hf).2⟩, fun y hy => ?_, fun h0 => by rw [r5 h0]; simp⟩
    rcases List.mem_cons.1 hy with rfl | hy
    · exact ⟨i, rfl, hi, fun _ => rfl⟩
    · obtain ⟨j, j1, j2⟩ := r4 y hy
      exact ⟨j, j1, j2, fun h0 => by rw [r5 h0] at hy; exact (List.not_mem_nil hy).elim⟩

theorem stored_scores (st : ListState) (j : Nat) : stored st (false, j) = elemsAt st.scores.segs j := rfl

theorem stored_index (st : ListState) (j : Nat) : stored st (true, j) = elemsAt st.index.segs j := rfl

theorem findElements_inOrder (segs : List Seg) (E : List Element) (radius : Nat) :
    ((List.range segs.length).filter fun i => !(idsAt segs E i).isEmpty).flatMap
      (fun i => Segments.findIn segs radius i (idsAt segs E i)) = Segments.findElements .inOrder segs E radius := by
  unfold Segments.findElements
  show _ = (List.filterMap _ _).flatten
  generalize List.range segs.length = l
  induction l with
  | nil => rfl
  | cons i l ih =>
    rw [List.filter_cons, List.filterMap_cons]
    by_cases hem : (idsAt segs E i).isEmpty
    · rw [hem]
      exact ih
    · rw [if_neg hem, if_pos (by simpa using hem), List.flatMap_cons, ih]
      rfl

theorem cut_self (r : Ranked) : Cut r r := by
  refine ⟨rfl, rfl, rfl, rfl, List.prefix_refl _, List.prefix_refl _⟩

theorem nodup_length {α : Type} [DecidableEq α] {l l' : List α} (h : l.Nodup) (hs : ∀ x ∈ l, x ∈ l') :
    l.length ≤ l'.length := by
  induction l generalizing l' with
  | nil => simp
  | cons a l ih =>
    rw [List.nodup_cons] at h
    have ha : a ∈ l' := hs a (by simp)
    have := ih (l' := l'.erase a) h.2 fun x hx =>
      (List.mem_erase_of_ne (by rintro rfl; exact h.1 hx)).2 (hs x (by simp [hx]))
    rw [List.length_erase_of_mem ha] at this
    have := List.length_pos_of_mem ha
    simp only [List.length_cons]; omega

theorem splitScoresLoop_length : ∀ (segs : List Seg) (k : Nat) (l : List Nat), (splitScoresLoop k segs l).length ≤ l.length
  | [], _, _ => Nat.zero_le _
  | _ :: _, _, [] => Nat.zero_le _
  | s :: ss, k, v :: l => by
    unfold splitScoresLoop
    split
    · rename_i hv
      rw [List.length_cons]
      have h1 := splitScoresLoop_length ss (k + 1) ((v :: l).dropWhile fun v => decide (s.min ≤ v))
      have h2 : ((v :: l).dropWhile fun v => decide (s.min ≤ v)).length ≤ l.length := by
        rw [List.dropWhile_cons_of_pos (by simpa using hv)]
        exact (List.dropWhile_sublist _).length_le
      rw [List.length_cons]
      omega
    · exact splitScoresLoop_length ss (k + 1) (v :: l)

/-- What a lookup gives and what it reads. -/
theorem getElements_runs {sch : Sched} {st : ListState} (h : ListOK st) {ids : List Nat} (hid : ∀ v ∈ ids, v < 2 ^ 64)
    {radius : Nat} {t a} (hr : Runs (stored st) (getElements sch st ids radius) t a) :
    ((a = .failed ∧ ¬ Fine t) ∨
      ∃ rs, a = .given rs ∧ (rs.map (·.elem.id)).Nodup ∧ (∀ e ∈ st.content, e.id ∈ ids → ∃ r ∈ rs, r.elem = e) ∧
        ∀ r ∈ rs, ∃ full, Cut r full ∧ ResultOK st.content radius full ∧ r.elem.id ∈ ids ∧ (Fine t → r = full)) ∧
    (∀ y ∈ t, (∃ j, y.1 = (true, j) ∧ ∃ v ∈ ids, ∃ s, st.index.segs[j]? = some s ∧ s.min ≤ v ∧ v ≤ s.max) ∨
      ∃ j, y.1 = (false, j) ∧ j < st.scores.segs.length ∧ (radius = 0 → ∃ e ∈ elemsAt st.scores.segs j, e.id ∈ ids)) ∧
    (radius = 0 → t.length ≤ 2 * (uniq ids).length) := by
  unfold getElements at hr
  obtain ⟨t₁, t₂, x, rfl, h1, hr⟩ := runs_bind hr
  have huid : ∀ v ∈ uniq ids, v < 2 ^ 64 := fun v hv => hid v (mem_uniq.1 hv)
  obtain ⟨f1, f2, f3⟩ := fan_runs (c := 1) (C := Eq) (strip := id) (Q := fun m p => p = (true, m.1))
    (full := fun m => Elements.firstWithScore (elemsAt st.index.segs m.1) m.2)
    (fun w _ t x hw => ⟨(firstIn_runs (stored_index st) hw).1, (firstIn_runs (stored_index st) hw).2.1⟩) h1
  have f3 := f3 fun w _ t x hw => (firstIn_runs (stored_index st) hw).2.2
  have hsplit := splitScores_eq h.isIndex.ok.tiles h.isIndex.aligned huid
  have hsel : ∀ m ∈ splitScores st.index.segs (uniq ids), ∃ v ∈ ids, ∃ s, st.index.segs[m.1]? = some s ∧ s.min ≤ v ∧ v ≤ s.max := by
    intro m hm
    rw [hsplit] at hm
    obtain ⟨p, hp, hpm⟩ := List.mem_filterMap.1 hm
    split at hpm
    · nomatch hpm
    · rename_i hne
      obtain rfl := Option.some.inj hpm
      obtain ⟨v, l, hv⟩ := List.exists_cons_of_ne_nil hne
      have hvm : v ∈ selScores p.1 (ElementIDs.sort (uniq ids)) := by rw [hv]; exact List.mem_cons_self
      obtain ⟨v1, v2, v3⟩ := mem_selScores.1 hvm
      refine ⟨v, mem_uniq.1 ((goSort_perm _ _).mem_iff.1 v1), p.1, ?_, v2, v3⟩
      exact List.mem_zipIdx_iff_getElem?.1 hp
  have hcount : (splitScores st.index.segs (uniq ids)).length ≤ (uniq ids).length := by
    unfold splitScores
    exact Nat.le_trans (splitScoresLoop_length _ _ _) (Nat.le_of_eq (goSort_perm _ _).length_eq)
  have hidx : ∀ y ∈ t₁, ∃ j, y.1 = (true, j) ∧ ∃ v ∈ ids, ∃ s, st.index.segs[j]? = some s ∧ s.min ≤ v ∧ v ≤ s.max := by
    intro y hy
    obtain ⟨m, m1, m2⟩ := f2 y hy
    exact ⟨m.1, m2, hsel m ((sch.perm _).mem_iff.1 m1)⟩
  have ht₁ : t₁.length ≤ (uniq ids).length := by
    rw [(sch.perm _).length_eq, Nat.mul_one] at f3
    omega
  rcases f1 with ⟨rfl, n1⟩ | ⟨E₀, rfl, e1, -, -⟩
  · obtain ⟨rfl, rfl⟩ := runs_done hr
    rw [List.append_nil]
    exact ⟨.inl ⟨rfl, n1⟩, fun y hy => .inl (hidx y hy), fun _ => by omega⟩
  dsimp only at hr
  rw [List.map_id, List.map_id] at e1
  have hgi : (E₀.filter fun e => (uniq ids).contains e.score).Perm ((allElems st.index.segs).filter fun e => ids.contains e.id) := by
    refine List.Perm.trans ?_ (getIndexElements_spec (sch := .inOrder) h.isIndex hid)
    unfold getIndexElements
    refine List.Perm.filter _ ?_
    rw [e1]
    unfold getFirstWithScore
    show List.Perm _ (List.map _ (splitScores st.index.segs (uniq ids))).flatten
    rw [← List.flatMap_def]
    exact (sch.perm _).flatMap_right _
  generalize E₀.filter (fun e => (uniq ids).contains e.score) = E at hgi hr
  have hmem : ∀ x, x ∈ E ↔ x ∈ allElems st.index.segs ∧ x.id ∈ ids := by
    intro x; rw [hgi.mem_iff]; simp
  have hE : DistinctIDs E := by
    have h1 : DistinctIDs ((allElems st.index.segs).filter fun e => ids.contains e.id) := by
      unfold DistinctIDs
      exact List.Sublist.nodup (List.filter_sublist.map _) h.index.distinct
    exact h1.perm hgi.symm
  have hids : ∀ e ∈ st.content, e.id ∈ ids → e.id ∈ E.map (·.id) := by
    intro e he hi
    have : e.id ∈ (allElems st.index.segs).map (·.id) := by
      rw [← indexed_ids, (h.link.complete.map _).mem_iff, placement_ids]
      exact List.mem_map_of_mem he
    obtain ⟨x, hx, hxe⟩ := List.mem_map.1 this
    exact List.mem_map.2 ⟨x, (hmem x).2 ⟨hx, by rw [hxe]; exact hi⟩, hxe⟩
  by_cases hem : E.isEmpty
  · rw [if_pos hem] at hr
    obtain ⟨rfl, rfl⟩ := runs_done hr
    rw [List.append_nil]
    rw [List.isEmpty_iff] at hem
    refine ⟨.inr ⟨[], rfl, by simp, fun e he hi => ?_, fun r hr => (List.not_mem_nil hr).elim⟩, fun y hy => .inl (hidx y hy), fun _ => by omega⟩
    have := hids e he hi
    simp [hem] at this
  rw [if_neg hem] at hr
  obtain ⟨t₂, t₃, x, rfl, h2, hr⟩ := runs_bind hr
  have hpl : ∀ x ∈ E, (x.id, x.tie) ∈ placement st.scores.segs := fun x hx =>
    h.link.complete.mem_iff.1 (List.mem_map.2 ⟨x, ((hmem x).1 hx).1, rfl⟩)
  have hseg : ∀ x ∈ E, ∃ (i : Nat) (s : Seg) (j : Nat) (e : Element), segIndex x.tie st.scores.segs 0 0 = i ∧
      st.scores.segs[i]? = some s ∧ s.elems[j]? = some e ∧ e.id = x.id := by
    intro x hx
    have := hpl x hx
    unfold placement at this
    obtain ⟨s, hs, hm⟩ := List.mem_flatMap.1 this
    obtain ⟨e, he, heq⟩ := List.mem_map.1 hm
    simp only [Prod.mk.injEq] at heq
    obtain ⟨i, hi⟩ := List.mem_iff_getElem?.1 hs
    obtain ⟨j, hj⟩ := List.mem_iff_getElem?.1 he
    refine ⟨i, s, j, e, ?_, hi, hj, heq.1⟩
    exact (segIndex_eq_iff h.scores.segIDs (List.mem_map.2 ⟨s, hs, heq.2⟩) hi).2 heq.2.symm
  have hpos : ∀ i ∈ sch.order ((List.range st.scores.segs.length).filter fun i => !(idsAt st.scores.segs E i).isEmpty),
      i < st.scores.segs.length ∧ ∃ v ∈ idsAt st.scores.segs E i, True := by
    intro i hi
    obtain ⟨i1, i2⟩ := List.mem_filter.1 ((sch.perm _).mem_iff.1 hi)
    refine ⟨List.mem_range.1 i1, ?_⟩
    cases hv : idsAt st.scores.segs E i with
    | nil => rw [hv] at i2; simp at i2
    | cons v l => exact ⟨v, List.mem_cons_self, trivial⟩
  obtain ⟨g1, g2, g3⟩ := fan_runs (c := 1) (C := Cut) (strip := bare)
    (Q := fun i p => ∃ j, p = (false, j) ∧ j < st.scores.segs.length ∧ (radius = 0 → j = i))
    (full := fun i => Segments.findIn st.scores.segs radius i (idsAt st.scores.segs E i))
    (fun w hw t x hx => ⟨(findIn_runs (stored_scores st) (hpos w hw).1 hx).1, (findIn_runs (stored_scores st) (hpos w hw).1 hx).2.1⟩) h2
  obtain ⟨s1, s2, s3⟩ := findElements_spec (sch := .inOrder) h.scores h.scoresCount hE hpl radius
  rw [← findElements_inOrder] at s1 s2 s3
  have hflat := (sch.perm ((List.range st.scores.segs.length).filter fun i => !(idsAt st.scores.segs E i).isEmpty)).flatMap_right
    (fun i => Segments.findIn st.scores.segs radius i (idsAt st.scores.segs E i))
  have ht₃ : t₃ = [] := by
    revert hr
    cases x <;> exact fun hr => (runs_done hr).1
  subst ht₃
  rw [List.append_nil]
  refine ⟨?_, fun y hy => ?_, fun h0 => ?_⟩
  · rcases g1 with ⟨rfl, n1⟩ | ⟨rs, rfl, b1, b2, b3⟩
    · exact .inl ⟨(runs_done hr).2, fun hf => n1 (fine_append.1 hf).2⟩
    · have hb : ((rs.map (·.elem))).Perm (((((List.range st.scores.segs.length).filter fun i => !(idsAt st.scores.segs E i).isEmpty)).flatMap
          (fun i => Segments.findIn st.scores.segs radius i (idsAt st.scores.segs E i))).map (·.elem)) := by
        refine List.Perm.trans (List.Perm.of_eq ?_) (hflat.map _)
        have := congrArg (List.map (·.1)) b1
        simpa [List.map_map, Function.comp_def, bare] using this
      refine .inr ⟨rs, (runs_done hr).2, ?_, fun e he hi => ?_, fun r hr' => ?_⟩
      · have := hb.map (·.id)
        rw [List.map_map, List.map_map] at this
        exact this.nodup_iff.2 s1
      · obtain ⟨r, r1, r2⟩ := s3 e he (hids e he hi)
        have : e ∈ rs.map (·.elem) := hb.mem_iff.2 (by rw [← r2]; exact List.mem_map_of_mem r1)
        obtain ⟨r', r3, r4⟩ := List.mem_map.1 this
        exact ⟨r', r3, r4⟩
      · by_cases hf : Fine t₂
        · have hr2 : r ∈ ((List.range st.scores.segs.length).filter fun i => !(idsAt st.scores.segs E i).isEmpty).flatMap
              (fun i => Segments.findIn st.scores.segs radius i (idsAt st.scores.segs E i)) := by
            rw [b3 hf] at hr'
            exact hflat.mem_iff.1 hr'
          obtain ⟨k1, k2⟩ := s2 r hr2
          refine ⟨r, cut_self r, k1, ?_, fun _ => rfl⟩
          obtain ⟨z, z1, z2⟩ := List.mem_map.1 k2
          rw [← z2]
          exact ((hmem z).1 z1).2
        · obtain ⟨y, y1, y2⟩ := b2 r hr'
          obtain ⟨k1, k2⟩ := s2 y (hflat.mem_iff.1 y1)
          refine ⟨y, y2, k1, ?_, fun h => absurd (fine_append.1 h).2 hf⟩
          obtain ⟨z, z1, z2⟩ := List.mem_map.1 k2
          rw [y2.elem, ← z2]
          exact ((hmem z).1 z1).2
  · rcases List.mem_append.1 hy with hy | hy
    · exact .inl (hidx y hy)
    · obtain ⟨i, i1, j, j1, j2, j3⟩ := g2 y hy
      refine .inr ⟨j, j1, j2, fun h0 => ?_⟩
      obtain rfl := j3 h0
      obtain ⟨v, v1, -⟩ := (hpos j i1).2
      obtain ⟨z, z1, z2, z3⟩ := Concurrent.mem_idsAt.1 v1
      obtain ⟨i, s, k, e, q1, q2, q3, q4⟩ := hseg z z1
      obtain rfl : i = j := by rw [← q1, z3]
      refine ⟨e, ?_, by rw [q4]; exact ((hmem z).1 z1).2⟩
      unfold elemsAt
      rw [q2]
      exact List.mem_of_getElem? q3
  · have g3 := g3 fun w hw t x hx => (findIn_runs (stored_scores st) (hpos w hw).1 hx).2.2 h0
    have c1 : (sch.order ((List.range st.scores.segs.length).filter fun i => !(idsAt st.scores.segs E i).isEmpty)).length ≤
        (E.map fun x => segIndex x.tie st.scores.segs 0 0).length := by
      refine nodup_length ((sch.perm _).nodup_iff.2 (List.nodup_range.filter _)) fun i hi => ?_
      obtain ⟨v, v1, -⟩ := (hpos i hi).2
      obtain ⟨z, z1, z2, z3⟩ := Concurrent.mem_idsAt.1 v1
      exact List.mem_map.2 ⟨z, z1, z3⟩
    have c2 : (E.map (·.id)).length ≤ (uniq ids).length := by
      refine nodup_length hE fun v hv => ?_
      obtain ⟨z, z1, rfl⟩ := List.mem_map.1 hv
      exact mem_uniq.2 ((hmem z).1 z1).2
    rw [List.length_map] at c1 c2
    rw [List.length_append]
    omega

end RankDB.ReadFaults

import Verif.Proofs.Elements
/-
Helper lemmas about `Elements.Sort`, score lookup and ID sets.
-/
namespace RankDB
open Spec
namespace Elements

/-! ### Merge rounds -/

theorem mergePairs_perm : ∀ ps : List (List Element), (mergePairs ps).flatten.Perm ps.flatten
  | [] => by simp [mergePairs]
  | [_] => by simp [mergePairs]
  | a :: b :: rest => by
    simp only [mergePairs, mergePairs.mergeAlloc', List.flatten_cons]
    rw [← List.append_assoc]
    exact (merge_perm 0 true a b).append (mergePairs_perm rest)

theorem mergePairs_ranked : ∀ ps : List (List Element), (∀ p ∈ ps, Ranked p) →
    ∀ p ∈ mergePairs ps, Ranked p
  | [], _ => by simp [mergePairs]
  | [_], h => by simpa [mergePairs] using h
  | a :: b :: rest, h => by
    intro p hp
    simp only [mergePairs, mergePairs.mergeAlloc', List.mem_cons] at hp
    rcases hp with rfl | hp
    · exact merge_ranked 0 true a b (h a (by simp)) (h b (by simp))
    · exact mergePairs_ranked rest (fun q hq => h q (by simp [hq])) p hp

theorem mergeAll_spec (n : Nat) (ps : List (List Element)) (hn : ps.length ≤ n)
    (h : ∀ p ∈ ps, Ranked p) :
    ((mergeAll n ps).headD []).Perm ps.flatten ∧ Ranked ((mergeAll n ps).headD []) := by
  have base : ∀ ps : List (List Element), ps.length ≤ 1 → (∀ p ∈ ps, Ranked p) →
      (ps.headD []).Perm ps.flatten ∧ Ranked (ps.headD []) := by
    intro ps hlen h
    match ps, hlen with
    | [], _ => simp [Ranked]
    | [p], _ => exact ⟨by simp, h p (by simp)⟩
  induction n generalizing ps with
  | zero => exact base ps (by omega) h
  | succ n ih =>
    unfold mergeAll
    split
    · exact base ps (by omega) h
    · have := ih (mergePairs ps) (by rw [mergePairs_length]; omega) (mergePairs_ranked ps h)
      exact ⟨this.1.trans (mergePairs_perm ps), this.2⟩

theorem sortPieces_spec {f : List Element → Option (List Element × Bool)}
    (hf : ∀ l r, f l = some r → r.1.Perm l ∧ Ranked r.1) :
    ∀ {ps qs}, sortPieces f ps = some qs → qs.flatten.Perm ps.flatten ∧ ∀ q ∈ qs, Ranked q
  | [], qs, h => by simp [sortPieces] at h; subst h; simp
  | p :: ps, qs, h => by
    unfold sortPieces at h
    split at h
    · rename_i r rs h1 h2
      simp only [Option.some.injEq] at h
      subst h
      have ⟨i1, i2⟩ := sortPieces_spec hf h2
      have ⟨j1, j2⟩ := hf _ _ h1
      refine ⟨?_, ?_⟩
      · simp only [List.flatten_cons]
        exact j1.append i1
      · intro q hq
        rcases List.mem_cons.1 hq with rfl | hq
        · exact j2
        · exact i2 q hq
    · simp at h

theorem sort_spec (fuel : Nat) (l : List Element) (r : List Element × Bool)
    (h : sort fuel l = some r) : r.1.Perm l ∧ Ranked r.1 ∧ (r.2 = false ↔ Ranked l) := by
  induction fuel generalizing l r with
  | zero => simp [sort] at h
  | succ fuel ih =>
    unfold sort at h
    split at h
    · rename_i hs
      simp only [Option.some.injEq] at h
      subst h
      rw [isSorted_iff] at hs
      exact ⟨.refl _, hs, by simpa using hs⟩
    · rename_i hs
      rw [isSorted_iff] at hs
      split at h
      · simp only [Option.some.injEq] at h
        subst h
        exact ⟨sortSlice_perm l, sortSlice_ranked l, by simpa using hs⟩
      · split at h
        · simp at h
        · rename_i split hsplit
          split at h
          · simp at h
          · rename_i qs hq
            simp only [Option.some.injEq] at h
            subst h
            have ⟨p1, p2⟩ := sortPieces_spec (fun l r h => ⟨(ih l r h).1, (ih l r h).2.1⟩) hq
            have ⟨m1, m2⟩ := mergeAll_spec qs.length qs (Nat.le_refl _) p2
            refine ⟨?_, m2, by simpa using hs⟩
            rw [splitSize_flatten hsplit] at p1
            exact m1.trans p1

theorem sort_small {l : List Element} (h : l.length < 25000) (fuel : Nat) :
    ∃ r, sort (fuel + 1) l = some r := by
  unfold sort
  split
  · exact ⟨_, rfl⟩
  · exact ⟨_, rfl⟩

theorem sortPieces_isSome {f : List Element → Option (List Element × Bool)} :
    ∀ {ps}, (∀ p ∈ ps, ∃ r, f p = some r) → ∃ qs, sortPieces f ps = some qs
  | [], _ => ⟨[], rfl⟩
  | p :: ps, h => by
    obtain ⟨r, hr⟩ := h p (by simp)
    obtain ⟨qs, hqs⟩ := sortPieces_isSome (ps := ps) fun q hq => h q (by simp [hq])
    exact ⟨r.1 :: qs, by simp [sortPieces, hr, hqs]⟩

theorem mem_flatten_sublist {p : List Element} {ps : List (List Element)} (h : p ∈ ps) :
    p.Sublist ps.flatten := by
  induction ps with
  | nil => simp at h
  | cons q ps ih =>
    rcases List.mem_cons.1 h with rfl | h
    · simp
    · exact (ih h).trans (List.sublist_append_right _ _)

theorem sort_terminates {l : List Element}
    (h : ∀ s t, l.countP (fun e => e.score = s ∧ e.tie = t) < 22500) (fuel : Nat) :
    ∃ r, sort (fuel + 2) l = some r := by
  rw [sort]
  split
  · exact ⟨_, rfl⟩
  · split
    · exact ⟨_, rfl⟩
    · obtain ⟨ps, hps⟩ := splitSize_some (l := l) (k := 2500) (by omega)
      rw [hps]
      have hlen : ∀ p ∈ ps, p.length < 25000 := by
        intro p hp
        obtain ⟨s, t, rfl, hs, ht⟩ := splitSize_piece hps p hp
        have hsub := mem_flatten_sublist hp
        rw [splitSize_flatten hps] at hsub
        have : t.length < 22500 := by
          cases t with
          | nil => simp
          | cons b t =>
            obtain ⟨a, ha, -⟩ := ht b (by simp)
            have hall : ∀ c ∈ b :: t, c.score = a.score ∧ c.tie = a.tie := by
              intro c hc
              obtain ⟨a', ha', hk⟩ := ht c hc
              rw [ha] at ha'
              simp only [Option.some.injEq] at ha'
              subst ha'
              unfold sameKey at hk
              simp only [Bool.and_eq_true, beq_iff_eq] at hk
              omega
            have h1 : (b :: t).countP (fun e => e.score = a.score ∧ e.tie = a.tie)
                = (b :: t).length := by
              rw [List.countP_eq_length]
              intro c hc
              simpa using hall c hc
            have h2 := ((List.sublist_append_right s (b :: t)).trans hsub).countP_le
              (p := fun e => e.score = a.score ∧ e.tie = a.tie)
            have h3 := h a.score a.tie
            omega
        simp only [List.length_append]
        omega
      obtain ⟨qs, hqs⟩ := sortPieces_isSome (f := sort (fuel + 1)) fun p hp =>
        sort_small (hlen p hp) fuel
      simp only [hqs]
      exact ⟨_, rfl⟩

theorem extendCut_allSame (acc rest : List Element) (hne : acc ≠ [])
    (h : ∀ a ∈ acc ++ rest, ∀ b ∈ acc ++ rest, sameKey a b) :
    extendCut acc rest = (acc.reverse ++ rest, []) := by
  fun_induction extendCut acc rest with
  | case1 acc => simp
  | case2 b rest => exact absurd rfl hne
  | case3 a acc b rest hk ih =>
    rw [ih (by simp) ?_]
    · simp
    · intro x hx y hy
      apply h
      · simp only [List.cons_append, List.mem_cons, List.mem_append] at hx ⊢; grind
      · simp only [List.cons_append, List.mem_cons, List.mem_append] at hy ⊢; grind
  | case4 a acc b rest hk => exact absurd (h a (by simp) b (by simp)) hk

theorem splitSize_allSame {l : List Element} {k : Nat} (hk : 0 < k)
    (h : ∀ a ∈ l, ∀ b ∈ l, sameKey a b) : splitSize l k = some [l] := by
  unfold splitSize
  split
  · rfl
  · rename_i hlt
    rw [if_neg (by omega)]
    simp only [Option.some.injEq]
    have hn : 0 < (l.length + k - 1) / k := Nat.div_pos (by omega) (by omega)
    have he : 0 < (l.length + (l.length + k - 1) / k - 1) / ((l.length + k - 1) / k) :=
      Nat.div_pos (by omega) hn
    generalize (l.length + (l.length + k - 1) / k - 1) / ((l.length + k - 1) / k) = elems at *
    generalize (l.length + k - 1) / k = n at *
    obtain ⟨n, rfl⟩ : ∃ m, n = m + 1 := ⟨n - 1, by omega⟩
    obtain ⟨elems, rfl⟩ : ∃ m, elems = m + 1 := ⟨elems - 1, by omega⟩
    cases l with
    | nil => simp at hlt
    | cons a l =>
      unfold splitLoop
      rw [extendCut_allSame _ _ (by simp) ?_]
      · simp only [List.reverse_reverse, List.take_append_drop]
        rw [if_neg (by simp)]
        cases n with
        | zero => simp [splitLoop]
        | succ n => simp [splitLoop, extendCut_nil]
      · intro x hx y hy
        have hm : ∀ z, z ∈ ((a :: l).take (elems + 1)).reverse ++ (a :: l).drop (elems + 1) →
            z ∈ a :: l := by
          intro z hz
          rcases List.mem_append.1 hz with hz | hz
          · exact List.mem_of_mem_take (List.mem_reverse.1 hz)
          · exact List.mem_of_mem_drop hz
        exact h x (hm x hx) y (hm y hy)

theorem sort_diverges {l : List Element} (hl : 25000 ≤ l.length) (hs : ¬ Ranked l)
    (h : ∀ a ∈ l, ∀ b ∈ l, a.score = b.score ∧ a.tie = b.tie) :
    ∀ fuel, sort fuel l = none := by
  intro fuel
  induction fuel with
  | zero => rfl
  | succ fuel ih =>
    unfold sort
    rw [if_neg (by rw [isSorted_iff]; exact hs), if_neg (by omega),
      splitSize_allSame (by omega) (by intro a ha b hb; unfold sameKey; simpa using h a ha b hb)]
    simp [sortPieces, ih]

/-! ### Score lookup -/

theorem firstWithScore_sublist (l : List Element) (scores : List Nat) :
    (firstWithScore l scores).Sublist l := by
  fun_induction firstWithScore l scores with
  | case1 => simp
  | case2 => simp
  | case3 e l top scores h1 ih => exact List.Sublist.cons_cons _ ih
  | case4 e l top scores h1 ih => exact List.Sublist.cons _ ih

theorem firstWithScore_length (l : List Element) (scores : List Nat) :
    (firstWithScore l scores).length ≤ scores.length := by
  fun_induction firstWithScore l scores with
  | case1 => simp
  | case2 => simp
  | case3 e l top scores h1 ih => simpa using ih
  | case4 e l top scores h1 ih => exact ih

theorem firstWithScore_mem (l : List Element) (scores : List Nat)
    (hs : scores.Pairwise fun a b => b ≤ a) (hl : l.Pairwise fun a b => b.score ≤ a.score)
    (s : Nat) (hm : s ∈ scores) (x : Element) (hx : l.find? (fun e => e.score = s) = some x) :
    x ∈ firstWithScore l scores := by
  fun_induction firstWithScore l scores with
  | case1 => simp at hx
  | case2 => simp at hm
  | case3 e l top scores h1 ih =>
    simp only [List.find?_cons] at hx
    split at hx
    · simp only [Option.some.injEq] at hx; subst hx; simp
    · rename_i hne
      simp only [decide_eq_false_iff_not] at hne
      have hx' := List.find?_some hx
      simp only [decide_eq_true_eq] at hx'
      have := (List.pairwise_cons.1 hl).1 x (List.mem_of_find?_eq_some hx)
      rcases List.mem_cons.1 hm with rfl | hm
      · omega
      · exact List.mem_cons_of_mem _ (ih (List.pairwise_cons.1 hs).2 (List.pairwise_cons.1 hl).2 hm hx)
  | case4 e l top scores h1 ih =>
    have htop : s ≤ top := by
      rcases List.mem_cons.1 hm with rfl | hm
      · exact Nat.le_refl _
      · exact (List.pairwise_cons.1 hs).1 s hm
    simp only [List.find?_cons] at hx
    rw [show decide (e.score = s) = false by simp; omega] at hx
    exact ih hs (List.pairwise_cons.1 hl).2 hm hx

theorem ranked_scores {l : List Element} (h : Ranked l) :
    l.Pairwise fun a b => b.score ≤ a.score := by
  refine h.imp ?_
  intro a b hab
  unfold RanksAbove at hab
  omega

end Elements

/-! ### ID sets -/
namespace ElementIDs

theorem sort_perm (l : List Nat) : (sort l).Perm l := goSort_perm _ l

theorem sort_sorted (l : List Nat) : (sort l).Pairwise fun a b => b ≤ a := by
  have := goSort_sorted (le := fun a b : Nat => decide (b ≤ a))
    (by intro a b c h1 h2; simp at *; omega) (by intro a b; simp; omega) l
  exact this.imp (by simp)

end ElementIDs
end RankDB

import Verif.Proofs.Heap
/-
C102: the elements of one request that goroutines share.
-/
namespace RankDB.Props
open Heap Spec Spec.Slices Elements

/-- The elements of a slice of a goroutine. -/
def sliceElems (h : Heap) (s : Slice) : List Element := (h s.arr).take s.len

/-- The elements of a slice that all goroutines were given: array, first cell, length. -/
def givenElems (h : Heap) (x : Arr × Nat × Nat) : List Element := ((h x.1).drop x.2.1).take x.2.2

/-- Before the goroutines begin: slice `s` of goroutine `t` is `σ t s`. The slices of goroutines are in different arrays
(segments are loaded under their locks, and lists do not share segments), and not in arrays with elements that all were
given. All slices are within their arrays. -/
structure Apart (given : Nat → Arr × Nat × Nat) (σ : Nat → Nat → Slice) (h : Heap) : Prop where
  len : ∀ t s, (σ t s).len ≤ (h (σ t s).arr).length
  cap : ∀ t s, (σ t s).cap = (h (σ t s).arr).length
  window : ∀ r, (given r).2.1 + (given r).2.2 ≤ (h (given r).1).length
  old : ∀ t s, ∃ n, (σ t s).arr = .given n
  oldGiven : ∀ r, ∃ n, (given r).1 = .given n
  apart : ∀ t s u s', (t, s) ≠ (u, s') → (σ t s).arr ≠ (σ u s').arr
  notGiven : ∀ t s r, (σ t s).arr ≠ (given r).1

/-- The goroutines with their code before the first step. -/
def begin (codes : Nat → Code β) (given : Nat → Arr × Nat × Nat) (σ : Nat → Nat → Slice) (h : Heap) :
    World (β × (Nat → Slice)) := ⟨h, fun t => ((codes t).prog given (σ t), 0)⟩

/-- The arrays that goroutine `t` has or makes. -/
def ownArr (σ : Nat → Nat → Slice) (t : Nat) (a : Arr) : Prop := (∃ s, a = (σ t s).arr) ∨ ∃ k, a = .made t k

/-- The arrays with elements that all were given. -/
def sharedArr (given : Nat → Arr × Nat × Nat) (a : Arr) : Prop := ∃ r, a = (given r).1

theorem apart_own {given : Nat → Arr × Nat × Nat} {σ : Nat → Nat → Slice} {h : Heap} (ha : Apart given σ h) :
    (∀ t u a, t ≠ u → ownArr σ t a → ¬ownArr σ u a) ∧ ∀ t a, ownArr σ t a → ¬sharedArr given a := by
  constructor
  · rintro t u a hne (⟨s, rfl⟩ | ⟨k, rfl⟩) (⟨s', e⟩ | ⟨k', e⟩)
    · exact ha.apart t s u s' (by simp [hne]) e
    · obtain ⟨n, e'⟩ := ha.old t s; rw [e'] at e; cases e
    · obtain ⟨n, e'⟩ := ha.old u s'; rw [e'] at e; cases e
    · injection e with e1 e2; exact hne e1
  · rintro t a (⟨s, rfl⟩ | ⟨k, rfl⟩) ⟨r, e⟩
    · exact ha.notGiven t s r e
    · obtain ⟨n, e'⟩ := ha.oldGiven r; rw [e'] at e; cases e

/-- What a goroutine ends with, alone: answer, slices, memory, number of arrays made, elements, number of steps. -/
structure Ended (β : Type) where
  b : β
  σ : Nat → Slice
  h : Heap
  c : Nat
  v : Nat → List Element
  n : Nat

/-- What goroutine `t` does alone. -/
theorem apart_does {given : Nat → Arr × Nat × Nat} {σ : Nat → Nat → Slice} {h : Heap} (ha : Apart given σ h)
    (hr : ∀ r, Ranked (givenElems h (given r))) (code : Code β) (t : Nat) :
    ∃ E : Ended β, Does (ownArr σ t) (sharedArr given) t E.n (code.prog given (σ t)) h 0 (E.b, E.σ) E.h E.c ∧
      Good (ownArr σ t) t E.c E.σ E.h E.v ∧
      Means (fun r => givenElems h (given r)) code (fun s => sliceElems h (σ t s)) E.b E.v := by
  have hold : ∀ s k, 0 ≤ k → (σ t s).arr ≠ .made t k := by
    intro s k _ e; obtain ⟨n, e'⟩ := ha.old t s; rw [e'] at e; cases e
  obtain ⟨b, σ', h', c', v', ⟨n, r⟩, hg, hm⟩ := code_spec (own := ownArr σ t) (shared := sharedArr given) (t := t)
    (given := given) (g := fun r => givenElems h (given r)) (fun k => .inr ⟨k, rfl⟩) (fun a => (apart_own ha).2 t a)
    (fun r => ⟨r, rfl⟩) (fun r => (isSorted_iff _).2 (hr r)) code (c := 0) (σ := σ t) (h := h)
    (v := fun s => sliceElems h (σ t s))
    ⟨by
      intro s
      have h1 := ha.len t s
      refine ⟨by simp [sliceElems]; omega, (h (σ t s).arr).drop (σ t s).len, by simp [sliceElems], ?_⟩
      rw [ha.cap]; simp [sliceElems]; omega,
     fun s => .inl ⟨s, rfl⟩, hold, fun s u hne => ha.apart t s t u (by simp [hne])⟩
    (by
      intro r
      have h1 := ha.window r
      refine ⟨(h (given r).1).take (given r).2.1, ((h (given r).1).drop (given r).2.1).drop (given r).2.2, ?_, ?_, ?_⟩
      · unfold givenElems
        rw [List.append_assoc, List.take_append_drop, List.take_append_drop]
      · simp; omega
      · simp [givenElems]; omega)
    (by intro r k _ e; obtain ⟨n, e'⟩ := ha.oldGiven r; rw [e'] at e; cases e)
  exact ⟨⟨b, σ', h', c', v', n⟩, r, hg, hm⟩

theorem holds_elems {h : Heap} {s : Slice} (hs : Holds h s l) : sliceElems h s = l := by
  obtain ⟨h1, S, h2, h3⟩ := hs
  unfold sliceElems; rw [h2, h1]; simp

/-- C102: The goroutines of a request for many lists are all given the same slice of elements, and each changes slices of
its own with the operations of elements.go and segments.go, in place where the code does that. Let them take turns in any
order, after every single cell that they read or write. If the elements they are given are ranked, then there is no
access out of range, the given elements never change, and every goroutine that has ended has the answers and the
elements that it would have with lists of its own that nobody shares. -/
theorem C102_private (codes : Nat → Code β) (given : Nat → Arr × Nat × Nat) (σ : Nat → Nat → Slice) (h : Heap)
    (ha : Apart given σ h) (hr : ∀ r, Ranked (givenElems h (given r))) (sched : List Nat) :
    ∃ w, (begin codes given σ h).run sched = some w ∧
      (∀ r, givenElems w.heap (given r) = givenElems h (given r)) ∧
      ∀ t b σ', (w.threads t).1 = .ret (b, σ') →
        Means (fun r => givenElems h (given r)) (codes t) (fun s => sliceElems h (σ t s)) b
          (fun s => sliceElems w.heap (σ' s)) := by
  obtain ⟨E, hd⟩ := Classical.axiomOfChoice fun t => apart_does ha hr (codes t) t
  obtain ⟨w, hw1, hw2, hw3⟩ := amidst_run (own := ownArr σ) (shared := sharedArr given) (X := fun t => ((E t).b, (E t).σ))
    (H := fun t => (E t).h) (C := fun t => (E t).c) (apart_own ha).1 (apart_own ha).2 (sched := sched) (left := fun t => (E t).n) (w := begin codes given σ h)
    (fun t => ⟨h, fun _ _ => rfl, (hd t).1⟩)
  refine ⟨w, hw1, ?_, ?_⟩
  · intro r
    unfold givenElems
    rw [hw3 _ ⟨r, rfl⟩]
    rfl
  · intro t x τ ht
    obtain ⟨v, hv, hdo⟩ := hw2 t
    rw [ht] at hdo
    simp only at hdo
    generalize (E t).n - sched.count t = m at hdo
    generalize hX : ((E t).b, (E t).σ) = X at hdo
    generalize hH : (E t).h = H at hdo
    generalize hC : (E t).c = C at hdo
    cases hdo
    injection hX with h1 h2
    subst h1 h2
    have : (fun s => sliceElems w.heap ((E t).σ s)) = (E t).v := by
      funext s
      rw [← holds_elems ((hd t).2.1.holds s), hH]
      unfold sliceElems
      rw [hv _ (.inl ((hd t).2.1.own s))]
    rw [this]
    exact (hd t).2.2

/-- C102: What a goroutine ends with does not depend on the order in which goroutines take turns, and not on what the
others do. -/
theorem C102_as_alone (codes codes' : Nat → Code β) (given : Nat → Arr × Nat × Nat) (σ : Nat → Nat → Slice) (h : Heap)
    (ha : Apart given σ h) (hr : ∀ r, Ranked (givenElems h (given r))) (t : Nat) (ht : codes t = codes' t)
    (sched sched' : List Nat) (w w' : World (β × (Nat → Slice))) (hw : (begin codes given σ h).run sched = some w)
    (hw' : (begin codes' given σ h).run sched' = some w') (x x' : β × (Nat → Slice)) (hx : (w.threads t).1 = .ret x)
    (hx' : (w'.threads t).1 = .ret x') :
    x = x' ∧ ∀ s, sliceElems w.heap (x.2 s) = sliceElems w'.heap (x'.2 s) := by
  have key : ∀ (codes : Nat → Code β) (sched : List Nat) (w : World (β × (Nat → Slice))) (x : β × (Nat → Slice))
      (b : β) (σ' : Nat → Slice) (h' : Heap) (c' : Nat) (v' : Nat → List Element) (n : Nat),
      Does (ownArr σ t) (sharedArr given) t n ((codes t).prog given (σ t)) h 0 (b, σ') h' c' →
      Good (ownArr σ t) t c' σ' h' v' →
      (begin codes given σ h).run sched = some w → (w.threads t).1 = .ret x →
      x = (b, σ') ∧ ∀ s, sliceElems w.heap (x.2 s) = v' s := by
    intro codes sched w x b0 σ0 h0 c0 v0 n0 hd0 hg0 hw hx
    obtain ⟨E, hd⟩ := Classical.axiomOfChoice fun t => apart_does ha hr (codes t) t
    obtain ⟨w1, hw1, hw2, -⟩ := amidst_run (own := ownArr σ) (shared := sharedArr given)
      (X := fun u => if u = t then (b0, σ0) else ((E u).b, (E u).σ)) (H := fun u => if u = t then h0 else (E u).h)
      (C := fun u => if u = t then c0 else (E u).c) (apart_own ha).1 (apart_own ha).2 (sched := sched)
      (left := fun u => if u = t then n0 else (E u).n) (w := begin codes given σ h)
      (fun u => ⟨h, fun _ _ => rfl, by
        by_cases hu : u = t
        · subst hu; simpa [begin] using hd0
        · simpa [begin, hu] using (hd u).1⟩)
    rw [hw] at hw1
    injection hw1 with hw1
    subst hw1
    obtain ⟨v, hv, hdo⟩ := hw2 t
    rw [hx] at hdo
    simp only [if_true] at hdo
    generalize n0 - sched.count t = m at hdo
    generalize hX : (b0, σ0) = X at hdo
    cases hdo
    subst hX
    refine ⟨rfl, fun s => ?_⟩
    rw [← holds_elems (hg0.holds s)]
    unfold sliceElems
    rw [hv _ (.inl (hg0.own s))]
  obtain ⟨E, hd, hg, -⟩ := apart_does ha hr (codes t) t
  obtain ⟨e1, e2⟩ := key codes sched w x _ _ _ _ _ _ hd hg hw hx
  rw [ht] at hd
  obtain ⟨e3, e4⟩ := key codes' sched' w' x' _ _ _ _ _ _ hd hg hw' hx'
  refine ⟨by rw [e1, e3], fun s => ?_⟩
  rw [e2, e4]

/-- C102: Every goroutine ends once it had enough turns, whatever the others do. -/
theorem C102_ends (codes : Nat → Code β) (given : Nat → Arr × Nat × Nat) (σ : Nat → Nat → Slice) (h : Heap)
    (ha : Apart given σ h) (hr : ∀ r, Ranked (givenElems h (given r))) (t : Nat) :
    ∃ N, ∀ sched, N ≤ sched.count t → ∃ w x, (begin codes given σ h).run sched = some w ∧ (w.threads t).1 = .ret x := by
  obtain ⟨E, hd⟩ := Classical.axiomOfChoice fun t => apart_does ha hr (codes t) t
  refine ⟨(E t).n, fun sched hs => ?_⟩
  obtain ⟨w, hw1, hw2, -⟩ := amidst_run (own := ownArr σ) (shared := sharedArr given) (X := fun t => ((E t).b, (E t).σ))
    (H := fun t => (E t).h) (C := fun t => (E t).c) (apart_own ha).1 (apart_own ha).2 (sched := sched) (left := fun t => (E t).n) (w := begin codes given σ h)
    (fun t => ⟨h, fun _ _ => rfl, (hd t).1⟩)
  obtain ⟨v, hv, hdo⟩ := hw2 t
  have h0 : (E t).n - sched.count t = 0 := by omega
  simp only at hdo
  rw [h0] at hdo
  generalize hp : (w.threads t).1 = p at hdo
  generalize hm : 0 = m at hdo
  generalize (w.threads t).2 = c at hdo
  generalize ((E t).b, (E t).σ) = X at hdo
  generalize (E t).h = H at hdo
  generalize (E t).c = C at hdo
  cases hdo with
  | ret => exact ⟨w, _, hw1, hp⟩
  | load => cases hm
  | store => cases hm
  | make => cases hm

/-- C102: The elements that the requests for many lists give to their goroutines are ranked, whichever way the unstable
sort by ID of `Deduplicate` goes: api/multilist.go:205-207 sets the time and then removes duplicates; 62-64 removes
duplicates of elements that have no time yet, and then sets the time. -/
theorem C102_ranked (now : Nat) (l byID : List Element) (hs : byID.Pairwise fun a b => a.id ≤ b.id) :
    (byID.Perm (updateTime now l) → Ranked (deduplicateFrom byID).1) ∧
    (byID.Perm l → (∀ e ∈ l, e.updated = 0) → Ranked (updateTime now (deduplicateFrom byID).1)) := by
  refine ⟨fun hp => (deduplicateFrom_spec hp hs).1, fun hp h0 => ?_⟩
  obtain ⟨h1, -, h2, -⟩ := deduplicateFrom_spec hp hs
  unfold updateTime
  unfold Ranked at h1 ⊢
  rw [List.pairwise_map]
  refine h1.imp_of_mem ?_
  intro a b ha hb hab
  have ea := h0 a (h2 a ha)
  have eb := h0 b (h2 b hb)
  unfold RanksAbove at hab ⊢
  simp only
  omega

/-! ### The hypotheses are met, and what happens otherwise -/

/-- Two lists: list number `t` has one segment, in array `t`, with room for two more elements; the elements of the request
are in array 9; the other slices are empty. -/
def exHeap : Heap := fun a =>
  if a = .given 0 then [⟨50, 1, [], 0, 1⟩, ⟨30, 2, [], 0, 1⟩, default, default]
  else if a = .given 1 then [⟨40, 7, [], 0, 1⟩, default, default]
  else if a = .given 9 then [⟨45, 3, [], 0, 2⟩, ⟨35, 4, [], 0, 2⟩]
  else []

def exGiven : Nat → Arr × Nat × Nat := fun _ => (.given 9, 0, 2)

def exSlices : Nat → Nat → Slice := fun t s =>
  if t = 0 ∧ s = 0 then ⟨.given 0, 2, 4⟩
  else if t = 1 ∧ s = 0 then ⟨.given 1, 1, 3⟩
  else ⟨.given (10 + (t + s) * (t + s) + t), 0, 0⟩

/-- api/multilist.go:72-95 for one list: sort the elements, merge them into the segment, and look at both. -/
def exCode : Code (Res × Res) :=
  .op (.sortGiven 0 0 2) fun _ => .op (.merge 0 (.given 0 0 2) false) fun _ =>
    .op (.look (.own 0 0 9)) fun a => .op (.look (.given 0 0 2)) fun b => .done (a, b)

theorem exApart : Apart exGiven exSlices exHeap where
  len := by
    intro t s
    unfold exSlices
    split
    · decide
    · split
      · decide
      · exact Nat.zero_le _
  cap := by
    intro t s
    unfold exSlices
    split
    · decide
    · split
      · decide
      · have : ∀ n, n ≥ 10 → exHeap (.given n) = [] := by
          intro n hn
          unfold exHeap
          simp only [Arr.given.injEq]
          rw [if_neg (by omega), if_neg (by omega), if_neg (by omega)]
        show 0 = (exHeap (.given _)).length
        rw [this _ (by omega)]; rfl
  window := fun _ => by show 0 + 2 ≤ (exHeap (.given 9)).length; decide
  old := by
    intro t s
    unfold exSlices
    split
    · exact ⟨_, rfl⟩
    · split <;> exact ⟨_, rfl⟩
  oldGiven := fun _ => ⟨9, rfl⟩
  apart := by
    have inj : ∀ t s u s' : Nat, (t + s) * (t + s) + t = (u + s') * (u + s') + u → t = u ∧ s = s' := by
      intro t s u s' h
      have key : ∀ a b : Nat, ∀ x y : Nat, x ≤ a → y ≤ b → a * a + x = b * b + y → a < b → False := by
        intro a b x y hx _ h hlt
        have h1 : (a + 1) * (a + 1) ≤ b * b := Nat.mul_le_mul hlt hlt
        have h2 : (a + 1) * (a + 1) = a * a + 2 * a + 1 := by
          rw [Nat.add_mul, Nat.mul_add]; omega
        omega
      rcases Nat.lt_trichotomy (t + s) (u + s') with hlt | heq | hgt
      · exact (key _ _ t u (by omega) (by omega) h hlt).elim
      · rw [heq] at h; omega
      · exact (key _ _ u t (by omega) (by omega) h.symm hgt).elim
    intro t s u s' hne
    unfold exSlices
    have hne' : ¬(t = u ∧ s = s') := by rintro ⟨rfl, rfl⟩; exact hne rfl
    repeat' split
    all_goals (simp only [ne_eq, Arr.given.injEq]; first | omega | exact fun e => hne' (inj t s u s' (by omega)))
  notGiven := by
    intro t s r
    unfold exSlices exGiven
    repeat' split
    all_goals (simp only [ne_eq, Arr.given.injEq]; omega)

/-- The elements of the request of the example are ranked. -/
example : Ranked (givenElems exHeap (exGiven 0)) := by
  rw [← isSorted_iff]; decide

/-- Two goroutines that take turns after every cell both end with the right elements. -/
example : let w := (begin (fun _ => exCode) exGiven exSlices exHeap).run ((List.replicate 40 [0, 1]).flatten)
    (w.map fun w => [sliceElems w.heap ⟨.given 0, 4, 4⟩, sliceElems w.heap ⟨.given 1, 3, 3⟩]) =
      some [[⟨50, 1, [], 0, 1⟩, ⟨45, 3, [], 0, 2⟩, ⟨35, 4, [], 0, 2⟩, ⟨30, 2, [], 0, 1⟩],
        [⟨45, 3, [], 0, 2⟩, ⟨40, 7, [], 0, 1⟩, ⟨35, 4, [], 0, 2⟩]] := by
  decide +kernel

/-- The heap of the example with the elements of the request in the wrong order. -/
def exUnranked : Heap := fun a =>
  if a = .given 9 then [⟨35, 4, [], 0, 2⟩, ⟨45, 3, [], 0, 2⟩] else exHeap a

/-- Whether a goroutine ended with elements `l` in its slice 0. -/
def endedWith (w : Option (World ((Res × Res) × (Nat → Slice)))) (t : Nat) (l : List Element) : Bool :=
  match w with
  | none => false
  | some w => match (w.threads t).1 with
    | .ret x => x.1.1 == .list l
    | _ => false

/-- C102, where it fails: elements that are not ranked must not be given to two calls at the same time (users of the
package; the server ranks them first, `C102_ranked`). Both calls sort the slice they are given in place (list.go:1246,
1596). The second call can find one element twice and the other one not at all, and adds that to its list. -/
theorem C102_unranked :
    ∃ sched, endedWith ((begin (fun _ => exCode) exGiven exSlices exUnranked).run sched) 1
      [⟨45, 3, [], 0, 2⟩, ⟨45, 3, [], 0, 2⟩, ⟨40, 7, [], 0, 1⟩] = true :=
  ⟨List.replicate 5 0 ++ List.replicate 40 1, by decide +kernel⟩

end RankDB.Props

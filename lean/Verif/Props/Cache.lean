import Verif.Proofs.Cache
import Verif.Props.Example
/-
The cache of segments (C61), and what is read after saving a segment failed (C63).
-/
namespace RankDB
namespace Cache
open Spec

/-- After a change that could not be saved the cached slice is the old one, in the changed memory. -/
theorem failed_view {st : State} {k : Key} {spare spare' : Nat} {c : Change} {l : List Element} (hs : Separate st)
    (hl : view true spare st k = some l) :
    ∃ m s, Valid m s ∧ read m s = l ∧
      (∀ a, (load true spare st k) = a → a.1.mem = m ∧ a.2 = some s) ∧
      view true spare' (step true st (.modify k spare c false)) k = some (read (change m s c).1 s) ∧
      (step true st (.modify k spare c false)).n k = (c.result l).length := by
  obtain ⟨ls, -, -, -, -, lc⟩ := load_spec (owner := fun _ => k.set) (P := fun _ => False) (m := fun _ => none) spare
    (k := k) rfl hs ⟨fun _ _ h => h.elim, fun _ _ _ h => h.elim⟩
  revert ls lc hl
  simp only [view, step, modify]
  generalize load true spare st k = r
  obtain ⟨st1, o⟩ := r
  intro hl ls lc
  simp only [] at hl ls lc
  cases o with
  | none => cases hl
  | some s =>
    simp only [Option.map_some, Option.some.injEq] at hl
    have hv := ls.valid _ _ s (lc s rfl)
    refine ⟨st1.mem, s, hv, hl, fun a h => by subst h; exact ⟨rfl, rfl⟩, ?_, ?_⟩
    · simp only [replace, Bool.false_eq_true, if_false, load, if_true, lc s rfl, Option.map_some]
    · simp only [replace, Bool.false_eq_true, if_false, if_true]
      rw [(change_spec c hv).2.1, hl]

/-- The states that a process can reach. -/
theorem reach_separate {owner : Str → Str} {store : Key → Option (List Element)} {ops : List Op}
    (hown : ∀ op ∈ ops, ∀ k, keyOf op = some k → owner k.parent = k.set) :
    Separate (run true (start store) ops) :=
  (run_spec (P := fun _ => False) hown (fun _ _ _ h => h.elim) (start_right owner (fun _ => False) store).1
    (start_right owner (fun _ => False) store).2).1

theorem view_of_right {owner : Str → Str} {P : Key → Prop} {st : State} {m : Saved} {k : Key} (spare : Nat)
    (hk : owner k.parent = k.set) (hP : P k) (hs : Separate st) (hr : Right owner P st m) :
    view true spare st k = m k := (load_spec spare hk hs hr).2.2.2.2.1 hP

end Cache

namespace Props
open Spec Cache

/-- C61: Without a cache (the default) a segment has, after any history and whatever saving failed, the elements that
were last saved for it. -/
theorem C61_uncached (store : Key → Option (List Element)) (ops : List Op) (k : Key) (spare : Nat) :
    view false spare (run false (start store) ops) k = Saved.run store ops k := by
  rw [view_uncached, run_uncached]; rfl

/-- C61: With a cache that forgets at any time loading a segment returns the elements last saved for it, if names of
segments belong to one set of lists, and there was no failed saving of a change made in place and no removal of
a merged segment for this segment. (What happens otherwise: `C61_other_set`, `C61_merged`, `C63_failed_delete`.) -/
theorem C61_cached_partial (owner : Str → Str) (store : Key → Option (List Element)) (ops : List Op) (k : Key)
    (spare : Nat) (hown : ∀ op ∈ ops, ∀ k, keyOf op = some k → owner k.parent = k.set)
    (hk : owner k.parent = k.set) (hk' : ∀ op ∈ ops, sound k op) :
    view true spare (run true (start store) ops) k = Saved.run store ops k := by
  obtain ⟨h1, h2⟩ := start_right owner (· = k) store
  obtain ⟨h3, h4⟩ := run_spec hown (fun op h k' e => by rw [e]; exact hk' op h) h1 h2
  exact view_of_right (P := (· = k)) spare hk rfl h3 h4

/-- C61, where it fails: The cache knows nothing of sets. A segment of another set that has the same name and number
is returned once it was loaded. -/
theorem C61_other_set (store : Key → Option (List Element)) (a b : Key) (spare spare' : Nat) (l : List Element)
    (hp : a.parent = b.parent) (hi : a.id = b.id) (hl : store a = some l) :
    view true spare' (run true (start store) [.read a spare]) b = some l := by
  simp only [run, List.foldl_cons, List.foldl_nil, step]
  unfold view load
  simp only [start, if_true, hl, State.cacheAdd, hp, hi, and_self, Option.map_some]
  rw [alloc_valid.2]

/-- C61, where it fails: A segment that was merged into its neighbour is still in the cache after it was deleted. -/
theorem C61_merged (store : Key → Option (List Element)) (k : Key) (spare spare' : Nat) (l : List Element)
    (hl : store k = some l) :
    view true spare' (run true (start store) [.read k spare, .drop k]) k = some l ∧
    Saved.run store [.read k spare, .drop k] k = none := by
  constructor
  · simp only [run, List.foldl_cons, List.foldl_nil, step]
    unfold view load
    simp only [start, if_true, hl, State.cacheAdd, State.put, and_self, Option.map_some]
    rw [alloc_valid.2]
  · simp [Saved.run, Saved.step, Saved.put]

def exKey (set : Str) (id : Nat) : Key := ⟨set, [115], id⟩

def exSaved : Key → Option (List Element) := fun k =>
  if k = exKey [1] 1 then some (exElems.take 4) else if k = exKey [2] 1 then some (exElems.drop 4)
  else if k = exKey [1] 2 then some [] else none

/-- The hypotheses are met by a history with all kinds of steps, a failed saving, and forgetting in between. -/
def exOps : List Op :=
  [.read (exKey [1] 1) 2, .modify (exKey [1] 1) 0 (.delete (· == 2)) true, .evict [115] 1,
   .modify (exKey [1] 1) 3 (.inPlace (fun l => exElems[5] :: l)) true,
   .modify (exKey [1] 1) 0 (.fresh (fun l => l ++ l) 1) false,
   .create (exKey [1] 2) (exElems.drop 6) true, .modify (exKey [1] 2) 0 (.delete (· == 8)) false,
   .drop (exKey [1] 2), .create (exKey [1] 3) exElems true, .remove (exKey [1] 3) true]

example : (∀ op ∈ exOps, ∀ k, keyOf op = some k → (fun _ => [1]) k.parent = k.set) ∧
    (∀ op ∈ exOps, sound (exKey [1] 1) op) ∧
    (Saved.run exSaved exOps (exKey [1] 1)).map (·.map (·.id)) = some [6, 1, 3, 4] ∧
    (view true 5 (run true (start exSaved) exOps) (exKey [1] 1)).map (·.map (·.id)) = some [6, 1, 3, 4] := by
  refine ⟨by decide, ?_, by decide +kernel, by decide +kernel⟩
  intro op hop
  simp only [exOps, List.mem_cons, List.not_mem_nil, or_false] at hop
  rcases hop with h | h | h | h | h | h | h | h | h | h <;> subst h <;> simp [sound, exKey, isFresh]

example : (view true 0 (run true (start exSaved) [.read (exKey [1] 1) 0]) (exKey [2] 1)).map (·.map (·.id)) =
    some [1, 2, 3, 4] ∧ (exSaved (exKey [2] 1)).map (·.map (·.id)) = some [5, 6, 7, 8, 9] := by decide +kernel

/-- C63: Without a cache a change that could not be saved has no effect: every segment reads as before. -/
theorem C63_uncached_partial (store : Key → Option (List Element)) (ops : List Op) (k k' : Key) (spare spare' : Nat)
    (c : Change) :
    view false spare' (run false (start store) (ops ++ [.modify k spare c false])) k' =
      view false spare' (run false (start store) ops) k' := by
  rw [C61_uncached, C61_uncached, Saved.run, List.foldl_append]
  rfl

/-- C63: With a cache, failing to save one segment has no effect on the others. -/
theorem C63_others (owner : Str → Str) (store : Key → Option (List Element)) (ops : List Op) (k k' : Key)
    (spare spare' : Nat) (c : Change)
    (hown : ∀ op ∈ ops, ∀ k, keyOf op = some k → owner k.parent = k.set) (hk : owner k.parent = k.set)
    (hk' : owner k'.parent = k'.set) (hne : k' ≠ k) (hs : ∀ op ∈ ops, sound k' op) :
    view true spare' (run true (start store) (ops ++ [.modify k spare c false])) k' =
      view true spare' (run true (start store) ops) k' := by
  rw [C61_cached_partial owner store ops k' spare' hown hk' hs,
    C61_cached_partial owner store _ k' spare' ?_ hk' ?_, Saved.run, List.foldl_append]
  · rfl
  · intro op h
    rcases List.mem_append.1 h with h | h
    · exact hown op h
    · cases List.mem_singleton.1 h
      intro k2 e
      cases e
      exact hk
  · intro op h
    rcases List.mem_append.1 h with h | h
    · exact hs op h
    · cases List.mem_singleton.1 h
      exact fun e => absurd e.symm hne

/-- C63: A change made in a new array (larger insertions, split, merge) that could not be saved has no effect. -/
theorem C63_fresh (owner : Str → Str) (store : Key → Option (List Element)) (ops : List Op) (k : Key)
    (spare spare' room : Nat) (f : List Element → List Element)
    (hown : ∀ op ∈ ops, ∀ k, keyOf op = some k → owner k.parent = k.set) (hk : owner k.parent = k.set)
    (hs : ∀ op ∈ ops, sound k op) :
    view true spare' (run true (start store) (ops ++ [.modify k spare (.fresh f room) false])) k =
      view true spare' (run true (start store) ops) k := by
  rw [C61_cached_partial owner store ops k spare' hown hk hs,
    C61_cached_partial owner store _ k spare' ?_ hk ?_, Saved.run, List.foldl_append]
  · rfl
  · intro op h
    rcases List.mem_append.1 h with h | h
    · exact hown op h
    · cases List.mem_singleton.1 h
      intro k2 e
      cases e
      exact hk
  · intro op h
    rcases List.mem_append.1 h with h | h
    · exact hs op h
    · cases List.mem_singleton.1 h
      exact fun _ => rfl

/-- C63, deleting: With a cache, a deletion that could not be saved leaves in the cache the elements that are kept,
followed by the last of the old elements, as many as were deleted. -/
theorem C63_failed_delete (owner : Str → Str) (store : Key → Option (List Element)) (ops : List Op) (k : Key)
    (spare spare' : Nat) (del : Nat → Bool) (l : List Element)
    (hown : ∀ op ∈ ops, ∀ k, keyOf op = some k → owner k.parent = k.set)
    (hl : view true spare (run true (start store) ops) k = some l) :
    let kept := l.filter fun e => !del e.id
    view true spare' (run true (start store) (ops ++ [.modify k spare (.delete del) false])) k =
      some (kept ++ l.drop kept.length) := by
  intro kept
  obtain ⟨m, s, ⟨hv1, hv2⟩, hr, -, hvw, -⟩ :=
    failed_view (spare' := spare') (c := .delete del) (reach_separate hown) hl
  rw [show run true (start store) (ops ++ [.modify k spare (.delete del) false]) =
    step true (run true (start store) ops) (.modify k spare (.delete del) false) by
      rw [run, List.foldl_append]; rfl, hvw]
  obtain ⟨-, -, r3, -⟩ := compact_spec (del := del) (a := s.arr) (fuel := s.len) (i := 0) (w := 0) (m := m)
    hv1 (by omega) (by omega)
  simp only [List.drop_zero, List.take_zero, List.nil_append, Nat.zero_add] at r3
  have hk : kept = ((cells m s.arr).take s.len).filter fun e => !del e.id := by
    rw [show (cells m s.arr).take s.len = l from hr]
  have hlen : l.length = s.len := by rw [← hr]; unfold Cache.read; rw [List.length_take]; omega
  have hle : kept.length ≤ s.len := hlen ▸ List.length_filter_le _ _
  have : read (change m s (.delete del)).1 s = ((cells (compact del s.arr s.len 0 0 m).1 s.arr)).take s.len := rfl
  rw [this, r3, ← hk, List.take_append, List.take_of_length_le hle, ← List.drop_take, ← hr]
  rfl

/-- C63, deleting: So if an element that is kept comes after one that is deleted, later reads return the elements
neither from before nor from after the deletion, and some element twice. -/
theorem C63_delete_neither (owner : Str → Str) (store : Key → Option (List Element)) (ops : List Op) (k : Key)
    (spare spare' : Nat) (del : Nat → Bool) (a b : List Element) (e f : Element)
    (hown : ∀ op ∈ ops, ∀ k, keyOf op = some k → owner k.parent = k.set)
    (hl : view true spare (run true (start store) ops) k = some (a ++ f :: b)) (hd : DistinctIDs (a ++ f :: b))
    (he : e ∈ a) (hde : del e.id = true) (hdf : del f.id = false) :
    ∃ r, view true spare' (run true (start store) (ops ++ [.modify k spare (.delete del) false])) k = some r ∧
      r ≠ a ++ f :: b ∧ r ≠ (a ++ f :: b).filter (fun e => !del e.id) ∧ ¬ DistinctIDs r := by
  have h := C63_failed_delete owner store ops k spare spare' del _ hown hl
  simp only [] at h
  refine ⟨_, h, ?_⟩
  generalize hL : a ++ f :: b = L at *
  generalize hK : L.filter (fun e => !del e.id) = K at *
  have heL : e ∈ L := by rw [← hL]; simp [he]
  have hfL : f ∈ L := by rw [← hL]; simp
  have hlt : K.length < L.length := by
    rw [← hK]
    rcases Nat.lt_or_ge (L.filter (fun e => !del e.id)).length L.length with h | h
    · exact h
    · have := List.length_filter_eq_length_iff.1 (Nat.le_antisymm (List.length_filter_le _ _) h) e heL
      rw [hde] at this; cases this
  have hnd : ¬ DistinctIDs (K ++ L.drop K.length) := by
    intro hnd
    unfold DistinctIDs at hnd
    rw [List.map_append, List.nodup_append] at hnd
    have hdel : ∀ x ∈ L.drop K.length, del x.id = true := by
      intro x hx
      cases hdx : del x.id with
      | true => rfl
      | false =>
        have hxK : x ∈ K := by
          rw [← hK]; exact List.mem_filter.2 ⟨List.mem_of_mem_drop hx, by rw [hdx]; rfl⟩
        exact absurd rfl (hnd.2.2 x.id (List.mem_map_of_mem hxK) x.id (List.mem_map_of_mem hx))
    -- the elements before are all kept
    have hsplit : K = (L.take K.length).filter (fun e => !del e.id) := by
      have h0 : (L.drop K.length).filter (fun e => !del e.id) = [] := by
        rw [List.filter_eq_nil_iff]
        intro x hx; rw [hdel x hx]; simp
      have := hK
      rw [← List.take_append_drop K.length L, List.filter_append, h0, List.append_nil] at this
      exact this.symm
    have hall : ∀ x ∈ L.take K.length, del x.id = false := by
      intro x hx
      have h1 : ((L.take K.length).filter (fun e => !del e.id)).length = (L.take K.length).length := by
        rw [← hsplit, List.length_take]; omega
      have := List.length_filter_eq_length_iff.1 h1 x hx
      simpa using this
    -- `f` is before the cut, so `e` is too
    have hcut : a.length < K.length := by
      rcases Nat.lt_or_ge a.length K.length with h | h
      · exact h
      · have : f ∈ L.drop K.length := by
          rw [← hL, List.drop_append_of_le_length h]; simp
        rw [hdel f this] at hdf; cases hdf
    have : e ∈ L.take K.length := by
      rw [← hL, List.take_append, List.take_of_length_le (by omega)]
      simp [he]
    rw [hall e this] at hde; cases hde
  refine ⟨fun e' => hnd (by rw [e']; exact hd), fun e' => ?_, hnd⟩
  have := congrArg List.length e'
  rw [List.length_append, List.length_drop] at this
  omega

/-- C63, updating in place: With a cache, a change in place that keeps the number of elements (new segments of index
elements) and that could not be saved is what later reads return. -/
theorem C63_failed_update (owner : Str → Str) (store : Key → Option (List Element)) (ops : List Op) (k : Key)
    (spare spare' : Nat) (f : List Element → List Element) (l : List Element)
    (hown : ∀ op ∈ ops, ∀ k, keyOf op = some k → owner k.parent = k.set)
    (hl : view true spare (run true (start store) ops) k = some l) (hf : (f l).length = l.length) :
    view true spare' (run true (start store) (ops ++ [.modify k spare (.inPlace f) false])) k = some (f l) := by
  obtain ⟨m, s, ⟨hv1, hv2⟩, hr, -, hvw, -⟩ :=
    failed_view (spare' := spare') (c := .inPlace f) (reach_separate hown) hl
  rw [show run true (start store) (ops ++ [.modify k spare (.inPlace f) false]) =
    step true (run true (start store) ops) (.modify k spare (.inPlace f) false) by
      rw [run, List.foldl_append]; rfl, hvw]
  have hlen : l.length = s.len := by rw [← hr]; unfold Cache.read; rw [List.length_take]; omega
  have : (change m s (.inPlace f)).1 = m.set s.arr (f l ++ (cells m s.arr).drop (f l).length) := by
    simp only [change, hr]
    rw [if_pos (by omega)]
  rw [this]
  unfold Cache.read
  rw [cells_set hv1, if_pos rfl, List.take_left' (by omega)]

/-- C63, inserting: With a cache, a small insertion that could not be saved leaves in the cache the first of the new
elements, as many as there were before, if there is room for the new elements; otherwise it has no effect. -/
theorem C63_failed_insert (store : Key → Option (List Element)) (k : Key) (spare spare' : Nat)
    (f : List Element → List Element) (l : List Element) (hl : store k = some l) (hf : l.length ≤ (f l).length) :
    view true spare' (run true (start store) [.modify k spare (.inPlace f) false]) k =
      some (if (f l).length ≤ l.length + spare then (f l).take l.length else l) := by
  have hload : load true spare (start store) k = ({ start store with mem := (alloc [] l spare).1 }.cacheAdd k
      (some (alloc [] l spare).2), some (alloc [] l spare).2) := by
    simp [load, start, hl]
  have hview : view true spare (run true (start store) []) k = some l := by
    simp only [run, List.foldl_nil, view, hload, Option.map_some]
    exact congrArg some (alloc_valid (m := [])).2
  obtain ⟨m, s, ⟨hv1, hv2⟩, hr, heq, hvw, -⟩ :=
    failed_view (spare' := spare') (c := .inPlace f) (reach_separate (owner := fun _ => []) (ops := []) (by simp)) hview
  obtain ⟨hm, hs⟩ := heq _ hload
  simp only [State.cacheAdd, Option.some.injEq] at hm hs
  have hvw' : view true spare' (run true (start store) [.modify k spare (.inPlace f) false]) k =
    some (read (change m s (.inPlace f)).1 s) := hvw
  rw [hvw']
  have hc : cells m s.arr = l ++ List.replicate spare default := by
    rw [← hm, ← hs]; simp [cells, alloc]
  have hlen : s.len = l.length := by rw [← hs]; rfl
  congr 1
  simp only [change, hr, hc, List.length_append, List.length_replicate]
  split
  · unfold Cache.read
    rw [cells_set hv1, if_pos rfl, hlen, List.take_append_of_le_length hf]
  · unfold Cache.read
    rw [cells_alloc, if_neg (by omega), hc, hlen, List.take_left' rfl]

/-- C63: The number of elements that the table of segments has is the new one, although nothing was saved. -/
theorem C63_failed_count (owner : Str → Str) (store : Key → Option (List Element)) (ops : List Op) (k : Key)
    (spare : Nat) (c : Change) (l : List Element)
    (hown : ∀ op ∈ ops, ∀ k, keyOf op = some k → owner k.parent = k.set)
    (hl : view true spare (run true (start store) ops) k = some l) :
    (run true (start store) (ops ++ [.modify k spare c false])).n k = (c.result l).length := by
  obtain ⟨m, s, -, -, -, -, hn⟩ := failed_view (spare' := 0) (c := c) (reach_separate hown) hl
  rw [show run true (start store) (ops ++ [.modify k spare c false]) =
    step true (run true (start store) ops) (.modify k spare c false) by
      rw [run, List.foldl_append]; rfl]
  exact hn

/-- Deleting the first of four elements, and saving fails: the last element is there twice, the deleted one is gone,
and the storage still has it. -/
example : view true 0 (run true (start exSaved) [.read (exKey [1] 1) 0]) (exKey [1] 1) =
      some ([⟨50, 1, [], 3, 7⟩, ⟨50, 2, [9], 0, 7⟩] ++ ⟨70, 3, [], 0, 7⟩ :: [⟨10, 4, [1, 2], 0, 8⟩]) ∧
    (view true 0 (run true (start exSaved) ([.read (exKey [1] 1) 0] ++
      [.modify (exKey [1] 1) 0 (.delete (· == 1)) false])) (exKey [1] 1)).map (·.map (·.id)) = some [2, 3, 4, 4] := by
  decide +kernel

/-- An insertion with room for the new element drops the last one. -/
example : (view true 0 (run true (start exSaved) [.modify (exKey [1] 1) 1 (.inPlace (exElems[5] :: ·)) false])
    (exKey [1] 1)).map (·.map (·.id)) = some [6, 1, 2, 3] := by decide +kernel

end Props
end RankDB

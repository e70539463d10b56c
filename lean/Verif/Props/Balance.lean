import Verif.Proofs.Balance
import Verif.Props.Maintenance
/-
Property C89: splitting and merging in the background keeps the segments of lists within the configured sizes.
Specification: `Verif/Spec/Balance.lean`.
-/
namespace RankDB.Props
open Spec Balance

theorem ready_of_ok {st : ListState} (h : ListOK st) (hm : st.mergeSize < st.splitSize) (hk : 2 ≤ st.splitSize) : Ready st := by
  refine ⟨h.scoresCount, h.indexCount, ?_, hm, hk⟩
  have : (allElems st.index.segs).map (·.score) = (allElems st.index.segs).map (·.id) :=
    List.map_congr_left h.link.byID
  rw [this]
  exact h.index.distinct

/-! ### C89 Sizes of segments -/

/-- Repeated runs of the splitter bring every well-formed list to the configured sizes: no segment of the index has
the split size, no score segment has it unless its lower half is tied, and no two neighbours of which the second is
below the split size have, together, at most the merge size. The number of runs needed is at most linear in the
number of elements and segments. -/
theorem C89_balances_partial (st : ListState) (h : ListOK st) (hm : st.mergeSize < st.splitSize) (hk : 2 ≤ st.splitSize)
    (times : List Nat)
    (ht : 4 * st.content.length + st.scores.segs.length + st.index.segs.length ≤ times.length) :
    Balanced st.mergeSize st.splitSize (passes times st).scores.segs ∧
    Balanced st.mergeSize st.splitSize (passes times st).index.segs ∧
    ∀ s ∈ (passes times st).index.segs, s.elems.length < st.splitSize := by
  have hr := ready_of_ok h hm hk
  have hlen : (allElems st.index.segs).length = st.content.length := by
    have h1 := h.link.complete.length_eq
    have h2 : (placement st.scores.segs).length = st.content.length := by
      unfold placement ListState.content allElems
      simp only [List.length_flatMap, List.length_map]
    rw [h2] at h1
    unfold indexed at h1
    rwa [List.length_map] at h1
  have hmeas : Balance.measure st ≤ times.length := by
    have a := total_le st.splitSize h.scoresCount
    have b := total_le st.splitSize h.indexCount
    rw [hlen] at b
    have c : (allElems st.scores.segs).length = st.content.length := rfl
    unfold Balance.measure
    omega
  obtain ⟨a, b⟩ := passes_balanced hr hmeas
  obtain ⟨r, -, e⟩ := passes_ready (times := times) hr
  refine ⟨a, b, fun s hs => ?_⟩
  rcases b.small s hs with x | x
  · exact x
  · apply Classical.byContradiction
    intro hge
    exact not_tied r.two r.index r.distinct s hs (by rw [e, r.index s hs]; omega) x

/-- A list with a segment of nine elements where four is the split size: 50 runs suffice, in fact two do. -/
example : ListOK exUneven ∧ exUneven.mergeSize < exUneven.splitSize ∧ 2 ≤ exUneven.splitSize ∧
    4 * exUneven.content.length + exUneven.scores.segs.length + exUneven.index.segs.length = 50 ∧
    exUneven.scores.segs.map (·.elems.length) = [1, 9, 1] ∧
    (passes (List.replicate 50 13) exUneven).scores.segs.map (·.elems.length) = [1, 3, 2, 2, 2, 1] ∧
    (passes (List.replicate 50 13) exUneven).index.segs.map (·.elems.length) = [2, 2, 2, 2, 1, 2] := by
  refine ⟨exUneven_ok, ?_⟩
  decide +kernel

/-- A run of the splitter on a list with the configured sizes changes nothing at all, also no segment is stored
again. -/
theorem C89_rest (st : ListState) (h : ListOK st) (hm : st.mergeSize < st.splitSize) (hk : 2 ≤ st.splitSize) (now : Nat)
    (hs : Balanced st.mergeSize st.splitSize st.scores.segs) (hi : Balanced st.mergeSize st.splitSize st.index.segs) :
    Lists.split now true st = st :=
  pass_balanced (ready_of_ok h hm hk) now hs hi

/-- When a split is requested: a segment is larger than the split size or two neighbours have less than the merge
size. -/
theorem C89_request (st : ListState) (h : ListOK st) : wantsSplit st = false ↔
    ∀ segs ∈ [st.scores.segs, st.index.segs], (∀ s ∈ segs, s.elems.length ≤ st.splitSize) ∧
      ∀ pre p q post, segs = pre ++ p :: q :: post → st.mergeSize ≤ p.elems.length + q.elems.length := by
  have key : ∀ {segs : List Seg}, Counted segs → (shouldSplit st.mergeSize st.splitSize segs = false ↔
      (∀ s ∈ segs, s.elems.length ≤ st.splitSize) ∧
      ∀ pre p q post, segs = pre ++ p :: q :: post → st.mergeSize ≤ p.elems.length + q.elems.length) := by
    intro segs hc
    rw [shouldSplit_false]
    constructor
    · rintro ⟨a, b⟩
      refine ⟨fun s hs => hc s hs ▸ a s hs, fun pre p q post he => ?_⟩
      have := b pre p q post he
      rwa [hc p (by simp [he]), hc q (by simp [he])] at this
    · rintro ⟨a, b⟩
      refine ⟨fun s hs => (hc s hs).symm ▸ a s hs, fun pre p q post he => ?_⟩
      rw [hc p (by simp [he]), hc q (by simp [he])]
      exact b pre p q post he
  unfold wantsSplit
  rw [Bool.or_eq_false_iff, key h.scoresCount, key h.indexCount]
  simp

/-- A list with the configured sizes and without segments full of ties requests no split. -/
theorem C89_quiet (st : ListState) (h : ListOK st) (hs : Balanced st.mergeSize st.splitSize st.scores.segs)
    (hi : Balanced st.mergeSize st.splitSize st.index.segs)
    (hn : ∀ segs ∈ [st.scores.segs, st.index.segs], ∀ s ∈ segs, s.elems.length < st.splitSize) :
    wantsSplit st = false := by
  rw [C89_request st h]
  intro segs hsegs
  refine ⟨fun s hx => by have := hn segs hsegs s hx; omega, ?_⟩
  intro pre p q post he
  have hq := hn segs hsegs q (by simp [he])
  simp only [List.mem_cons, List.not_mem_nil, or_false] at hsegs
  rcases hsegs with rfl | rfl
  · have := hs.paired pre p q post he hq; omega
  · have := hi.paired pre p q post he hq; omega

/-- The uneven list requests a split. -/
example : wantsSplit exUneven = true ∧ wantsSplit (passes (List.replicate 50 13) exUneven) = false := by decide +kernel

/-! #### The requests -/

/-- How often the splitter takes a list. -/
def takes (es : List Event) : Nat := es.countP fun | .take _ => true | .change _ _ => false

theorem queue_front : ∀ {es : List Event} {j : Job} {pre post : List Nat} {i : Nat}, j.queue = pre ++ i :: post →
    takes es = pre.length → ∃ rest, (run j es).queue = i :: rest
  | [], j, pre, post, i, hq, ht => by
    cases pre with
    | nil => exact ⟨post, hq⟩
    | cons a pre => cases ht
  | .change k st :: es, j, pre, post, i, hq, ht => by
    have : ∃ post', (step j (.change k st)).queue = pre ++ i :: post' := by
      simp only [step]
      split
      · exact ⟨post ++ [k], by rw [hq]; simp⟩
      · exact ⟨post, hq⟩
    obtain ⟨post', hq'⟩ := this
    exact queue_front (es := es) hq' ht
  | .take now :: es, j, pre, post, i, hq, ht => by
    cases pre with
    | nil => simp [takes] at ht
    | cons a pre =>
      refine queue_front (es := es) (pre := pre) (post := post) (j := step j (.take now)) ?_ ?_
      · unfold step
        simp only [hq, List.cons_append]
      · simpa [takes] using ht

/-- Requests are not lost in the queue and are served in order: whatever happens meanwhile, a list that waits behind
`pre` others is split after that many others were. -/
theorem C89_served (j : Job) (pre post : List Nat) (i : Nat) (hq : j.queue = pre ++ i :: post) (es : List Event)
    (ht : takes es = pre.length) (now : Nat) :
    (run j (es ++ [.take now])).lists[i]? = ((run j es).lists[i]?).map (Lists.split now true) := by
  obtain ⟨rest, h⟩ := queue_front hq ht
  unfold run at h ⊢
  rw [List.foldl_append, List.foldl_cons, List.foldl_nil]
  generalize List.foldl step j es = j' at h ⊢
  simp only [step, h]
  rw [List.getElem?_modify_eq]
  rfl

/-- Every change that leaves a list with sizes it wants corrected puts the list into the queue, if there is room, and
no other change does. -/
theorem C89_queued (j : Job) (i : Nat) (st : ListState) :
    (wantsSplit st = true → j.queue.length < 1000 → (step j (.change i st)).queue = j.queue ++ [i]) ∧
    (wantsSplit st = false → (step j (.change i st)).queue = j.queue) :=
  ⟨fun hw hroom => by simp [step, hw, hroom], fun hw => by simp [step, hw]⟩

/-- Two lists wait, the second one is changed meanwhile. -/
example : (run ⟨[exUneven, exList], [1]⟩ [.change 0 exUneven, .take 13, .take 14]).queue = [] ∧
    ((run ⟨[exUneven, exList], [1]⟩ [.change 0 exUneven, .take 13, .take 14]).lists.map
      fun st => st.scores.segs.map (·.elems.length)) = [[1, 5, 4, 1], [3, 2, 2, 2]] := by decide +kernel

/-! #### What does not hold -/

/-- One request is one run, which cuts segments in two at most, and the splitter does not check again: when all
requests are served lists are left that are far from the configured sizes, until the next change. Here one insertion
makes a segment of 16 where 4 is the split size; with no request left it has 8. -/
theorem C89_one_run :
    ¬ ∀ (st st' : ListState) (es : List Element) (now : Nat), ListOK st → st.mergeSize < st.splitSize → 2 ≤ st.splitSize →
      Lists.insert 12 .inOrder st es = some st' →
      let j := run ⟨[st], []⟩ [.change 0 st', .take now]
      j.queue = [] ∧ ∀ s ∈ j.lists, wantsSplit s = false := by
  intro h
  have := h exList ((Lists.insert 12 .inOrder exList ((List.range 12).map fun k => ⟨30 + k, 20 + k, [], 0, 7⟩)).getD default)
    ((List.range 12).map fun k => ⟨30 + k, 20 + k, [], 0, 7⟩) 13 exList_ok (by decide +kernel) (by decide +kernel)
    (by decide +kernel)
  revert this
  decide +kernel

/-- Elements with equal scores in the lower half of a segment. -/
def exTiedElems : List Element :=
  [⟨90, 1, [], 0, 7⟩, ⟨80, 2, [], 0, 7⟩, ⟨70, 3, [], 0, 7⟩, ⟨50, 4, [], 0, 7⟩, ⟨50, 5, [], 0, 7⟩, ⟨50, 6, [], 0, 7⟩,
   ⟨50, 7, [], 0, 7⟩]

/-- A list with one segment that holds them. -/
def exTiedList : ListState :=
  (Lists.insert 12 .inOrder ((Lists.populate 100 .inOrder .reversed id 2 4 []).getD default) exTiedElems).getD default

theorem exTied_ok : ListOK (passes [13, 14, 15] exTiedList) := (listOK_iff _).1 (by decide +kernel)

/-- A segment of which the lower half is tied is never cut, also not above the ties, however large it is and however
often the splitter runs; and since it is too large every later change requests a run that does nothing. -/
theorem C89_ties_stay :
    ¬ ∀ (st : ListState), ListOK st → st.mergeSize < st.splitSize → 2 ≤ st.splitSize → ∃ times : List Nat,
      ∀ s ∈ (passes times st).scores.segs, s.elems.length < st.splitSize ∨
        ∀ x ∈ s.elems, ∀ y ∈ s.elems, x.score = y.score ∧ x.tie = y.tie := by
  intro h
  have h1 : (passes [13, 14, 15] exTiedList).mergeSize < (passes [13, 14, 15] exTiedList).splitSize := by decide +kernel
  have h2 : 2 ≤ (passes [13, 14, 15] exTiedList).splitSize := by decide +kernel
  obtain ⟨times, ht⟩ := h _ exTied_ok h1 h2
  have hr := ready_of_ok exTied_ok h1 h2
  rw [passes_rest hr ((fine_balanced hr.scores).1 (by decide +kernel)) ((fine_balanced hr.index).1 (by decide +kernel))] at ht
  revert ht
  decide +kernel

/-- The list has one segment of seven elements and goes on to request splits. -/
example : (passes [13, 14, 15] exTiedList).scores.segs.map (·.elems.map (·.score)) = [[90, 80, 70, 50, 50, 50, 50]] ∧
    (passes [13, 14, 15] exTiedList).splitSize = 4 ∧ wantsSplit (passes [13, 14, 15] exTiedList) = true := by
  decide +kernel

/-- With a thousand requests waiting further ones are dropped, also when the waiting ones are all for the same other
list: the list is not split, no matter how long the splitter runs. -/
theorem C89_dropped :
    ¬ ∀ (j : Job) (i : Nat) (st : ListState), i < j.lists.length → wantsSplit st = true →
      ∃ times : List Nat, (run (step j (.change i st)) (times.map .take)).lists[i]? ≠ some st := by
  intro h
  obtain ⟨times, ht⟩ := h ⟨[exList, exList], List.replicate 1000 0⟩ 1 exUneven (by decide) (by decide +kernel)
  apply ht
  have key : ∀ (times : List Nat) (j : Job), (∀ i ∈ j.queue, i = 0) → j.lists[1]? = some exUneven →
      (run j (times.map .take)).lists[1]? = some exUneven := by
    intro times
    induction times with
    | nil => intro j _ hj; exact hj
    | cons t ts ih =>
      intro j hq hj
      refine ih (step j (.take t)) ?_ ?_
      · simp only [step]
        split
        · exact hq
        · rename_i k q hk
          intro i hi
          exact hq i (by rw [hk]; simp [show i ∈ q from hi])
      · simp only [step]
        split
        · exact hj
        · rename_i k q hk
          have : k = 0 := hq k (by rw [hk]; simp)
          subst this
          have hm : (j.lists.modify 0 (Lists.split t true))[1]? = j.lists[1]? := by
            rw [List.getElem?_modify]; simp
          exact hm.trans hj
  apply key
  · intro i hi
    simp only [step, List.length_replicate, Nat.lt_irrefl, decide_false, Bool.and_false] at hi
    exact (List.mem_replicate.1 hi).2
  · rfl

end RankDB.Props

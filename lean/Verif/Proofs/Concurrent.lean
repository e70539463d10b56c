import Verif.Model.Concurrent
import Verif.Proofs.Update
import Verif.Proofs.Query
import Verif.Proofs.Split
/-
What a lookup sees while updates are in progress.
-/
namespace RankDB.Concurrent
open Segments Spec Lists

/-- The list in effect. -/
def logical (w : World) : ListState :=
  match w.phase with
  | .storing u .. => u.next
  | _ => w.cur

/-- The same segments with other elements. -/
def Same (a b : ListState) : Prop := SameRanges a.scores.segs b.scores.segs ∧ SameRanges a.index.segs b.index.segs

theorem SameRange.symm' {a b : Seg} (h : SameRange a b) : SameRange b a := by
  unfold SameRange at *; grind

theorem sameRanges_symm {a b : List Seg} (h : SameRanges a b) : SameRanges b a := by
  induction h with
  | nil => exact .nil
  | cons h _ ih => exact .cons (SameRange.symm' h) ih

theorem Same.symm {a b : ListState} (h : Same a b) : Same b a := ⟨sameRanges_symm h.1, sameRanges_symm h.2⟩
theorem Same.refl (a : ListState) : Same a a := ⟨.refl _, .refl _⟩
theorem Same.trans {a b c : ListState} (h : Same a b) (h' : Same b c) : Same a c := ⟨h.1.trans h'.1, h.2.trans h'.2⟩

/-- What is known of an update of `cur`. -/
structure UpdateOK (cur : ListState) (u : Update) : Prop where
  ok : ListOK u.next
  same : Same u.next cur
  scores : ∀ j, j ∉ u.scr → u.next.scores.segs[j]? = cur.scores.segs[j]?
  index : ∀ j, j ∉ u.idx → u.next.index.segs[j]? = cur.index.segs[j]?

def PhaseOK (cur : ListState) : Phase → Prop
  | .idle => True
  | .locking u _ _ => UpdateOK cur u
  | .storing u _ cs _ => UpdateOK cur u ∧ ∀ i ∈ cs, i ∈ u.scr

structure WorldOK (w : World) : Prop where
  cur : ListOK w.cur
  phase : PhaseOK w.cur w.phase
  head : w.hist.head? = some (logical w)
  hist : ∀ st ∈ w.hist, ListOK st ∧ Same st w.cur

theorem update_ok {cur : ListState} (h : ListOK cur) {now : Nat} {es : List Element} (hf : Fine now es) (sch : Sched) :
    UpdateOK cur ⟨updateElements now sch cur es, loadedIndex cur es, loadedScores cur es⟩ := by
  obtain ⟨h1, -, -, -, h5, h6, -, -, h9, h10⟩ := updateElements_full (sch := sch) h hf.1 hf.2.1 hf.2.2
  exact ⟨h1, ⟨h5, h6⟩, h9, h10⟩

theorem elemsAt_congr {a b : List Seg} {i : Nat} (h : a[i]? = b[i]?) : elemsAt a i = elemsAt b i := by
  unfold elemsAt; rw [h]

/-- A segment that can be read has the elements of the list in effect. -/
theorem seeIndex_logical {w : World} (h : WorldOK w) {i : Nat} {l : List Element} (hl : seeIndex w i = some l) :
    l = elemsAt (logical w).index.segs i := by
  obtain ⟨cur, phase, hist⟩ := w
  have hp := h.phase
  cases phase with
  | idle => cases hl; rfl
  | locking u gi gs =>
    unfold seeIndex at hl
    dsimp only at hl
    split at hl
    · cases hl
    · cases hl; rfl
  | storing u oi cs os =>
    unfold seeIndex at hl
    dsimp only at hl
    split at hl
    · split at hl
      · cases hl; rfl
      · cases hl
    · cases hl
      exact (elemsAt_congr (hp.1.index i ‹_›)).symm

theorem seeScores_logical {w : World} (h : WorldOK w) {i : Nat} {l : List Element} (hl : seeScores w i = some l) :
    l = elemsAt (logical w).scores.segs i := by
  obtain ⟨cur, phase, hist⟩ := w
  have hp := h.phase
  cases phase with
  | idle => cases hl; rfl
  | locking u gi gs =>
    unfold seeScores at hl
    dsimp only at hl
    split at hl
    · cases hl
    · cases hl; rfl
  | storing u oi cs os =>
    unfold seeScores at hl
    dsimp only at hl
    split at hl
    · split at hl
      · cases hl; rfl
      · cases hl
    · cases hl
      exact (elemsAt_congr (hp.1.scores i ‹_›)).symm

theorem mapFrom_sameAt {f : Nat → Seg → Seg} : ∀ {l : List Seg} (k : Nat),
    (∀ i s, l[i]? = some s → SameRange (f (k + i) s) s) → SameRanges (mapFrom f k l) l
  | [], _, _ => .nil
  | s :: l, k, h => by
    unfold mapFrom
    refine .cons (by simpa using h 0 s rfl) (mapFrom_sameAt (k + 1) fun i t hi => ?_)
    have := h (i + 1) t (by simpa using hi)
    rwa [show k + 1 + i = k + (i + 1) by omega]

/-- The table has the ranges of the list. -/
theorem table_same {w : World} (h : WorldOK w) : SameRanges (table w) w.cur.scores.segs := by
  obtain ⟨cur, phase, hist⟩ := w
  have hp := h.phase
  cases phase with
  | idle => exact .refl _
  | locking => exact .refl _
  | storing u oi cs os =>
    refine mapFrom_sameAt 0 fun i s hi => ?_
    rw [Nat.zero_add]
    split
    · rcases sameRanges_getElem? hp.1.same.1 i with ⟨h1, _⟩ | ⟨a, b, h1, h2, h3⟩
      · rw [h1]; exact SameRange.refl _
      · rw [h1, Option.getD_some]
        have : cur.scores.segs[i]? = some s := hi
        rw [this] at h2
        cases h2
        exact h3
    · exact SameRange.refl _

theorem world_step {w w' : World} {k k' : Option Look} (h : WorldOK w) (hs : Step (w, k) (w', k')) : WorldOK w' := by
  obtain ⟨h1, h2, h3, h4⟩ := h
  cases hs with
  | begin now sch es hf => exact ⟨h1, update_ok h1 hf sch, h3, h4⟩
  | lockIndex => exact ⟨h1, h2, h3, h4⟩
  | lockScores => exact ⟨h1, h2, h3, h4⟩
  | change hi hs =>
    refine ⟨h1, ⟨h2, by simp⟩, rfl, fun st hst => ?_⟩
    rcases List.mem_cons.1 hst with rfl | hst
    · exact ⟨h2.ok, h2.same⟩
    · exact h4 st hst
  | storeIndex => exact ⟨h1, h2, h3, h4⟩
  | setCount i hi =>
    refine ⟨h1, ⟨h2.1, fun j hj => ?_⟩, h3, h4⟩
    rcases List.mem_cons.1 hj with rfl | hj
    · exact hi
    · exact h2.2 j hj
  | storeScores => exact ⟨h1, h2, h3, h4⟩
  | finish => exact ⟨h2.1.ok, trivial, h3, fun st hst => ⟨(h4 st hst).1, (h4 st hst).2.trans h2.1.same.symm⟩⟩
  | call ids =>
    refine ⟨h1, h2, ?_, fun st hst => h4 st (List.mem_of_mem_take hst)⟩
    dsimp only
    rw [List.head?_take, if_neg (by omega)]
    exact h3
  | readIndex => exact ⟨h1, h2, h3, h4⟩
  | offsets => exact ⟨h1, h2, h3, h4⟩
  | readScores => exact ⟨h1, h2, h3, h4⟩

/-! ### The lookup -/

theorem splitScoresLoop_same {a b : List Seg} (h : SameRanges a b) : ∀ (k : Nat) (l : List Nat),
    splitScoresLoop k a l = splitScoresLoop k b l := by
  induction h with
  | nil => intros; rfl
  | @cons s t a b hst _ ih =>
    intro k l
    have hmin : s.min = t.min := by unfold SameRange at hst; grind
    cases l with
    | nil => rfl
    | cons v l =>
      unfold splitScoresLoop
      rw [hmin, ih, ih]

theorem splitScores_same {a b : List Seg} (h : SameRanges a b) (l : List Nat) : splitScores a l = splitScores b l :=
  splitScoresLoop_same h _ _

theorem places_same {a b : List Seg} (h : SameRanges a b) (E : List Element) : places a E = places b E := by
  unfold places
  have : ∀ i, idsAt a E i = idsAt b E i := by
    intro i
    unfold idsAt
    congr 1
    apply List.filter_congr
    intro e _
    rw [sameRanges_segIndex h]
  rw [h.length]
  simp only [this]

/-- What was read, and from which of the lists in effect. -/
abbrev Reads := List ((Nat × List Nat) × ListState)

structure LookOK (w : World) (k : Look) : Prop where
  index : ∃ d : Reads, (d.map (·.1) ++ k.todo).Perm (splitScores w.cur.index.segs (uniq k.ids)) ∧
    (∀ x ∈ d, x.2 ∈ w.hist) ∧ k.got = d.flatMap fun x => Elements.firstWithScore (elemsAt x.2.index.segs x.1.1) x.1.2
  before : k.offs = none → k.res = []
  after : ∀ o t, k.offs = some (o, t) → k.todo = [] ∧
    ∃ d : Reads, (d.map (·.1) ++ k.rest).Perm (places w.cur.scores.segs k.found) ∧
      (∀ x ∈ d, x.2 ∈ w.hist) ∧
      k.res = d.flatMap fun x => findIn (elemsAt x.2.scores.segs x.1.1) (o.getD x.1.1 0) t x.1.2

/-- The update can go on without the lookup noticing. -/
theorem LookOK.mono {w w' : World} {k : Look} (h : LookOK w k) (hs : Same w'.cur w.cur)
    (hh : ∀ st ∈ w.hist, st ∈ w'.hist) : LookOK w' k := by
  obtain ⟨⟨d, h1, h2, h3⟩, hb, ha⟩ := h
  refine ⟨⟨d, ?_, fun x hx => hh _ (h2 x hx), h3⟩, hb, fun o t ho => ?_⟩
  · rw [splitScores_same hs.2]; exact h1
  · obtain ⟨ht, d, h1, h2, h3⟩ := ha o t ho
    refine ⟨ht, d, ?_, fun x hx => hh _ (h2 x hx), h3⟩
    rw [places_same hs.1]; exact h1

theorem logical_mem {w : World} (h : WorldOK w) : logical w ∈ w.hist := List.mem_of_head? h.head

theorem look_step {w w' : World} {k' : Look} {k : Option Look} (hw : WorldOK w) (h : ∀ x, k = some x → LookOK w x)
    (hs : Step (w, k) (w', some k')) : LookOK w' k' := by
  cases hs with
  | begin => exact (h _ rfl).mono (Same.refl _) fun _ h => h
  | lockIndex => exact (h _ rfl).mono (Same.refl _) fun _ h => h
  | lockScores => exact (h _ rfl).mono (Same.refl _) fun _ h => h
  | change => exact (h _ rfl).mono (Same.refl _) fun _ h => List.mem_cons_of_mem _ h
  | storeIndex => exact (h _ rfl).mono (Same.refl _) fun _ h => h
  | setCount => exact (h _ rfl).mono (Same.refl _) fun _ h => h
  | storeScores => exact (h _ rfl).mono (Same.refl _) fun _ h => h
  | finish => exact (h _ rfl).mono hw.phase.1.same fun _ h => h
  | call ids =>
    refine ⟨⟨[], .refl _, by simp, rfl⟩, fun _ => rfl, fun o t ho => by cases ho⟩
  | @readIndex _ k a b i ids l ht hl =>
    obtain ⟨⟨d, h1, h2, h3⟩, hb, ha⟩ := h _ rfl
    refine ⟨⟨d ++ [((i, ids), logical w)], ?_, ?_, ?_⟩, hb, fun o t ho => ?_⟩
    · rw [ht] at h1
      refine .trans ?_ h1
      dsimp only
      rw [List.map_append, List.append_assoc]
      refine .append_left _ ?_
      show ((i, ids) :: (a ++ b)).Perm _
      exact List.perm_middle.symm
    · intro x hx
      rcases List.mem_append.1 hx with hx | hx
      · exact h2 x hx
      · simp only [List.mem_singleton] at hx
        subst hx
        exact logical_mem hw
    · dsimp only
      rw [h3, List.flatMap_append, List.flatMap_singleton, seeIndex_logical hw hl]
    · have := (ha o t ho).1
      rw [ht] at this
      simp at this
  | @offsets _ k ht ho =>
    obtain ⟨hi, hb, ha⟩ := h _ rfl
    refine ⟨hi, by simp, fun o t h => ⟨ht, [], ?_, by simp, ?_⟩⟩
    · rw [List.map_nil, List.nil_append, ← places_same (table_same hw)]
      exact .refl _
    · exact hb ho
  | @readScores _ k a b i ids l offs total ho hr hl =>
    obtain ⟨hi, hb, ha⟩ := h _ rfl
    refine ⟨hi, fun h => (by rw [ho] at h; cases h), fun o t h => ?_⟩
    have hot : o = offs ∧ t = total := by
      have : k.offs = some (o, t) := h
      rw [ho] at this
      cases this
      exact ⟨rfl, rfl⟩
    obtain ⟨rfl, rfl⟩ := hot
    obtain ⟨ht, d, h1, h2, h3⟩ := ha o t ho
    refine ⟨ht, d ++ [((i, ids), logical w)], ?_, ?_, ?_⟩
    · rw [hr] at h1
      refine .trans ?_ h1
      dsimp only
      rw [List.map_append, List.append_assoc]
      refine .append_left _ ?_
      show ((i, ids) :: (a ++ b)).Perm _
      exact List.perm_middle.symm
    · intro x hx
      rcases List.mem_append.1 hx with hx | hx
      · exact h2 x hx
      · simp only [List.mem_singleton] at hx
        subst hx
        exact logical_mem hw
    · dsimp only
      rw [h3, List.flatMap_append, List.flatMap_singleton, seeScores_logical hw hl]

theorem run_ok {x y : World × Option Look} (hr : Run x y) (hw : WorldOK x.1) (hk : ∀ k, x.2 = some k → LookOK x.1 k) :
    WorldOK y.1 ∧ ∀ k, y.2 = some k → LookOK y.1 k := by
  induction hr with
  | refl => exact ⟨hw, hk⟩
  | @step y z _ hs ih =>
    obtain ⟨h1, h2⟩ := ih
    refine ⟨world_step h1 hs, fun k hz => ?_⟩
    obtain ⟨z1, z2⟩ := z
    cases hz
    exact look_step h1 h2 hs

/-! ### What it has found -/

theorem elemsAt_mem {segs : List Seg} {i : Nat} {e : Element} (h : e ∈ elemsAt segs i) :
    ∃ s, segs[i]? = some s ∧ e ∈ s.elems := by
  unfold elemsAt at h
  cases hs : segs[i]? with
  | none => rw [hs] at h; cases h
  | some s => rw [hs] at h; exact ⟨s, rfl, h⟩

/-- Two lists with the same ranges have an index element in the same position. -/
theorem index_position {a b : ListState} (ha : ListOK a) (hb : ListOK b) (hs : Same a b) {i j : Nat} {x y : Element}
    (hx : x ∈ elemsAt a.index.segs i) (hy : y ∈ elemsAt b.index.segs j) (hid : x.id = y.id) : i = j := by
  obtain ⟨s, h1, h2⟩ := elemsAt_mem hx
  obtain ⟨t, h3, h4⟩ := elemsAt_mem hy
  rcases sameRanges_getElem? hs.2 i with ⟨h, _⟩ | ⟨s', s2, h5, h6, h7⟩
  · rw [h] at h1; cases h1
  rw [h1] at h5
  cases h5
  have hs1 : s ∈ a.index.segs := List.mem_of_getElem? h1
  have hs2 : s2 ∈ b.index.segs := List.mem_of_getElem? h6
  have ht1 : t ∈ b.index.segs := List.mem_of_getElem? h3
  have hxI : x ∈ allElems a.index.segs := mem_allElems.2 ⟨s, hs1, h2⟩
  have hyI : y ∈ allElems b.index.segs := mem_allElems.2 ⟨t, ht1, h4⟩
  have hr := (inRange_aligned (ha.link.aligned s hs1) (ha.index.storable x hxI).tie).1 (ha.index.inRange s hs1 x h2)
  have hr2 : InRange s2 y := by
    rw [inRange_aligned (hb.link.aligned s2 hs2) (hb.index.storable y hyI).tie]
    rw [hb.link.byID y hyI, ← hid, ← ha.link.byID x hxI]
    unfold SameRange at h7
    grind
  have := tiles_unique hb.index.tiles hs2 ht1 hr2 (hb.index.inRange t ht1 y h4)
  subst this
  exact getElem?_unique hb.index h6 h3 rfl

structure Done (w : World) (k : Look) : Prop where
  ids : DistinctIDs k.found
  sound : ∀ x ∈ k.found, x.id ∈ k.ids ∧ ∃ st ∈ w.hist, x ∈ allElems st.index.segs
  complete : ∀ id ∈ k.ids, ∃ st ∈ w.hist, ∀ x ∈ allElems st.index.segs, x.id = id → x ∈ k.found

theorem splitScores_pos {segs : List Seg} {l : List Nat} (ht : Tiles top segs)
    (ha : ∀ s ∈ segs, s.minTie = 0 ∧ s.maxTie = 2 ^ 32 - 1) (hl : ∀ v ∈ l, v < 2 ^ 64) :
    (splitScores segs l).Pairwise (fun a b => a.1 ≠ b.1) := by
  rw [splitScores_eq ht ha hl, List.pairwise_filterMap]
  have : segs.zipIdx.Pairwise (fun a b => a.2 ≠ b.2) := by
    rw [List.pairwise_iff_getElem]
    intro i j hi hj hij
    simp only [List.getElem_zipIdx]
    omega
  refine this.imp fun {a b} hab x hx y hy => ?_
  split at hx
  · cases hx
  split at hy
  · cases hy
  cases hx
  cases hy
  exact hab

theorem look_done {w : World} {k : Look} (hw : WorldOK w) (hk : LookOK w k) (ht : k.todo = [])
    (hid : ∀ v ∈ k.ids, v < 2 ^ 64) : Done w k := by
  obtain ⟨d, h1, h2, h3⟩ := hk.index
  rw [ht, List.append_nil] at h1
  have hu : ∀ v ∈ uniq k.ids, v < 2 ^ 64 := fun v hv => hid v (mem_uniq.1 hv)
  have hsp := splitScores_pos hw.cur.index.tiles hw.cur.link.aligned hu
  have hmem : ∀ x ∈ k.got, ∃ y ∈ d, x ∈ Elements.firstWithScore (elemsAt y.2.index.segs y.1.1) y.1.2 := by
    intro x hx
    rw [h3] at hx
    exact List.mem_flatMap.1 hx
  have hsub : ∀ (y : (Nat × List Nat) × ListState) x, x ∈ Elements.firstWithScore (elemsAt y.2.index.segs y.1.1) y.1.2 →
      x ∈ elemsAt y.2.index.segs y.1.1 := fun y x hx => (Elements.firstWithScore_sublist _ _).subset hx
  have hall : ∀ (y : (Nat × List Nat) × ListState) x, x ∈ elemsAt y.2.index.segs y.1.1 → x ∈ allElems y.2.index.segs := by
    intro y x hx
    obtain ⟨s, h1, h2⟩ := elemsAt_mem hx
    exact mem_allElems.2 ⟨s, List.mem_of_getElem? h1, h2⟩
  refine ⟨?_, ?_, ?_⟩
  · have hgot : DistinctIDs k.got := by
      unfold DistinctIDs List.Nodup
      rw [h3, List.map_flatMap, List.pairwise_flatMap]
      constructor
      · intro y hy
        have hok := (hw.hist _ (h2 y hy)).1
        refine List.Sublist.nodup ((Elements.firstWithScore_sublist _ _).map _) ?_
        unfold elemsAt
        cases hs : y.2.index.segs[y.1.1]? with
        | none => exact .nil
        | some s => exact distinct_seg hok.index (List.mem_of_getElem? hs)
      · have hpos : (d.map (·.1)).Pairwise (fun a b => a.1 ≠ b.1) :=
          (List.Perm.pairwise_iff (fun h => fun h' => h h'.symm) h1).2 hsp
        rw [List.pairwise_map] at hpos
        refine hpos.imp_of_mem fun {a b} ha hb hab u hu v hv huv => ?_
        obtain ⟨x, hx, rfl⟩ := List.mem_map.1 hu
        obtain ⟨y, hy, rfl⟩ := List.mem_map.1 hv
        have hoa := hw.hist _ (h2 a ha)
        have hob := hw.hist _ (h2 b hb)
        exact hab (index_position hoa.1 hob.1 (hoa.2.trans hob.2.symm) (hsub a x hx) (hsub b y hy) huv)
    exact List.Sublist.nodup (List.filter_sublist.map _) hgot
  · intro x hx
    obtain ⟨hx1, hx2⟩ := List.mem_filter.1 hx
    obtain ⟨y, hy, hxy⟩ := hmem x hx1
    have hxa := hall y x (hsub y x hxy)
    refine ⟨?_, y.2, h2 y hy, hxa⟩
    rw [List.contains_iff_mem, mem_uniq, (hw.hist _ (h2 y hy)).1.link.byID x hxa] at hx2
    exact hx2
  · intro id hin
    have hin' : id ∈ ElementIDs.sort (uniq k.ids) := (ElementIDs.sort_perm _).mem_iff.2 (mem_uniq.2 hin)
    rw [← splitScores_flatten hw.cur.index.tiles hw.cur.link.aligned hu] at hin'
    obtain ⟨p, hp, hidp⟩ := List.mem_flatMap.1 hin'
    obtain ⟨y, hy, rfl⟩ := List.mem_map.1 (h1.mem_iff.2 hp)
    refine ⟨y.2, h2 y hy, fun x hx hxid => ?_⟩
    have hok := (hw.hist _ (h2 y hy)).1
    have hsm := (hw.hist _ (h2 y hy)).2
    have hp' := hp
    rw [splitScores_eq hw.cur.index.tiles hw.cur.link.aligned hu, List.mem_filterMap] at hp'
    obtain ⟨⟨s0, i⟩, hs0, heq⟩ := hp'
    split at heq
    · cases heq
    have e1 : y.1.1 = i := by cases h : y.1; rw [h] at heq; cases heq; rfl
    have e2 : y.1.2 = selScores s0 (ElementIDs.sort (uniq k.ids)) := by cases h : y.1; rw [h] at heq; cases heq; rfl
    have hs0' := (elemsAt_zipIdx hs0).1
    rcases sameRanges_getElem? hsm.2 i with ⟨_, h⟩ | ⟨s, t, h5, h6, h7⟩
    · rw [h] at hs0'; cases hs0'
    rw [hs0'] at h6
    cases h6
    -- the element is in that segment
    obtain ⟨s2, hs2, hx2⟩ := mem_allElems.1 hx
    have hsm1 : s ∈ y.2.index.segs := List.mem_of_getElem? h5
    rw [e2, mem_selScores] at hidp
    have hr : InRange s x := by
      rw [inRange_aligned (hok.link.aligned s hsm1) (hok.index.storable x hx).tie, hok.link.byID x hx, hxid]
      have := hidp.2
      unfold SameRange at h7
      grind
    have := tiles_unique hok.index.tiles hsm1 hs2 hr (hok.index.inRange s2 hs2 x hx2)
    subst this
    have hel : elemsAt y.2.index.segs y.1.1 = s.elems := by unfold elemsAt; rw [e1, h5]; rfl
    refine List.mem_filter.2 ⟨?_, ?_⟩
    · rw [h3]
      refine List.mem_flatMap.2 ⟨y, hy, ?_⟩
      rw [hel]
      refine ((firstWithScore_index hok.isIndex hsm1 ?_).1 ⟨hx2, ?_⟩).1
      · rw [e2]; exact (ElementIDs.sort_sorted _).filter _
      · rw [e2, mem_selScores, hxid]; exact hidp
    · rw [List.contains_iff_mem, mem_uniq, hok.link.byID x hx, hxid]
      exact hin

theorem mem_places {segs : List Seg} {E : List Element} {i : Nat} {ids : List Nat} :
    (i, ids) ∈ places segs E ↔ i < segs.length ∧ ids = idsAt segs E i ∧ ids ≠ [] := by
  unfold places
  rw [List.mem_filterMap]
  constructor
  · rintro ⟨j, hj, h⟩
    split at h
    · cases h
    · cases h
      rename_i hne
      exact ⟨List.mem_range.1 hj, rfl, by simpa using hne⟩
  · rintro ⟨h1, rfl, h3⟩
    refine ⟨i, List.mem_range.2 h1, ?_⟩
    rw [if_neg (by simpa using h3)]

theorem places_pos (segs : List Seg) (E : List Element) : (places segs E).Pairwise (fun a b => a.1 ≠ b.1) := by
  unfold places
  rw [List.pairwise_filterMap]
  refine List.nodup_range.imp fun {a b} hab x hx y hy => ?_
  split at hx
  · cases hx
  split at hy
  · cases hy
  cases hx
  cases hy
  exact hab

theorem mem_findIn {l : List Element} {off total : Nat} {ids : List Nat} {r : Ranked} (h : r ∈ findIn l off total ids) :
    r.elem ∈ l ∧ r.elem.id ∈ ids := by
  unfold findIn at h
  obtain ⟨id, hid, h⟩ := List.mem_filterMap.1 h
  cases hf : Elements.findIdx l id with
  | none => rw [hf] at h; cases h
  | some i =>
    rw [hf] at h
    obtain ⟨e, he, hei⟩ := Elements.findIdx_some hf
    cases h
    have : l.getD i default = e := by rw [List.getD_eq_getElem?_getD, he]; rfl
    dsimp only [calculateFromBottom]
    rw [this]
    exact ⟨List.mem_of_getElem? he, by rw [hei]; exact hid⟩

theorem findIn_ids {l : List Element} {off total : Nat} {ids : List Nat} :
    ((findIn l off total ids).map (·.elem.id)).Sublist ids := by
  induction ids with
  | nil => exact .slnil
  | cons id ids ih =>
    unfold findIn at ih ⊢
    rw [List.filterMap_cons]
    cases hf : Elements.findIdx l id with
    | none => exact .cons _ ih
    | some i =>
      obtain ⟨e, he, hei⟩ := Elements.findIdx_some hf
      have : l.getD i default = e := by rw [List.getD_eq_getElem?_getD, he]; rfl
      dsimp only [Option.map_some, calculateFromBottom]
      rw [List.map_cons, this, hei]
      exact .cons_cons _ ih

theorem findIn_complete {l : List Element} {off total : Nat} {ids : List Nat} {e : Element} (he : e ∈ l)
    (hid : e.id ∈ ids) : ∃ r ∈ findIn l off total ids, r.elem.id = e.id := by
  obtain ⟨i, hi⟩ := Option.isSome_iff_exists.1 (Elements.findIdx_isSome_iff.2 ⟨e, he, rfl⟩)
  obtain ⟨x, hx, hxi⟩ := Elements.findIdx_some hi
  have : l.getD i default = x := by rw [List.getD_eq_getElem?_getD, hx]; rfl
  refine ⟨_, List.mem_filterMap.2 ⟨e.id, hid, by rw [hi]; rfl⟩, ?_⟩
  dsimp only [calculateFromBottom]
  rw [this, hxi]

theorem mem_idsAt {segs : List Seg} {E : List Element} {i id : Nat} :
    id ∈ idsAt segs E i ↔ ∃ x ∈ E, x.id = id ∧ segIndex x.tie segs 0 0 = i := by
  unfold idsAt
  simp only [List.mem_map, List.mem_filter, beq_iff_eq]
  constructor
  · rintro ⟨x, ⟨h1, h2⟩, h3⟩; exact ⟨x, h1, h3, h2⟩
  · rintro ⟨x, h1, h2, h3⟩; exact ⟨x, ⟨h1, h3⟩, h2⟩

theorem mem_placement {segs : List Seg} {id s : Nat} :
    (id, s) ∈ placement segs ↔ ∃ g ∈ segs, g.id = s ∧ ∃ e ∈ g.elems, e.id = id := by
  unfold placement
  rw [List.mem_flatMap]
  constructor
  · rintro ⟨g, hg, h⟩
    obtain ⟨e, he, h⟩ := List.mem_map.1 h
    cases h
    exact ⟨g, hg, rfl, e, he, rfl⟩
  · rintro ⟨g, hg, rfl, e, he, rfl⟩
    exact ⟨g, hg, List.mem_map.2 ⟨e, he, rfl⟩⟩

/-- The lookup has returned. -/
theorem look_result {w : World} {k : Look} (hw : WorldOK w) (hk : LookOK w k) (hr : k.Returned)
    (hid : ∀ v ∈ k.ids, v < 2 ^ 64) :
    (k.res.map (·.elem.id)).Nodup ∧
    (∀ r ∈ k.res, r.elem.id ∈ k.ids ∧ ∃ st ∈ w.hist, r.elem ∈ st.content) ∧
    ∀ id ∈ k.ids, ∀ s, (∀ st ∈ w.hist, (id, s) ∈ placement st.scores.segs) → ∃ r ∈ k.res, r.elem.id = id := by
  have hd := look_done hw hk hr.1 hid
  obtain ⟨⟨o, t⟩, ho⟩ := Option.isSome_iff_exists.1 hr.2.1
  obtain ⟨-, d, h1, h2, h3⟩ := hk.after o t ho
  rw [hr.2.2, List.append_nil] at h1
  have hpl : ∀ x ∈ d, x.1.1 < w.cur.scores.segs.length ∧ x.1.2 = idsAt w.cur.scores.segs k.found x.1.1 := by
    intro x hx
    have := mem_places.1 (h1.mem_iff.1 (List.mem_map.2 ⟨x, hx, rfl⟩))
    exact ⟨this.1, this.2.1⟩
  refine ⟨?_, ?_, ?_⟩
  · unfold List.Nodup
    rw [h3, List.map_flatMap, List.pairwise_flatMap]
    constructor
    · intro x hx
      refine List.Sublist.nodup findIn_ids ?_
      rw [(hpl x hx).2]
      unfold idsAt
      exact List.Sublist.nodup (List.filter_sublist.map _) hd.ids
    · have hpos : (d.map (·.1)).Pairwise (fun a b => a.1 ≠ b.1) :=
        (List.Perm.pairwise_iff (fun h => fun h' => h h'.symm) h1).2 (places_pos _ _)
      rw [List.pairwise_map] at hpos
      refine hpos.imp_of_mem fun {a b} ha hb hab u hu v hv huv => ?_
      obtain ⟨x, hx, rfl⟩ := List.mem_map.1 hu
      obtain ⟨y, hy, rfl⟩ := List.mem_map.1 hv
      have hx' := (mem_findIn hx).2
      have hy' := (mem_findIn hy).2
      rw [(hpl a ha).2] at hx'
      rw [(hpl b hb).2] at hy'
      obtain ⟨p, hp, p1, p2⟩ := mem_idsAt.1 hx'
      obtain ⟨q, hq, q1, q2⟩ := mem_idsAt.1 hy'
      have := hd.ids.eq_of_id hp hq (by rw [p1, q1, huv])
      subst this
      exact hab (by rw [← p2, q2])
  · intro r hr
    rw [h3] at hr
    obtain ⟨x, hx, hr⟩ := List.mem_flatMap.1 hr
    obtain ⟨r1, r2⟩ := mem_findIn hr
    rw [(hpl x hx).2] at r2
    obtain ⟨p, hp, p1, -⟩ := mem_idsAt.1 r2
    refine ⟨by rw [← p1]; exact (hd.sound p hp).1, x.2, h2 x hx, ?_⟩
    obtain ⟨s, hs1, hs2⟩ := elemsAt_mem r1
    exact mem_allElems.2 ⟨s, List.mem_of_getElem? hs1, hs2⟩
  · intro id hin s hall
    obtain ⟨st, hst, hcomp⟩ := hd.complete id hin
    have hok := (hw.hist st hst).1
    have hsm := (hw.hist st hst).2
    have hpm := hok.link.complete.mem_iff.2 (hall st hst)
    unfold indexed at hpm
    obtain ⟨x, hx, hxe⟩ := List.mem_map.1 hpm
    simp only [Prod.mk.injEq] at hxe
    have hxf := hcomp x hx hxe.1
    -- the segment of the element
    obtain ⟨g, hg, hgs, -⟩ := mem_placement.1 (hall st hst)
    obtain ⟨i, hi⟩ := List.mem_iff_getElem?.1 hg
    have hseg : segIndex x.tie st.scores.segs 0 0 = i :=
      (segIndex_eq_iff hok.scores.segIDs (List.mem_map.2 ⟨g, hg, by rw [hgs, hxe.2]⟩) hi).2 (by rw [hgs, hxe.2])
    rw [sameRanges_segIndex hsm.1] at hseg
    have hin' : id ∈ idsAt w.cur.scores.segs k.found i := mem_idsAt.2 ⟨x, hxf, hxe.1, hseg⟩
    have hlen : i < w.cur.scores.segs.length := by
      rw [← hsm.1.length]; exact (List.getElem?_eq_some_iff.1 hi).1
    have hpm2 : (i, idsAt w.cur.scores.segs k.found i) ∈ places w.cur.scores.segs k.found :=
      mem_places.2 ⟨hlen, rfl, fun h => by rw [h] at hin'; cases hin'⟩
    obtain ⟨y, hy, hye⟩ := List.mem_map.1 (h1.mem_iff.2 hpm2)
    have e1 : y.1.1 = i := by rw [hye]
    have e2 : y.1.2 = idsAt w.cur.scores.segs k.found i := by rw [hye]
    -- there it is still
    have hok2 := (hw.hist y.2 (h2 y hy)).1
    have hsm2 := (hw.hist y.2 (h2 y hy)).2
    obtain ⟨g2, hg2, hgs2, e, he, hei⟩ := mem_placement.1 (hall y.2 (h2 y hy))
    obtain ⟨j, hj⟩ := List.mem_iff_getElem?.1 hg2
    have hseg2 : segIndex x.tie y.2.scores.segs 0 0 = j :=
      (segIndex_eq_iff hok2.scores.segIDs (List.mem_map.2 ⟨g2, hg2, by rw [hgs2, hxe.2]⟩) hj).2 (by rw [hgs2, hxe.2])
    rw [sameRanges_segIndex hsm2.1, hseg] at hseg2
    subst hseg2
    have hel : e ∈ elemsAt y.2.scores.segs y.1.1 := by
      unfold elemsAt; rw [e1, hj]; exact he
    obtain ⟨r, hr1, hr2⟩ := findIn_complete (off := o.getD y.1.1 0) (total := t) (ids := y.1.2) hel (by rw [e2, hei]; exact hin')
    refine ⟨r, ?_, by rw [hr2, hei]⟩
    rw [h3]
    exact List.mem_flatMap.2 ⟨y, hy, hr1⟩

/-! ### No change meanwhile -/

/-- As long as the list has not changed, the offsets are those of the list. -/
structure Quiet (st : ListState) (w : World) (k : Look) : Prop where
  hist : ∃ l, w.hist = l ++ [st]
  cur : w.hist = [st] → w.cur = st
  phase : w.hist = [st] → ∀ u a b c, w.phase ≠ .storing u a b c
  offs : w.hist = [st] → ∀ o t, k.offs = some (o, t) → o = topOffsets st.scores.segs 0 ∧ t = count st.scores.segs

theorem quiet_step {st : ListState} {w w' : World} {k k' : Look} (h : Quiet st w k) (hs : Step (w, some k) (w', some k')) :
    Quiet st w' k' := by
  obtain ⟨⟨l, h1⟩, h2, h3, h4⟩ := h
  cases hs with
  | begin => exact ⟨⟨l, h1⟩, h2, fun _ _ _ _ _ => nofun, h4⟩
  | lockIndex => exact ⟨⟨l, h1⟩, h2, fun _ _ _ _ _ => nofun, h4⟩
  | lockScores => exact ⟨⟨l, h1⟩, h2, fun _ _ _ _ _ => nofun, h4⟩
  | @change cur hist _ u gi gs =>
    have hne : u.next :: hist ≠ [st] := by
      have : hist = l ++ [st] := h1
      rw [this]
      intro h
      have := congrArg List.length h
      simp at this
    refine ⟨⟨u.next :: l, ?_⟩, fun h => absurd h hne, fun h => absurd h hne, fun h => absurd h hne⟩
    have : hist = l ++ [st] := h1
    rw [this]; rfl
  | storeIndex => exact ⟨⟨l, h1⟩, h2, fun h => absurd rfl (h3 h _ _ _ _), h4⟩
  | setCount => exact ⟨⟨l, h1⟩, h2, fun h => absurd rfl (h3 h _ _ _ _), h4⟩
  | storeScores => exact ⟨⟨l, h1⟩, h2, fun h => absurd rfl (h3 h _ _ _ _), h4⟩
  | finish => exact ⟨⟨l, h1⟩, fun h => absurd rfl (h3 h _ _ _ _), fun _ _ _ _ _ => nofun, h4⟩
  | readIndex => exact ⟨⟨l, h1⟩, h2, h3, h4⟩
  | @offsets _ k ht ho =>
    refine ⟨⟨l, h1⟩, h2, h3, fun h o t hot => ?_⟩
    have htab : table w = st.scores.segs := by
      rw [← h2 h]
      unfold table
      split
      · exact absurd ‹_› (h3 h _ _ _ _)
      · rfl
    dsimp only at hot
    rw [htab] at hot
    cases hot
    exact ⟨rfl, rfl⟩
  | readScores => exact ⟨⟨l, h1⟩, h2, h3, h4⟩

theorem step_look {x y : World × Option Look} (hs : Step x y) (h : x.2.isSome) : y.2.isSome := by
  cases hs <;> first | rfl | exact h

theorem run_quiet {st : ListState} {x y : World × Option Look} (hr : Run x y) (hx : x.2.isSome)
    (hq : ∀ k, x.2 = some k → Quiet st x.1 k) : y.2.isSome ∧ ∀ k, y.2 = some k → Quiet st y.1 k := by
  induction hr with
  | refl => exact ⟨hx, hq⟩
  | @step y z _ hs ih =>
    obtain ⟨h1, h2⟩ := ih
    refine ⟨step_look hs h1, fun k hz => ?_⟩
    obtain ⟨z1, z2⟩ := z
    obtain ⟨y1, y2⟩ := y
    cases hz
    obtain ⟨k0, hk0⟩ := Option.isSome_iff_exists.1 h1
    cases hk0
    exact quiet_step (h2 k0 rfl) hs

theorem findIn_ok {segs : List Seg} (h : SegsOK segs) (hc : Counted segs) {i : Nat} {ids : List Nat} {r : Ranked}
    (hr : r ∈ findIn (elemsAt segs i) ((topOffsets segs 0).getD i 0) (count segs) ids) :
    ResultOK (allElems segs) 0 r := by
  unfold findIn at hr
  obtain ⟨id, hid, hr⟩ := List.mem_filterMap.1 hr
  cases hf : Elements.findIdx (elemsAt segs i) id with
  | none => rw [hf] at hr; cases hr
  | some j =>
    rw [hf] at hr
    obtain ⟨e, he, hei⟩ := Elements.findIdx_some hf
    obtain ⟨s, hs, -⟩ := elemsAt_mem (List.mem_of_getElem? he)
    have hes : elemsAt segs i = s.elems := by unfold elemsAt; rw [hs]; rfl
    rw [hes] at he hf hr
    obtain ⟨r', h1, h2, h3⟩ := findRanked_ok h hc hs he 0
    rw [findRanked_spec h.distinct hs he] at h1
    have hg : s.elems.getD j default = e := by rw [List.getD_eq_getElem?_getD, he]; rfl
    rw [Option.map_some, hg] at hr
    rw [Option.map_some, List.take_zero, List.take_zero] at h1
    rw [Option.some.injEq] at h1 hr
    rw [← hr, h1]
    exact h3

end RankDB.Concurrent

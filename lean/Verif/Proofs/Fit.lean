import Verif.Proofs.DiskSplit
/-
What every segment and every element of a list keeps under all operations: times that are set and sizes that can be
stored.
-/
namespace RankDB
open Spec

/-- Every segment has a time with `P`, and elements with `Q`. -/
def Each (P : Nat → Prop) (Q : Element → Prop) (segs : List Seg) : Prop := ∀ g ∈ segs, P g.updated ∧ ∀ e ∈ g.elems, Q e

/-- What operations at the time `now` make of times and elements. -/
structure Closed (now : Nat) (P : Nat → Prop) (Q : Element → Prop) : Prop where
  time : P now
  asIndex : ∀ e s, Q e → Q (e.asIndex s)
  touch : ∀ e, Q e → Q (Elements.touch now e)
  retie : ∀ (e : Element) t, Q e → Q { e with tie := t % 2 ^ 32, updated := now }

variable {now : Nat} {P : Nat → Prop} {Q : Element → Prop}

theorem Each.nil : Each P Q [] := fun _ h => by simp at h

theorem Each.cons {g : Seg} {segs : List Seg} (h : P g.updated ∧ ∀ e ∈ g.elems, Q e) (hs : Each P Q segs) : Each P Q (g :: segs) := by
  intro x hx
  rcases List.mem_cons.1 hx with rfl | hx
  · exact h
  · exact hs x hx

theorem Each.head {g : Seg} {segs : List Seg} (h : Each P Q (g :: segs)) : P g.updated ∧ ∀ e ∈ g.elems, Q e := h g (by simp)
theorem Each.tail {g : Seg} {segs : List Seg} (h : Each P Q (g :: segs)) : Each P Q segs := fun x hx => h x (by simp [hx])

theorem Each.append {a b : List Seg} (ha : Each P Q a) (hb : Each P Q b) : Each P Q (a ++ b) := by
  intro x hx
  rcases List.mem_append.1 hx with h | h
  · exact ha x h
  · exact hb x h

theorem Each.all {segs : List Seg} (h : Each P Q segs) : ∀ e ∈ allElems segs, Q e := by
  intro e he
  obtain ⟨s, hs, hes⟩ := mem_allElems.1 he
  exact (h s hs).2 e hes

theorem each_mapFrom {f : Nat → Seg → Seg} (hf : ∀ i g, (P g.updated ∧ ∀ e ∈ g.elems, Q e) → P (f i g).updated ∧ ∀ e ∈ (f i g).elems, Q e) :
    ∀ (k : Nat) (segs : List Seg), Each P Q segs → Each P Q (mapFrom f k segs)
  | _, [], _ => .nil
  | k, _ :: ss, h => .cons (hf k _ h.head) (each_mapFrom hf (k + 1) ss h.tail)

theorem each_modifyAt {f : Seg → Seg} (hf : ∀ g, (P g.updated ∧ ∀ e ∈ g.elems, Q e) → P (f g).updated ∧ ∀ e ∈ (f g).elems, Q e) :
    ∀ (i : Nat) (segs : List Seg), Each P Q segs → Each P Q (modifyAt f i segs)
  | _, [], _ => by unfold modifyAt; exact .nil
  | 0, _ :: _, h => .cons (hf _ h.head) h.tail
  | i + 1, _ :: ss, h => .cons h.head (each_modifyAt hf i ss h.tail)

/-! ### Insert -/

theorem each_insertLoop (hp : P now) : ∀ (segs : List Seg) (inp : List Element), Each P Q segs → (∀ e ∈ inp, Q e) →
    Each P Q (Segments.insertLoop now segs inp).1 ∧
    ∀ l ∈ (Segments.insertLoop now segs inp).2, ∀ e ∈ l, ∃ x ∈ inp, ∃ s, e = x.asIndex s
  | [], _, _, _ => ⟨.nil, by simp [Segments.insertLoop]⟩
  | s :: ss, inp, h, hi => by
    unfold Segments.insertLoop
    dsimp only
    split
    · obtain ⟨a, b⟩ := each_insertLoop hp ss inp h.tail hi
      exact ⟨.cons h.head a, b⟩
    · obtain ⟨a, b⟩ := each_insertLoop hp ss (inp.drop (Segment.filterIdx s inp).2) h.tail
        (fun e he => hi e (List.mem_of_mem_drop he))
      refine ⟨.cons ⟨hp, ?_⟩ a, ?_⟩
      · intro e he
        rcases List.mem_append.1 ((Elements.merge_perm 0 false _ _).mem_iff.1 he) with h' | h'
        · exact h.head.2 e h'
        · exact hi e (List.mem_of_mem_take (List.mem_of_mem_drop h'))
      · intro l hl e he
        rcases List.mem_cons.1 hl with rfl | hl
        · unfold Elements.elementIDs at he
          obtain ⟨x, hx, rfl⟩ := List.mem_map.1 ((sortSlice_perm _).mem_iff.1 he)
          exact ⟨x, List.mem_of_mem_take (List.mem_of_mem_drop hx), _, rfl⟩
        · obtain ⟨x, hx, r⟩ := b l hl e he
          exact ⟨x, List.mem_of_mem_drop hx, r⟩

theorem each_insert (hp : P now) {sch : Sched} {segs : List Seg} {inp : List Element} (h : Each P Q segs) (hi : ∀ e ∈ inp, Q e) :
    Each P Q (Segments.insert now sch segs inp).1 ∧
    ∀ e ∈ (Segments.insert now sch segs inp).2, ∃ x ∈ inp, ∃ s, e = x.asIndex s := by
  obtain ⟨a, b⟩ := each_insertLoop hp segs (Elements.sortSlice inp) h fun e he => hi e ((sortSlice_perm _).mem_iff.1 he)
  refine ⟨a, ?_⟩
  intro e he
  obtain ⟨l, hl, hel⟩ := List.mem_flatten.1 ((sortSlice_perm _).mem_iff.1 he)
  obtain ⟨x, hx, r⟩ := b l ((sch.perm _).mem_iff.1 hl) e hel
  exact ⟨x, (sortSlice_perm _).mem_iff.1 hx, r⟩

/-- Both parts of a list. -/
structure Fit (P : Nat → Prop) (Q : Element → Prop) (st : ListState) : Prop where
  scores : Each P Q st.scores.segs
  index : Each P Q st.index.segs

theorem fit_insertChunk (hc : Closed now P Q) {sch : Sched} {st : ListState} {e : List Element} (h : Fit P Q st) (he : ∀ x ∈ e, Q x) :
    Fit P Q (Lists.insertChunk now sch st e) := by
  obtain ⟨a, b⟩ := each_insert hc.time (sch := sch) h.scores (inp := Elements.sortSlice e)
    fun x hx => he x ((sortSlice_perm _).mem_iff.1 hx)
  refine ⟨a, (each_insert hc.time (sch := sch) h.index ?_).1⟩
  intro x hx
  obtain ⟨y, hy, s, rfl⟩ := b x ((sortSlice_perm _).mem_iff.1 hx)
  exact hc.asIndex _ _ (he y ((sortSlice_perm _).mem_iff.1 hy))

theorem fit_chunks (hc : Closed now P Q) {sch : Sched} : ∀ {cs : List (List Element)} {st : ListState}, Fit P Q st →
    (∀ c ∈ cs, ∀ x ∈ c, Q x) → Fit P Q (cs.foldl (Lists.insertChunk now sch) st)
  | [], _, h, _ => h
  | c :: cs, _, h, hcs => fit_chunks hc (cs := cs) (fit_insertChunk hc h (hcs c (by simp))) fun x hx => hcs x (by simp [hx])

theorem chunks_mem {limit fuel : Nat} {e : List Element} {cs : List (List Element)} (h : Lists.chunks limit fuel e = some cs)
    {c : List Element} (hc : c ∈ cs) {x : Element} (hx : x ∈ c) : x ∈ e := by
  rw [← Lists.chunks_flatten h]
  exact List.mem_flatten.2 ⟨c, hc, hx⟩

theorem fit_insert (hc : Closed now P Q) {sch : Sched} {st st' : ListState} {e : List Element} (h : Fit P Q st) (he : ∀ x ∈ e, Q x)
    (hi : Lists.insert now sch st e = some st') : Fit P Q st' := by
  unfold Lists.insert at hi
  cases hcs : Lists.chunks (Lists.insertLimit st) e.length e with
  | none => rw [hcs] at hi; simp at hi
  | some cs =>
    rw [hcs] at hi
    simp only [Option.map_some, Option.some.injEq] at hi
    rw [← hi]
    exact fit_chunks hc h fun c hcm x hx => he x (chunks_mem hcs hcm hx)

/-! ### New segments -/

theorem each_build (hp : P now) : ∀ {pieces : List (List Element)} {next : Nat × Nat} {nid : Nat},
    (∀ l ∈ pieces, ∀ e ∈ l, Q e) →
    Each P Q (Segments.build now next nid pieces).1 ∧
    (∀ e ∈ (Segments.build now next nid pieces).2.1, ∃ l ∈ pieces, ∃ x ∈ l, ∃ s, e = x.asIndex s) ∧
    (Segments.build now next nid pieces).2.2 ≤ nid + pieces.flatten.length
  | [], _, _, _ => ⟨.nil, by simp [Segments.build], by simp [Segments.build]⟩
  | [] :: rest, next, nid, h => by
    unfold Segments.build
    obtain ⟨a, b, c⟩ := each_build hp (pieces := rest) (next := next) (nid := nid) fun l hl => h l (by simp [hl])
    refine ⟨a, ?_, by simpa using c⟩
    intro e he
    obtain ⟨l, hl, r⟩ := b e he
    exact ⟨l, by simp [hl], r⟩
  | (e :: p) :: rest, next, nid, h => by
    unfold Segments.build
    dsimp only
    obtain ⟨a, b, c⟩ := each_build hp (pieces := rest)
      (next := prevMax ((e :: p).getLast (by simp)).score ((e :: p).getLast (by simp)).tie) (nid := nid + 1)
      fun l hl => h l (by simp [hl])
    refine ⟨.cons ⟨hp, h (e :: p) (by simp)⟩ a, ?_, ?_⟩
    · intro y hy
      rcases List.mem_append.1 hy with hy | hy
      · unfold Elements.elementIDs at hy
        obtain ⟨x, hx, rfl⟩ := List.mem_map.1 ((sortSlice_perm _).mem_iff.1 hy)
        exact ⟨e :: p, by simp, x, hx, _, rfl⟩
      · obtain ⟨l, hl, r⟩ := b y hy
        exact ⟨l, by simp [hl], r⟩
    · simp only [List.flatten_cons, List.length_append, List.length_cons]
      omega

theorem each_align : ∀ {ss : List Seg} {prev : Seg}, Each P Q (prev :: ss) → Each P Q (Segments.align prev ss)
  | [], _, h => h
  | s :: ss, prev, h => by
    unfold Segments.align
    exact .cons h.head (each_align (.cons h.tail.head h.tail.tail))

theorem each_full (hp : P now) (id : Nat) : Each P Q [Segments.fullSegment now id] :=
  .cons ⟨hp, by simp [Segments.fullSegment]⟩ .nil

theorem each_newSegments (hp : P now) {pieces : List (List Element)} {isIndex : Bool} (h : ∀ l ∈ pieces, ∀ e ∈ l, Q e) :
    Each P Q (Segments.newSegmentsElements now pieces isIndex).1.segs ∧
    (∀ e ∈ (Segments.newSegmentsElements now pieces isIndex).2, ∃ l ∈ pieces, ∃ x ∈ l, ∃ s, e = x.asIndex s) ∧
    (Segments.newSegmentsElements now pieces isIndex).1.nextID ≤ 2 + pieces.flatten.length := by
  obtain ⟨a, b, c⟩ := each_build hp (next := (maxU64, maxU32)) (nid := 1) h
  unfold Segments.newSegmentsElements
  dsimp only
  cases hb : (Segments.build now (maxU64, maxU32) 1 pieces).1 with
  | nil => exact ⟨each_full hp _, by simp, by dsimp only; omega⟩
  | cons s ss =>
    rw [hb] at a
    refine ⟨?_, b, by dsimp only; omega⟩
    dsimp only
    unfold Segments.alignIndex
    dsimp only
    split
    · exact each_align a
    · exact a

theorem each_empty (hp : P now) (isIndex : Bool) : Each P Q (Segments.empty now isIndex).segs := each_full hp 1

theorem splitSize_mem {l : List Element} {n : Nat} {ps : List (List Element)} (h : Elements.splitSize l n = some ps)
    {p : List Element} (hp : p ∈ ps) {e : Element} (he : e ∈ p) : e ∈ l := by
  rw [← Elements.splitSize_flatten h]
  exact List.mem_flatten.2 ⟨p, hp, he⟩

/-- The next IDs of both parts of a list are at most `n`. -/
def NextUpTo (n : Nat) (st : ListState) : Prop := st.scores.nextID ≤ n ∧ st.index.nextID ≤ n

theorem build_index_length : ∀ {pieces : List (List Element)} {next : Nat × Nat} {nid : Nat},
    (Segments.build now next nid pieces).2.1.length = pieces.flatten.length
  | [], _, _ => by simp [Segments.build]
  | [] :: rest, next, nid => by
    unfold Segments.build
    rw [build_index_length]; simp
  | (e :: p) :: rest, next, nid => by
    unfold Segments.build
    dsimp only
    rw [List.length_append, build_index_length]
    unfold Elements.elementIDs
    rw [(sortSlice_perm _).length_eq]
    simp; omega

theorem newSegments_index_length {pieces : List (List Element)} {isIndex : Bool} :
    (Segments.newSegmentsElements now pieces isIndex).2.length ≤ pieces.flatten.length := by
  unfold Segments.newSegmentsElements
  dsimp only
  split
  · simp
  · rw [build_index_length]; exact Nat.le_refl _

theorem fit_build (hc : Closed now P Q) {want merge split : Nat} {e : List Element} {st : ListState} (he : ∀ x ∈ e, Q x)
    (h : Lists.build now want merge split e = some st) : Fit P Q st ∧ NextUpTo (2 + e.length) st := by
  unfold Lists.build at h
  cases h1 : Elements.splitSize e want with
  | none => rw [h1] at h; simp at h
  | some ps =>
    rw [h1] at h
    dsimp only at h
    cases h2 : Elements.splitSize (Elements.sortSlice (Segments.newSegmentsElements now ps false).2) want with
    | none => rw [h2] at h; simp at h
    | some idx =>
      rw [h2] at h
      simp only [Option.some.injEq] at h
      rw [← h]
      obtain ⟨a, b, c⟩ := each_newSegments hc.time (pieces := ps) (isIndex := false) fun l hl x hx => he x (splitSize_mem h1 hl hx)
      have hq : ∀ l ∈ idx, ∀ x ∈ l, Q x := by
        intro l hl x hx
        obtain ⟨p, hp, y, hy, s, rfl⟩ := b x ((sortSlice_perm _).mem_iff.1 (splitSize_mem h2 hl hx))
        exact hc.asIndex _ _ (he y (splitSize_mem h1 hp hy))
      obtain ⟨a', -, c'⟩ := each_newSegments hc.time (pieces := idx) (isIndex := true) hq
      have l1 := newSegments_index_length (now := now) (pieces := ps) (isIndex := false)
      rw [Elements.splitSize_flatten h1] at c l1
      rw [Elements.splitSize_flatten h2, (sortSlice_perm _).length_eq] at c'
      exact ⟨⟨a, a'⟩, c, by dsimp only; omega⟩

theorem nextUpTo_chunks {sch : Sched} {n : Nat} : ∀ {cs : List (List Element)} {st : ListState}, NextUpTo n st →
    NextUpTo n (cs.foldl (Lists.insertChunk now sch) st)
  | [], _, h => h
  | _ :: cs, _, h => nextUpTo_chunks (cs := cs) h

theorem nextUpTo_insert {sch : Sched} {n : Nat} {st st' : ListState} {e : List Element} (h : NextUpTo n st)
    (hi : Lists.insert now sch st e = some st') : NextUpTo n st' := by
  unfold Lists.insert at hi
  cases hcs : Lists.chunks (Lists.insertLimit st) e.length e with
  | none => rw [hcs] at hi; simp at hi
  | some cs =>
    rw [hcs] at hi
    simp only [Option.map_some, Option.some.injEq] at hi
    rw [← hi]
    exact nextUpTo_chunks h

theorem fit_empty (hp : P now) (merge split : Nat) : Fit P Q (Lists.initEmpty now merge split) ∧ NextUpTo 2 (Lists.initEmpty now merge split) :=
  ⟨⟨each_empty hp _, each_empty hp _⟩, Nat.le_refl _, Nat.le_refl _⟩

theorem fit_populate (hc : Closed now P Q) {sch shuffle : Sched} {reduce : Nat → Nat} {merge split : Nat} {e : List Element}
    {st : ListState} (he : ∀ x ∈ e, Q x) (h : Lists.populate now sch shuffle reduce merge split e = some st) :
    Fit P Q st ∧ NextUpTo (2 + e.length) st := by
  unfold Lists.populate at h
  split at h
  · simp only [Option.some.injEq] at h
    rw [← h]
    obtain ⟨a, b⟩ := fit_empty (P := P) (Q := Q) hc.time merge split
    exact ⟨a, by have := b.1; omega, by have := b.2; omega⟩
  · split at h
    · dsimp only at h
      cases hb : Lists.build now (reduce ((merge + split) / 2)) merge split (Elements.sortSlice ((shuffle.order e).take 100000)) with
      | none => rw [hb] at h; simp at h
      | some st1 =>
        rw [hb] at h
        dsimp only at h
        have hm : ∀ x ∈ shuffle.order e, Q x := fun x hx => he x ((shuffle.perm _).mem_iff.1 hx)
        obtain ⟨a, b⟩ := fit_build hc (fun x hx => hm x (List.mem_of_mem_take ((sortSlice_perm _).mem_iff.1 hx))) hb
        have hlen : (Elements.sortSlice ((shuffle.order e).take 100000)).length ≤ e.length := by
          rw [(sortSlice_perm _).length_eq, List.length_take, (shuffle.perm _).length_eq]
          omega
        have := nextUpTo_insert b h
        exact ⟨fit_insert hc a (fun x hx => hm x (List.mem_of_mem_drop hx)) h, by have := this.1; omega, by have := this.2; omega⟩
    · obtain ⟨a, b⟩ := fit_build hc (fun x hx => he x ((sortSlice_perm _).mem_iff.1 hx)) h
      rw [(sortSlice_perm _).length_eq] at b
      exact ⟨a, b⟩

theorem fit_reindex (hc : Closed now P Q) {sch : Sched} {st st' : ListState} (h : Fit P Q st)
    (hr : Lists.reindex now sch st = some st') :
    Fit P Q st' ∧ st'.scores = st.scores ∧ st'.index.nextID ≤ 2 + st.content.length := by
  unfold Lists.reindex at hr
  cases hp : Elements.splitSize (Segments.elementIndexAll sch st.scores.segs) (Lists.wantSize st) with
  | none => rw [hp] at hr; simp at hr
  | some ps =>
    rw [hp] at hr
    simp only [Option.map_some, Option.some.injEq] at hr
    rw [← hr]
    have hm : ∀ e ∈ Segments.elementIndexAll sch st.scores.segs, ∃ x ∈ st.content, ∃ s, e = x.asIndex s := by
      intro e he
      unfold Segments.elementIndexAll at he
      obtain ⟨l, hl, hel⟩ := List.mem_flatten.1 ((sortSlice_perm _).mem_iff.1 he)
      obtain ⟨g, hg, rfl⟩ := List.mem_map.1 ((sch.perm _).mem_iff.1 hl)
      unfold Elements.elementIDs at hel
      obtain ⟨x, hx, rfl⟩ := List.mem_map.1 ((sortSlice_perm _).mem_iff.1 hel)
      exact ⟨x, mem_allElems.2 ⟨g, hg, hx⟩, _, rfl⟩
    obtain ⟨a, -, c⟩ := each_newSegments hc.time (pieces := ps) (isIndex := true) (Q := Q) fun l hl x hx => by
      obtain ⟨y, hy, s, rfl⟩ := hm x (splitSize_mem hp hl hx)
      exact hc.asIndex _ _ (h.scores.all y hy)
    refine ⟨⟨h.scores, a⟩, rfl, ?_⟩
    rw [Elements.splitSize_flatten hp] at c
    have hl : (Segments.elementIndexAll sch st.scores.segs).length = st.content.length := by
      unfold Segments.elementIndexAll ListState.content allElems
      rw [(sortSlice_perm _).length_eq, ((sch.perm _).flatten).length_eq]
      simp only [List.length_flatten, List.map_map, Function.comp_def, List.length_flatMap]
      congr 1
      apply List.map_congr_left
      intro g _
      unfold Elements.elementIDs
      rw [(sortSlice_perm _).length_eq, List.length_map]
    rw [hl] at c
    exact c

theorem each_cloneSegs (hp : P now) : ∀ {segs : List Seg} {nid : Nat}, Each P' Q segs →
    Each P Q (Lists.cloneSegs now nid segs).1 ∧
    (∀ e ∈ (Lists.cloneSegs now nid segs).2.1, ∃ x ∈ allElems segs, ∃ s, e = x.asIndex s) ∧
    (Lists.cloneSegs now nid segs).2.1.length = (allElems segs).length ∧
    (Lists.cloneSegs now nid segs).2.2 = nid + segs.length
  | [], _, _ => ⟨.nil, by simp [Lists.cloneSegs], by simp [Lists.cloneSegs, allElems], by simp [Lists.cloneSegs]⟩
  | s :: ss, nid, h => by
    unfold Lists.cloneSegs
    dsimp only
    obtain ⟨a, b, c, d⟩ := each_cloneSegs hp (segs := ss) (nid := nid + 1) h.tail
    refine ⟨.cons ⟨hp, h.head.2⟩ a, ?_, ?_, ?_⟩
    · intro y hy
      rcases List.mem_append.1 hy with hy | hy
      · unfold Elements.elementIDs at hy
        obtain ⟨x, hx, rfl⟩ := List.mem_map.1 ((sortSlice_perm _).mem_iff.1 hy)
        exact ⟨x, mem_allElems.2 ⟨s, by simp, hx⟩, _, rfl⟩
      · obtain ⟨x, hx, r⟩ := b y hy
        obtain ⟨g, hg, hxg⟩ := mem_allElems.1 hx
        exact ⟨x, mem_allElems.2 ⟨g, by simp [hg], hxg⟩, r⟩
    · rw [List.length_append, c]
      unfold Elements.elementIDs
      rw [(sortSlice_perm _).length_eq]
      simp [allElems]
    · rw [d, List.length_cons]; omega

theorem fit_clone (hc : Closed now P Q) {merge split : Nat} {org st : ListState} (h : Each P' Q org.scores.segs)
    (hr : Lists.clone now merge split org = some st) :
    Fit P Q st ∧ st.scores.nextID = 1 + org.scores.segs.length ∧ st.index.nextID ≤ 2 + org.content.length := by
  unfold Lists.clone at hr
  dsimp only at hr
  obtain ⟨a, b, c, d⟩ := each_cloneSegs (P := P) hc.time (nid := 1) h
  cases hp : Elements.splitSize (Elements.sortSlice (Lists.cloneSegs now 1 org.scores.segs).2.1) ((merge + split) / 2) with
  | none => rw [hp] at hr; simp at hr
  | some ps =>
    rw [hp] at hr
    simp only [Option.map_some, Option.some.injEq] at hr
    rw [← hr]
    obtain ⟨a', -, c'⟩ := each_newSegments hc.time (pieces := ps) (isIndex := true) (Q := Q) fun l hl x hx => by
      obtain ⟨y, hy, s, rfl⟩ := b x ((sortSlice_perm _).mem_iff.1 (splitSize_mem hp hl hx))
      exact hc.asIndex _ _ (h.all y hy)
    rw [Elements.splitSize_flatten hp, (sortSlice_perm _).length_eq, c] at c'
    exact ⟨⟨a, a'⟩, d, c'⟩

/-! ### Delete -/

theorem each_deleteElements (hp : P now) : ∀ (segs : List Seg) (inp : List Element), Each P Q segs →
    Each P Q (Segments.deleteElements now segs inp)
  | [], _, _ => .nil
  | s :: ss, inp, h => by
    unfold Segments.deleteElements
    dsimp only
    split
    · exact .cons h.head (each_deleteElements hp ss inp h.tail)
    · exact .cons ⟨hp, fun e he => h.head.2 e (List.mem_filter.1 he).1⟩ (each_deleteElements hp ss _ h.tail)

theorem fit_delete (hp : P now) {sch : Sched} {st : ListState} {ids : List Nat} (h : Fit P Q st) :
    Fit P Q (Lists.deleteElements now sch st ids) := by
  have a : Each P Q (Segments.deleteElementsIdx now sch st.scores.segs (Lists.getIndexElements sch st ids)).1 := by
    refine each_mapFrom ?_ 0 _ h.scores
    intro i g hg
    unfold Segments.deleteIdxAt
    dsimp only
    split
    · exact hg
    · exact ⟨hp, fun e he => hg.2 e (List.mem_filter.1 he).1⟩
  unfold Lists.deleteElements
  dsimp only
  split
  · exact ⟨a, h.index⟩
  · exact ⟨a, each_deleteElements hp _ _ h.index⟩

theorem next_delete {sch : Sched} {st : ListState} {ids : List Nat} :
    (Lists.deleteElements now sch st ids).scores.nextID = st.scores.nextID ∧
    (Lists.deleteElements now sch st ids).index.nextID = st.index.nextID := by
  unfold Lists.deleteElements
  dsimp only
  split <;> exact ⟨rfl, rfl⟩

/-! ### Update -/

theorem mem_delete : ∀ {l l' : List Element} {id : Nat}, Elements.delete l id = some l' → ∀ e ∈ l', e ∈ l
  | [], _, _, h => by simp [Elements.delete] at h
  | a :: l, l', id, h => by
    unfold Elements.delete at h
    split at h
    · simp only [Option.some.injEq] at h
      rw [← h]; intro e he; simp [he]
    · cases hd : Elements.delete l id with
      | none => rw [hd] at h; simp at h
      | some r =>
        rw [hd] at h
        simp only [Option.map_some, Option.some.injEq] at h
        rw [← h]
        intro e he
        rcases List.mem_cons.1 he with rfl | he
        · simp
        · exact List.mem_cons_of_mem _ (mem_delete hd e he)

theorem mem_update {l : List Element} {e : Element} {r : List Element × Option Elements.Rank} (h : Elements.update now l e = some r) :
    ∀ x ∈ r.1, x ∈ l ∨ x = Elements.touch now e := by
  unfold Elements.update at h
  dsimp only at h
  cases hd : Elements.delete l (Elements.touch now e).id with
  | none => rw [hd] at h; simp at h
  | some l' =>
    rw [hd] at h
    simp only [Option.some.injEq] at h
    rw [← h]
    intro x hx
    rcases List.mem_cons.1 ((Elements.insert_perm _ _).mem_iff.1 hx) with h' | h'
    · exact .inr h'
    · exact .inl (mem_delete hd x h')

theorem mem_addTo {l : List Element} {e : Element} : ∀ x ∈ Lists.addTo now e l, x ∈ l ∨ x = Elements.touch now e := by
  intro x hx
  unfold Lists.addTo Elements.add at hx
  dsimp only at hx
  split at hx
  · split at hx
    · rename_i r hu
      have := mem_update hu x hx
      rwa [show Elements.touch now (Elements.touch now e) = Elements.touch now e by
        unfold Elements.touch
        by_cases h0 : e.updated = 0
        · simp only [h0, beq_self_eq_true, if_true]
          split <;> rfl
        · simp [h0]] at this
    · exact .inl hx
  · rcases List.mem_cons.1 ((Elements.insert_perm _ _).mem_iff.1 hx) with h' | h'
    · exact .inr h'
    · exact .inl h'

theorem mem_updateIn {l : List Element} {e : Element} : ∀ x ∈ Lists.updateIn now e l, x ∈ l ∨ x = Elements.touch now e := by
  intro x hx
  unfold Lists.updateIn at hx
  split at hx
  · rename_i r hu
    exact mem_update hu x hx
  · exact .inl hx

theorem mem_deleteIn {l : List Element} {id : Nat} : ∀ x ∈ Lists.deleteIn id l, x ∈ l := by
  intro x hx
  unfold Lists.deleteIn at hx
  cases hd : Elements.delete l id with
  | none => rw [hd] at hx; exact hx
  | some r => rw [hd] at hx; exact mem_delete hd x hx

theorem each_onElems {f : List Element → List Element} (hf : ∀ l, (∀ e ∈ l, Q e) → ∀ e ∈ f l, Q e) {i : Nat} {segs : List Seg}
    (h : Each P Q segs) : Each P Q (Lists.onElems f i segs) :=
  each_modifyAt (f := fun s => { s with elems := f s.elems }) (fun _ hg => ⟨hg.1, hf _ hg.2⟩) i segs h

theorem each_updateOne (hc : Closed now P Q) {org : List Seg} {loc : List (Nat × Nat × Option Element)} {sidx : Nat}
    {st : List Seg × List Seg} {e : Element} (he : Q e) (h1 : Each P Q st.1) (h2 : Each P Q st.2) :
    Each P Q (Lists.updateOne now org loc sidx st e).1 ∧ Each P Q (Lists.updateOne now org loc sidx st e).2 := by
  have hadd : ∀ x, Q x → ∀ l, (∀ e ∈ l, Q e) → ∀ e ∈ Lists.addTo now x l, Q e := by
    intro x hx l hl y hy
    rcases mem_addTo y hy with h | rfl
    · exact hl y h
    · exact hc.touch _ hx
  have hupd : ∀ x, Q x → ∀ l, (∀ e ∈ l, Q e) → ∀ e ∈ Lists.updateIn now x l, Q e := by
    intro x hx l hl y hy
    rcases mem_updateIn y hy with h | rfl
    · exact hl y h
    · exact hc.touch _ hx
  unfold Lists.updateOne
  dsimp only
  split
  · exact ⟨each_onElems (hadd _ he) h1, each_onElems (hadd _ (hc.asIndex _ _ he)) h2⟩
  · split
    · exact ⟨each_onElems (hupd _ he) h1, h2⟩
    · split
      · exact ⟨each_onElems (hadd _ he) h1, h2⟩
      · exact ⟨each_onElems (fun l hl x hx => hl x (mem_deleteIn x hx)) (each_onElems (hadd _ he) h1),
          each_onElems (hupd _ (hc.asIndex _ _ he)) h2⟩

theorem each_updateFold (hc : Closed now P Q) {org : List Seg} {loc : List (Nat × Nat × Option Element)} {sidx : Nat} :
    ∀ (es : List Element) (st : List Seg × List Seg), (∀ e ∈ es, Q e) → Each P Q st.1 → Each P Q st.2 →
    Each P Q (es.foldl (Lists.updateOne now org loc sidx) st).1 ∧ Each P Q (es.foldl (Lists.updateOne now org loc sidx) st).2
  | [], _, _, h1, h2 => ⟨h1, h2⟩
  | e :: es, st, he, h1, h2 => by
    obtain ⟨a, b⟩ := each_updateOne hc (org := org) (loc := loc) (sidx := sidx) (he e (by simp)) h1 h2
    exact each_updateFold hc es _ (fun x hx => he x (by simp [hx])) a b

theorem each_updateAll (hc : Closed now P Q) {org : List Seg} {loc : List (Nat × Nat × Option Element)} :
    ∀ (dst : List (Nat × List Element)) (st : List Seg × List Seg), (∀ d ∈ dst, ∀ e ∈ d.2, Q e) → Each P Q st.1 → Each P Q st.2 →
    Each P Q (Lists.updateAll now org loc dst st).1 ∧ Each P Q (Lists.updateAll now org loc dst st).2
  | [], _, _, h1, h2 => ⟨h1, h2⟩
  | d :: dst, st, he, h1, h2 => by
    obtain ⟨a, b⟩ := each_updateFold hc (org := org) (loc := loc) (sidx := d.1) d.2 st (he d (by simp)) h1 h2
    exact each_updateAll hc dst _ (fun x hx => he x (by simp [hx])) a b

theorem mem_splitElementsIdx : ∀ {segs : List Seg} {k : Nat} {l : List Element}, ∀ d ∈ Segments.splitElementsIdx k segs l,
    ∀ e ∈ d.2, e ∈ l
  | [], _, _, d, hd => by simp [Segments.splitElementsIdx] at hd
  | s :: ss, k, l, d, hd => by
    unfold Segments.splitElementsIdx at hd
    dsimp only at hd
    split at hd
    · exact mem_splitElementsIdx d hd
    · rcases List.mem_cons.1 hd with rfl | hd
      · intro e he; exact List.mem_of_mem_take (List.mem_of_mem_drop he)
      · exact mem_splitElementsIdx d hd

theorem each_refresh (hp : P now) {loaded : List Nat} {segs : List Seg} (h : Each P Q segs) :
    Each P Q (Lists.refresh now loaded segs) := by
  refine each_mapFrom ?_ 0 _ h
  intro i g hg
  split
  · exact ⟨hp, hg.2⟩
  · exact hg

theorem fit_update (hc : Closed now P Q) {sch : Sched} {st : ListState} {es : List Element} (h : Fit P Q st) (he : ∀ e ∈ es, Q e) :
    Fit P Q (Lists.updateElements now sch st es) := by
  have := each_updateAll hc (org := st.scores.segs) (loc := Lists.locate st.index.segs (Lists.updateIDs es))
    (sch.order (Segments.splitElementsIdx 0 st.scores.segs (Elements.sortSlice es))) (st.scores.segs, st.index.segs)
    (fun d hd e hed => he e ((sortSlice_perm _).mem_iff.1 (mem_splitElementsIdx d ((sch.perm _).mem_iff.1 hd) e hed)))
    h.scores h.index
  exact ⟨each_refresh hc.time this.1, each_refresh hc.time this.2⟩

/-! ### Split -/

theorem each_splitIdx (hp : P now) {isIndex : Bool} {nid : Nat} {s s1 s2 : Seg} {U : List Segments.IndexUpdate}
    (h : Segments.splitIdx now isIndex nid s = some (s1, s2, U)) (hs : ∀ e ∈ s.elems, Q e) :
    (P s1.updated ∧ ∀ e ∈ s1.elems, Q e) ∧ P s2.updated ∧ ∀ e ∈ s2.elems, Q e := by
  obtain ⟨-, -, h3⟩ := Disk.splitIdx_parts h
  have hu : s1.updated = now ∧ s2.updated = now := by
    unfold Segments.splitIdx at h
    split at h
    · simp only [Option.some.injEq, Prod.mk.injEq] at h
      obtain ⟨rfl, rfl, -⟩ := h
      exact ⟨rfl, rfl⟩
    · simp at h
  rw [hu.1, hu.2]
  exact ⟨⟨hp, fun e he => hs e (by rw [← h3]; simp [he])⟩, hp, fun e he => hs e (by rw [← h3]; simp [he])⟩

theorem each_reverse {segs : List Seg} (h : Each P Q segs) : Each P Q segs.reverse := fun g hg => h g (List.mem_reverse.1 hg)

theorem each_splitLoop (hp : P now) {splitSize mergeSize : Nat} {merge isIndex : Bool} {skipUnsplit : Nat} :
    ∀ {ss done : List Seg} {nid skip : Nat}, Each P Q done → Each P Q ss →
    Each P Q (Segments.splitLoop now splitSize mergeSize merge isIndex skipUnsplit nid skip done ss).1 ∧
    (Segments.splitLoop now splitSize mergeSize merge isIndex skipUnsplit nid skip done ss).2.1 ≤ nid + ss.length
  | [], done, nid, skip, hd, _ => by
    unfold Segments.splitLoop
    exact ⟨each_reverse hd, by simp⟩
  | s :: ss, done, nid, skip, hd, hs => by
    have hnone : ∀ k, Each P Q (Segments.splitLoop now splitSize mergeSize merge isIndex skipUnsplit nid k (s :: done) ss).1 ∧
        (Segments.splitLoop now splitSize mergeSize merge isIndex skipUnsplit nid k (s :: done) ss).2.1 ≤ nid + (s :: ss).length := by
      intro k
      obtain ⟨a, b⟩ := each_splitLoop hp (splitSize := splitSize) (mergeSize := mergeSize) (merge := merge) (isIndex := isIndex)
        (skipUnsplit := skipUnsplit) (nid := nid) (skip := k) (Each.cons hs.head hd) hs.tail
      exact ⟨a, by simp only [List.length_cons]; omega⟩
    cases skip with
    | succ k => unfold Segments.splitLoop; exact hnone k
    | zero =>
      unfold Segments.splitLoop
      split
      · split
        · rename_i p done'
          split
          · exact hnone 0
          · have hm : P (Segments.mergeWithNext now p s).1.updated ∧ ∀ e ∈ (Segments.mergeWithNext now p s).1.elems, Q e := by
              refine ⟨hp, ?_⟩
              intro e he
              rcases List.mem_append.1 he with h | h
              · exact hd.head.2 e h
              · exact hs.head.2 e h
            obtain ⟨a, b⟩ := each_splitLoop hp (splitSize := splitSize) (mergeSize := mergeSize) (merge := true) (isIndex := isIndex)
              (skipUnsplit := skipUnsplit) (nid := nid) (skip := 2) (Each.cons hm hd.tail) hs.tail
            exact ⟨a, by simp only [List.length_cons]; omega⟩
        · exact hnone 0
      · cases hsp : Segments.splitIdx now isIndex nid s with
        | none =>
          obtain ⟨a, b⟩ := each_splitLoop hp (splitSize := splitSize) (mergeSize := mergeSize) (merge := merge) (isIndex := isIndex)
            (skipUnsplit := skipUnsplit) (nid := nid) (skip := skipUnsplit)
            (Each.cons (g := { s with n := s.elems.length }) hs.head hd) hs.tail
          exact ⟨a, by simp only [List.length_cons]; omega⟩
        | some v =>
          obtain ⟨s1, s2, U⟩ := v
          obtain ⟨h1, h2⟩ := each_splitIdx hp hsp hs.head.2
          obtain ⟨a, b⟩ := each_splitLoop hp (splitSize := splitSize) (mergeSize := mergeSize) (merge := merge) (isIndex := isIndex)
            (skipUnsplit := skipUnsplit) (nid := nid + 1) (skip := 0) (Each.cons h2 (Each.cons h1 hd)) hs.tail
          exact ⟨a, by simp only [List.length_cons]; omega⟩

theorem mem_setSegment (hc : Closed now P Q) {u : Segments.IndexUpdate} : ∀ {l : List Element}, (∀ e ∈ l, Q e) →
    ∀ e ∈ Segments.setSegment now u l, Q e
  | [], _, e, he => by simp [Segments.setSegment] at he
  | a :: l, h, e, he => by
    unfold Segments.setSegment at he
    split at he
    · rcases List.mem_cons.1 he with rfl | he
      · exact hc.retie a _ (h a (by simp))
      · exact h e (by simp [he])
    · rcases List.mem_cons.1 he with rfl | he
      · exact h _ (by simp)
      · exact mem_setSegment hc (fun x hx => h x (by simp [hx])) e he

theorem mem_setAll (hc : Closed now P Q) : ∀ {us : List Segments.IndexUpdate} {l : List Element}, (∀ e ∈ l, Q e) →
    ∀ e ∈ us.foldl (fun l u => Segments.setSegment now u l) l, Q e
  | [], _, h => h
  | _ :: us, _, h => mem_setAll hc (us := us) (mem_setSegment hc h)

theorem each_updateIndex (hc : Closed now P Q) {segs : List Seg} {upds : List Segments.IndexUpdate} (h : Each P Q segs) :
    Each P Q (Segments.updateIndexElements now segs upds) := by
  unfold Segments.updateIndexElements
  split
  · exact h
  · generalize Segments.splitIndexUpdates segs upds = ms
    induction ms generalizing segs with
    | nil => exact h
    | cons m ms ih =>
      rw [List.foldl_cons]
      apply ih
      split
      · exact h
      · exact each_modifyAt (fun g hg => ⟨hc.time, mem_setAll hc hg.2⟩) _ _ h

theorem updateIndex_length {segs : List Seg} {upds : List Segments.IndexUpdate} :
    (Segments.updateIndexElements now segs upds).length = segs.length := by
  have hmod : ∀ (f : Seg → Seg) (i : Nat) (l : List Seg), (modifyAt f i l).length = l.length := by
    intro f i l
    induction l generalizing i with
    | nil => unfold modifyAt; rfl
    | cons a l ih => cases i <;> simp [modifyAt, ih]
  unfold Segments.updateIndexElements
  split
  · rfl
  · generalize Segments.splitIndexUpdates segs upds = ms
    induction ms generalizing segs with
    | nil => rfl
    | cons m ms ih =>
      rw [List.foldl_cons, ih]
      split
      · rfl
      · exact hmod _ _ _

theorem fit_split (hc : Closed now P Q) {merge : Bool} {st : ListState} (h : Fit P Q st) :
    Fit P Q (Lists.split now merge st) ∧
    (Lists.split now merge st).scores.nextID ≤ st.scores.nextID + st.scores.segs.length ∧
    (Lists.split now merge st).index.nextID ≤ st.index.nextID + st.index.segs.length := by
  unfold Lists.split
  dsimp only
  obtain ⟨a, b⟩ := each_splitLoop hc.time (splitSize := st.splitSize) (mergeSize := st.mergeSize) (merge := merge) (isIndex := false)
    (skipUnsplit := 0) (nid := st.scores.nextID) (skip := 0) Each.nil h.scores
  obtain ⟨a', b'⟩ := each_splitLoop hc.time (splitSize := st.splitSize) (mergeSize := st.mergeSize) (merge := true) (isIndex := true)
    (skipUnsplit := 1) (nid := st.index.nextID) (skip := 0) Each.nil
    (each_updateIndex hc (upds := (Segments.splitLoop now st.splitSize st.mergeSize merge false 0 st.scores.nextID 0 []
      st.scores.segs).2.2) h.index)
  rw [updateIndex_length] at b'
  exact ⟨⟨a, a'⟩, b, b'⟩

end RankDB

import Verif.Proofs.Behind
/-
C101: a server with the write-behind store, and what a crash leaves of it.
-/
namespace RankDB.Props
open Spec Server Files Behind Stored
open Spec.LazySaver (last Uses Distinct NoFailure)

/-- One saver, and a storage that does not fail: whatever the savers do meanwhile, everything that clients see is what
they would see without the write-behind store. Missing: more savers and failures, see C39 and C40. -/
theorem C101_seen_partial (c : Setup) (F : Files) (db : Db) (es : List Files.Event) (rs : List Files.Response)
    (ls : List LazySaver.Label) (T : Behind) (hg : Good db) (hb : AllFit db) (hr : Represents c F db)
    (h : BRun c 1 (begun F) es rs ls T) (hf : NoFailure ls) (ho : Orderly db es) (hj : T.job = none) :
    rs = (Files.run c F es).1 ∧ look T.files.db = look (Files.run c F es).2.db := by
  obtain ⟨D, hrep, hst⟩ := behind_run .refl rfl hg hb hr h hf ho
  obtain ⟨r1, r2, r3, r4⟩ := bytes_history c F db es hg hb hr ho
  rcases hst with ⟨-, rfl, rfl⟩ | ⟨_, _, _, _, _, _, h1, -⟩
  · refine ⟨r1.symm, ?_⟩
    funext id
    rw [look_congr (represents_same hrep r4.lists id), look_congr (represents_same r2 r4.lists id)]
  · rw [hj] at h1
    cases h1

/-- The storage below has for each key a value that the key had for the server at some moment since the write-behind
store was last empty. -/
theorem left_value {c : Setup} {F : Files} {es1 es2 : List Files.Event} {rs1 rs2 : List Files.Response}
    {ls1 ls2 : List LazySaver.Label} {S T : Behind} (h1 : BRun c 1 (begun F) es1 rs1 ls1 S) (hq : S.lazy.queue = [])
    (h2 : BRun c 1 S es2 rs2 ls2 T) (hf : NoFailure (ls1 ++ ls2)) (k : Str) :
    ∃ es rs ls M, es <+: es2 ∧ ls <+: ls2 ∧ BRun c 1 S es rs ls M ∧ T.lazy.store [] k = M.files.blobs k := by
  obtain ⟨u1, u2⟩ := brun_lazy (brun_trans h1 h2)
  obtain ⟨v1, v2⟩ := brun_lazy h1
  have o1 := LazySaver.single_run v1 (noFailure_left hf)
  have o2 : LazySaver.OrderedRun 1 S.lazy ls2 T.lazy := by
    have hr := (brun_lazy h2).1
    generalize hT : T.lazy = τ at hr
    clear hT u1 u2 h2
    induction hr with
    | nil => exact .nil
    | @snoc ls σ l hrun he ih =>
      have hf' : NoFailure (ls1 ++ ls) := by
        rw [← List.append_assoc] at hf
        exact noFailure_left hf
      refine .snoc (ih hf') he (LazySaver.single_inOrder (LazySaver.str_run (o1.trans (ih hf')).run) ?_)
      rintro i rfl
      exact hf i (by simp)
  have hnone : LazySaver.getQueue S.lazy [] k = none := by
    unfold LazySaver.getQueue
    have : S.lazy.lookup [] k = none := by
      unfold LazySaver.State.lookup LazySaver.State.item
      rw [hq]
      cases S.lazy.idx (LazySaver.lazyKey [] k) <;> rfl
    rw [this]
  obtain ⟨p, hp, e⟩ := C39_slow_read_partial 1 _ OneSet oneSet_distinct ls1 ls2 _ _ o1 o2 u2 [] k rfl hnone
  obtain ⟨es', rs', M, b1, b2⟩ := brun_prefix h2 hp
  refine ⟨es', rs', p, M, b1, hp, b2, ?_⟩
  rw [e]
  refine (brun_view (brun_trans h1 b2) ?_ k).symm
  obtain ⟨t, rfl⟩ := hp
  rw [← List.append_assoc] at hf
  exact noFailure_left hf

theorem orderly_prefix {db : Db} {a b : List Files.Event} (h : Orderly db b) (hp : a <+: b) : Orderly db a := by
  obtain ⟨t, rfl⟩ := hp
  exact (orderly_append h).1

/-- A crash at any moment: the server starts, and the catalogue is one that the server had saved, or was about to save, at some
moment `M` since the write-behind store was last empty. -/
theorem left_catalogue {c : Setup} {F : Files} {db : Db} {es1 es2 : List Files.Event} {rs1 rs2 : List Files.Response}
    {ls1 ls2 : List LazySaver.Label} {S T : Behind} (hg : Good db) (hb : AllFit db) (hr : Represents c F db)
    (h1 : BRun c 1 (begun F) es1 rs1 ls1 S) (hj : S.job = none) (hq : S.lazy.queue = [])
    (h2 : BRun c 1 S es2 rs2 ls2 T) (hf : NoFailure (ls1 ++ ls2)) (ho : Orderly db (es1 ++ es2)) :
    ∃ es rs M D G, es <+: es2 ∧ Stage c (seenOf db es1).2 es rs M D ∧ start c (remains T) = some G ∧
      G.lists = D.file.map withMetadata ∧ G.blobs = T.lazy.store [] := by
  obtain ⟨o1, o2⟩ := orderly_append ho
  obtain ⟨D1, hrep, hst⟩ := behind_run .refl rfl hg hb hr h1 (noFailure_left hf) o1
  rcases hst with ⟨-, rfl, rfl⟩ | ⟨_, _, _, _, _, _, h3, -⟩
  · obtain ⟨-, -, g1, g2⟩ := bytes_history c F db es1 hg hb hr o1
    obtain ⟨es, rs, ls, M, p1, p2, hM, hv⟩ := left_value h1 hq h2 hf Keys.listStorageKey
    have hf' : NoFailure (ls1 ++ ls) := by
      obtain ⟨t, rfl⟩ := p2
      rw [← List.append_assoc] at hf
      exact noFailure_left hf
    obtain ⟨D, hD⟩ := behind_run h1 hj g1 g2 hrep hM hf' (orderly_prefix o2 p1)
    obtain ⟨G, s1, s2⟩ := represents_start hD.1
    refine ⟨es, rs, M, D, ⟨T.lazy.store [], G.lists⟩, p1, hD, ?_, s2.lists, rfl⟩
    have hv' : (remains T).blobs Keys.listStorageKey = M.files.blobs Keys.listStorageKey := hv
    unfold start at s1 ⊢
    rw [hv']
    cases hx : M.files.blobs Keys.listStorageKey with
    | none =>
      rw [hx] at s1
      simp only [Option.some.injEq] at s1 ⊢
      rw [← s1]
      rfl
    | some x =>
      rw [hx] at s1
      dsimp only at s1 ⊢
      generalize loadLists c.lib [] x = y at s1 ⊢
      obtain ⟨l, o⟩ := y
      cases o with
      | none =>
        simp only [Option.some.injEq] at s1 ⊢
        rw [← s1]
        rfl
      | some err => cases s1
  · rw [hj] at h3
    cases h3

/-- **C101.** One saver, and a storage that does not fail. The process stops at any moment, in the middle of a request and
whatever of the queue has been written. Then the server starts again, and every list whose entry was in the saved
catalogue when the queue was last empty, and that no request was about since, is shown as it was. Missing: the other lists,
see below; more savers and failures. -/
theorem C101_untouched_partial (c : Setup) (F : Files) (db : Db) (es1 es2 : List Files.Event) (rs1 rs2 : List Files.Response)
    (ls1 ls2 : List LazySaver.Label) (S T : Behind) (hg : Good db) (hb : AllFit db) (hr : Represents c F db)
    (h1 : BRun c 1 (begun F) es1 rs1 ls1 S) (hj : S.job = none) (hq : S.lazy.queue = [])
    (h2 : BRun c 1 S es2 rs2 ls2 T) (hf : NoFailure (ls1 ++ ls2)) (ho : Orderly db (es1 ++ es2)) :
    ∃ G, start c (remains T) = some G ∧
      ∀ id, byID (seenOf db es1).2.file id = byID (seenOf db es1).2.lists id →
        (∀ env r, Files.Event.change env r ∈ es2 → target r ≠ some id) →
        look G.db id = (look S.files.db id).map reread := by
  obtain ⟨o1, o2⟩ := orderly_append ho
  obtain ⟨es, rs, M, D, G, p1, hM, hs, hl, hbl⟩ := left_catalogue hg hb hr h1 hj hq h2 hf ho
  refine ⟨G, hs, fun id hk ht => ?_⟩
  obtain ⟨D1, hrep, hst⟩ := behind_run .refl rfl hg hb hr h1 (noFailure_left hf) o1
  rcases hst with ⟨-, rfl, rfl⟩ | ⟨_, _, _, _, _, _, h3, -⟩
  · obtain ⟨-, -, g1, g2⟩ := bytes_history c F db es1 hg hb hr o1
    have hc := brun_noCrash h2
    -- moments since then
    have moment : ∀ es rs M D, es <+: es2 → Stage c (seenOf db es1).2 es rs M D →
        SameFor D (seenOf db es1).2 id ∧ byID D.file id = byID (seenOf db es1).2.lists id := by
      intro es rs M D hp hM
      exact stage_same g1 (orderly_prefix o2 hp) (fun k env r hm => hc k env r (hp.subset hm))
        (fun env r hm => ht env r (hp.subset hm)) hk hM
    have value : ∀ k, ∃ M : Behind, ∃ D, T.lazy.store [] k = M.files.blobs k ∧ Represents c M.files D ∧
        SameFor D (seenOf db es1).2 id := by
      intro k
      obtain ⟨es, rs, ls, M, p1, p2, hM, hv⟩ := left_value h1 hq h2 hf k
      have hf' : NoFailure (ls1 ++ ls) := by
        obtain ⟨t, rfl⟩ := p2
        rw [← List.append_assoc] at hf
        exact noFailure_left hf
      obtain ⟨D, hD⟩ := behind_run h1 hj g1 g2 hrep hM hf' (orderly_prefix o2 p1)
      exact ⟨M, D, hv, hD.1, (moment _ _ _ _ p1 hD).1⟩
    have hfile := (moment _ _ _ _ p1 hM).2
    rw [look_congr (represents_same hrep g2.lists id)]
    unfold look
    show (byID G.lists id).bind _ = _
    rw [hl, byID_map, hfile]
    cases hb1 : byID (seenOf db es1).2.lists id with
    | none => rfl
    | some l =>
      have hfit := g2.lists l (byID_mem hb1).1
      have agree : ∀ n ∈ names l, GoodName n → Agree (decoded (T.lazy.store [])) (seenOf db es1).2.store n := by
        intro n hn hgn
        constructor
        · obtain ⟨M, D, e1, e2, e3⟩ := value n
          have x1 := (e2.blobs n hgn).1
          have x2 := (e3.blobs l hb1 n hn).1
          rw [← x2, ← x1]
          simp only [decoded, readTable]
          rw [e1]
        · intro j
          obtain ⟨M, D, e1, e2, e3⟩ := value (Keys.storageKey n j)
          have x1 := (e2.blobs n hgn).2 j
          have x2 := (e3.blobs l hb1 n hn).2 j
          rw [← x2, ← x1]
          simp only [decoded, readElements]
          rw [e1]
      have hrel : Disk.reload (Files.db G).store (withMetadata l).ent = Disk.reload (seenOf db es1).2.store l.ent := by
        show Disk.reload (decoded G.blobs) l.ent = _
        rw [hbl]
        unfold Disk.reload
        rw [(agree l.ent.scores (by simp [names]) hfit.scores).loadSegs, (agree l.ent.index (by simp [names]) hfit.index).loadSegs]
      dsimp only [Option.map_some, Option.bind_some]
      rw [hrel]
      cases Disk.reload (seenOf db es1).2.store l.ent <;> rfl
  · rw [hj] at h3
    cases h3

/-- A crash when nothing is queued: the server shows what it would show after a crash at this moment without the write-behind
store. -/
theorem C101_flushed_partial (c : Setup) (F : Files) (db : Db) (es : List Files.Event) (rs : List Files.Response)
    (ls : List LazySaver.Label) (T : Behind) (hg : Good db) (hb : AllFit db) (hr : Represents c F db)
    (h : BRun c 1 (begun F) es rs ls T) (hf : NoFailure ls) (ho : Orderly db es) (hj : T.job = none) (hq : T.lazy.queue = []) :
    ∃ G, start c (remains T) = some G ∧ Represents c G (started (seenOf db es).2) := by
  obtain ⟨D, hrep, hst⟩ := behind_run .refl rfl hg hb hr h hf ho
  rcases hst with ⟨-, rfl, rfl⟩ | ⟨_, _, _, _, _, _, h1, -⟩
  · have hbl : (remains T).blobs = T.files.blobs := by
      funext k
      obtain ⟨es', rs', ls', M, p1, p2, hM, hv⟩ := left_value h hq .refl (by simpa using hf) k
      cases List.prefix_nil.1 p2
      have e : view M.lazy k = view T.lazy k := by
        rw [brun_view (F := F) (brun_trans h hM) (by simpa using hf) k, brun_view h hf k, List.append_nil]
      exact hv.trans e
    have hs : start c (remains T) = start c T.files := by
      unfold start
      rw [hbl]
    rw [hs]
    exact represents_start hrep
  · rw [hj] at h1
    cases h1

/-! ### Savers that overtake each other, and failures -/

/-- The keys of queued items, and where their values come from. -/
structure Kept (P : Str → Str → Prop) (store : MaxSize.Store) (ls : List LazySaver.Label) (σ : LazySaver.State) : Prop where
  keys : ∀ e ∈ σ.queue, P e.set e.key ∧ LazySaver.Label.put e.set e.key e.val ∈ ls
  ids : ∀ e ∈ σ.queue, e.id < σ.next
  next : ∀ k i, σ.idx k = some i → i < σ.next
  idx : ∀ k i, σ.idx k = some i → ∀ e ∈ σ.queue, e.id = i → e.lk = k
  stored : ∀ s k, σ.store s k = store s k ∨ LazySaver.Label.put s k (σ.store s k) ∈ ls

theorem kept_run {n : Nat} {store : MaxSize.Store} {P : Str → Str → Prop} (hP : Distinct P) {ls : List LazySaver.Label} {σ : LazySaver.State}
    (h : LazySaver.Run n (LazySaver.start store) ls σ) (hu : Uses P ls) : Kept P store ls σ := by
  induction h with
  | nil => exact ⟨by simp [LazySaver.start], by simp [LazySaver.start], by simp [LazySaver.start], by simp [LazySaver.start], fun _ _ => .inl rfl⟩
  | @snoc ls σ l hr he ih =>
    obtain ⟨k1, k2, k3, k4, k5⟩ := ih fun s k b hm => hu s k b (List.mem_append_left _ hm)
    have more : ∀ x, x ∈ ls → x ∈ ls ++ [l] := fun x hx => List.mem_append_left _ hx
    have keep : ∀ f : LazySaver.Item → LazySaver.Item, (∀ e, (f e).id = e.id ∧ (f e).set = e.set ∧ (f e).key = e.key ∧ (f e).val = e.val) →
        Kept P store (ls ++ [l]) { σ with queue := σ.queue.map f } := by
      intro f hfe
      refine ⟨?_, ?_, k3, ?_, fun s k => (k5 s k).imp id (more _)⟩
      · intro e hm
        obtain ⟨x, hx, rfl⟩ := List.mem_map.1 hm
        obtain ⟨-, f2, f3, f4⟩ := hfe x
        rw [f2, f3, f4]
        exact ⟨(k1 x hx).1, more _ (k1 x hx).2⟩
      · intro e hm
        obtain ⟨x, hx, rfl⟩ := List.mem_map.1 hm
        rw [(hfe x).1]
        exact k2 x hx
      · intro k i hi e hm hid
        obtain ⟨x, hx, rfl⟩ := List.mem_map.1 hm
        obtain ⟨f1, f2, f3, -⟩ := hfe x
        unfold LazySaver.Item.lk
        rw [f2, f3]
        exact k4 k i hi x hx (f1 ▸ hid)
    have kset : ∀ o w e, (LazySaver.setStatus o w e).id = e.id ∧ (LazySaver.setStatus o w e).set = e.set ∧
        (LazySaver.setStatus o w e).key = e.key ∧ (LazySaver.setStatus o w e).val = e.val := fun o w e =>
      ⟨LazySaver.setStatus_id .., LazySaver.setStatus_set .., LazySaver.setStatus_key .., LazySaver.setStatus_val ..⟩
    cases l with
    | put s k b =>
      have hk : P s k := hu s k b (by simp)
      have add : Kept P store (ls ++ [.put s k b]) { σ with
          queue := σ.queue ++ [{ id := σ.next, set := s, key := k, val := b, status := .queued }]
          idx := fun x => if x = LazySaver.lazyKey s k then some σ.next else σ.idx x
          next := σ.next + 1 } := by
        refine ⟨?_, ?_, ?_, ?_, fun s k => (k5 s k).imp id (more _)⟩
        · intro e hm
          rcases List.mem_append.1 hm with hm | hm
          · exact ⟨(k1 e hm).1, more _ (k1 e hm).2⟩
          · rw [List.mem_singleton.1 hm]
            exact ⟨hk, by simp⟩
        · intro e hm
          show e.id < σ.next + 1
          rcases List.mem_append.1 hm with hm | hm
          · have := k2 e hm; omega
          · rw [List.mem_singleton.1 hm]
            show σ.next < σ.next + 1
            omega
        · intro x i hi
          show i < σ.next + 1
          dsimp only at hi
          split at hi
          · cases hi; omega
          · have := k3 x i hi; omega
        · intro x i hi e hm hid
          dsimp only at hi
          split at hi
          · rename_i hx
            cases hi
            rcases List.mem_append.1 hm with hm | hm
            · have := k2 e hm; omega
            · rw [List.mem_singleton.1 hm, hx]; rfl
          · rcases List.mem_append.1 hm with hm | hm
            · exact k4 x i hi e hm hid
            · rw [List.mem_singleton.1 hm] at hid
              have := k3 x i hi
              dsimp only at hid
              omega
      show Kept P store _ (LazySaver.put σ s k b)
      unfold LazySaver.put
      dsimp only
      split
      · rename_i e hlook
        split
        · exact add
        · have hx : ∃ i, σ.idx (LazySaver.lazyKey s k) = some i ∧ σ.item i = some e := by
            unfold LazySaver.State.lookup at hlook
            exact Option.bind_eq_some_iff.1 hlook
          obtain ⟨i, hi, hie⟩ := hx
          have hid := (LazySaver.mem_of_item hie).2
          refine ⟨?_, ?_, k3, ?_, fun s k => (k5 s k).imp id (more _)⟩
          · intro y hm
            obtain ⟨x, hx, rfl⟩ := List.mem_map.1 hm
            by_cases hxe : x.id = e.id
            · rw [if_pos hxe]
              have hlk := k4 _ i hi x hx (hxe.trans hid)
              obtain ⟨e1, e2⟩ := hP _ _ _ _ (k1 x hx).1 hk hlk
              refine ⟨(k1 x hx).1, ?_⟩
              show LazySaver.Label.put x.set x.key b ∈ _
              rw [e1, e2]
              simp
            · rw [if_neg hxe]
              exact ⟨(k1 x hx).1, more _ (k1 x hx).2⟩
          · intro y hm
            obtain ⟨x, hx, rfl⟩ := List.mem_map.1 hm
            by_cases hxe : x.id = e.id
            · rw [if_pos hxe]; exact k2 x hx
            · rw [if_neg hxe]; exact k2 x hx
          · intro k' i' hi' y hm hid'
            obtain ⟨x, hx, rfl⟩ := List.mem_map.1 hm
            by_cases hxe : x.id = e.id
            · rw [if_pos hxe] at hid' ⊢; exact k4 k' i' hi' x hx hid'
            · rw [if_neg hxe] at hid' ⊢; exact k4 k' i' hi' x hx hid'
      · exact add
    | choose =>
      obtain ⟨l1, x, l2, a1, a2, a3, a4⟩ := LazySaver.chooseFirst_split σ.queue he.2
      have hq : ∀ e ∈ LazySaver.chooseFirst σ.queue, ∃ y ∈ σ.queue, e.id = y.id ∧ e.set = y.set ∧ e.key = y.key ∧ e.val = y.val := by
        intro e hm
        rw [a4] at hm
        rw [a1]
        simp only [List.mem_append, List.mem_cons] at hm ⊢
        rcases hm with hm | rfl | hm
        · exact ⟨e, .inl hm, rfl, rfl, rfl, rfl⟩
        · exact ⟨x, .inr (.inl rfl), rfl, rfl, rfl, rfl⟩
        · exact ⟨e, .inr (.inr hm), rfl, rfl, rfl, rfl⟩
      refine ⟨?_, ?_, k3, ?_, fun s k => (k5 s k).imp id (more _)⟩
      · intro e hm
        obtain ⟨y, hy, -, f2, f3, f4⟩ := hq e hm
        rw [f2, f3, f4]
        exact ⟨(k1 y hy).1, more _ (k1 y hy).2⟩
      · intro e hm
        obtain ⟨y, hy, f1, -⟩ := hq e hm
        rw [f1]
        exact k2 y hy
      · intro k i hi e hm hid
        obtain ⟨y, hy, f1, f2, f3, -⟩ := hq e hm
        unfold LazySaver.Item.lk
        rw [f2, f3]
        exact k4 k i hi y hy (f1 ▸ hid)
    | take i => exact keep _ (kset _ _)
    | write i ok =>
      show Kept P store _ (LazySaver.step σ (.write i ok))
      unfold LazySaver.step
      dsimp only
      split
      · exact ⟨fun e hm => ⟨(k1 e hm).1, more _ (k1 e hm).2⟩, k2, k3, k4, fun s k => (k5 s k).imp id (more _)⟩
      · rename_i e ht
        have hm := List.mem_of_find?_eq_some ht
        obtain ⟨q1, q2, q3, q4, q5⟩ := keep (LazySaver.setStatus (.taken i) (.written i)) (kset _ _)
        refine ⟨q1, q2, q3, q4, fun s k => ?_⟩
        dsimp only
        cases ok with
        | false => exact q5 s k
        | true =>
          simp only [if_true, MaxSize.Store.put]
          split
          · rename_i hk
            obtain ⟨rfl, rfl⟩ := hk
            exact .inr (more _ (k1 e hm).2)
          · exact q5 s k
    | remove i =>
      show Kept P store _ (LazySaver.step σ (.remove i))
      unfold LazySaver.step
      dsimp only
      split
      · exact ⟨fun e hm => ⟨(k1 e hm).1, more _ (k1 e hm).2⟩, k2, k3, k4, fun s k => (k5 s k).imp id (more _)⟩
      · rename_i e ht
        refine ⟨fun x hm => ?_, fun x hm => k2 x (List.mem_filter.1 hm).1, fun k j hj => ?_, fun k j hj x hm hid => ?_,
          fun s k => (k5 s k).imp id (more _)⟩
        · have hm := (List.mem_filter.1 hm).1
          exact ⟨(k1 x hm).1, more _ (k1 x hm).2⟩
        · dsimp only at hj
          split at hj
          · cases hj
          · exact k3 k j hj
        · dsimp only at hj
          split at hj
          · cases hj
          · exact k4 k j hj x (List.mem_filter.1 hm).1 hid

/-- Any number of savers that overtake each other, and failures: what is in the storage below is always the value that it had
in the beginning or one that the server has stored under this very key: no blob is mixed up with another one, no
deletion is invented. -/
theorem C101_whole (c : Setup) (n : Nat) (F : Files) (es : List Files.Event) (rs : List Files.Response)
    (ls : List LazySaver.Label) (T : Behind) (h : BRun c n (begun F) es rs ls T) (k : Str) :
    (remains T).blobs k = F.blobs k ∨ LazySaver.Label.put [] k ((remains T).blobs k) ∈ ls := by
  obtain ⟨h1, h2⟩ := brun_lazy h
  exact (kept_run oneSet_distinct h1 h2).stored [] k

/-! ### What a crash takes away -/

/-- A write-behind store with an empty queue. -/
def clean (n : Nat) (store : MaxSize.Store) : LazySaver.State := { queue := [], idx := fun _ => none, store := store, next := n }

theorem clean_view (n : Nat) (store : MaxSize.Store) : view (clean n store) = store [] := rfl

/-- The four steps with which one item is saved. -/
def savedAtOnce : List LazySaver.Label := [.choose, .take 0, .write 0 true, .remove 0]

theorem flush_one {c : Setup} {n : Nat} {store : MaxSize.Store} {lists : List Listing} {j : Option Job} (k : Str) (b : Option Wire.Bytes) :
    BRun c 1 ⟨LazySaver.step (clean n store) (.put [] k b), lists, j⟩ [] [] savedAtOnce ⟨clean (n + 1) (store.put [] k b), lists, j⟩ := by
  have e0 : LazySaver.step (clean n store) (.put [] k b) =
      ⟨[⟨n, [], k, b, .queued⟩], fun x => if x = LazySaver.lazyKey [] k then some n else none, store, n + 1⟩ := rfl
  have e4 : LazySaver.step ⟨[⟨n, [], k, b, .written 0⟩], fun x => if x = LazySaver.lazyKey [] k then some n else none, store.put [] k b, n + 1⟩
      (.remove 0) = clean (n + 1) (store.put [] k b) := by
    simp only [LazySaver.step, LazySaver.State.writtenBy, clean]
    rw [List.find?_cons_of_pos (by rfl)]
    simp only [LazySaver.State.mk.injEq, and_true]
    refine ⟨by rw [List.filter_cons_of_neg (by simp)]; rfl, ?_⟩
    funext x
    simp only [LazySaver.Item.lk]
    by_cases hx : x = LazySaver.lazyKey [] k
    · simp [hx]
    · simp [hx]
  rw [e0]
  have s1 := BRun.step (.refl (c := c) (n := 1) (B := ⟨⟨[⟨n, [], k, b, .queued⟩],
      fun x => if x = LazySaver.lazyKey [] k then some n else none, store, n + 1⟩, lists, j⟩))
    (.saver .choose rfl ⟨by simp, by simp⟩)
  have s2 := s1.step (.saver (.take 0) rfl ⟨by omega, by simp [LazySaver.step, LazySaver.chooseFirst], by simp [LazySaver.step, LazySaver.chooseFirst]⟩)
  have s3 := s2.step (.saver (.write 0 true) rfl (by simp [LazySaver.enabled, LazySaver.step, LazySaver.chooseFirst, LazySaver.setStatus]))
  have e3 : LazySaver.step (LazySaver.step (LazySaver.step ⟨[⟨n, [], k, b, .queued⟩],
      fun x => if x = LazySaver.lazyKey [] k then some n else none, store, n + 1⟩ .choose) (.take 0)) (.write 0 true) =
      ⟨[⟨n, [], k, b, .written 0⟩], fun x => if x = LazySaver.lazyKey [] k then some n else none, store.put [] k b, n + 1⟩ := by
    simp [LazySaver.step, LazySaver.chooseFirst, LazySaver.setStatus, LazySaver.State.takenBy]
  rw [e3] at s3
  have s4 := s3.step (.saver (.remove 0) rfl (by simp [LazySaver.enabled]))
  rw [e4] at s4
  exact s4

theorem store_set (b : MaxSize.Store) (k : Str) (v : Option Wire.Bytes) : (b.put [] k v) [] = Blobs.set (b []) k v := by
  funext x
  simp only [MaxSize.Store.put, Blobs.set, true_and]

/-- A change that is saved at once. -/
theorem effect_saved {c : Setup} {n : Nat} {store : MaxSize.Store} {lists : List Listing} {a : Answer} {e : Effect} {todo : List Effect} :
    ∃ n' store' ls, BRun c 1 ⟨clean n store, lists, some ⟨a, e :: todo⟩⟩ [] [] ls ⟨clean n' store', listsAfter lists e, some ⟨a, todo⟩⟩ ∧
      NoFailure ls ∧ (⟨store' [], listsAfter lists e⟩ : Files) = Files.apply c ⟨store [], lists⟩ e := by
  have hs : BRun c 1 ⟨clean n store, lists, some ⟨a, e :: todo⟩⟩ [] [] _ _ := .step .refl .effect
  cases hc : call? c lists e with
  | none =>
    refine ⟨n, store, [], ?_, by intro i; simp, ?_⟩
    · rw [hc] at hs
      exact hs
    · cases e with
      | blob w => cases hc
      | put l => rfl
      | drop i => rfl
      | save => cases hc
  | some l =>
    obtain ⟨k, b, rfl⟩ := call_put hc
    rw [hc] at hs
    refine ⟨n + 1, store.put [] k b, [LazySaver.Label.put [] k b] ++ savedAtOnce, brun_trans hs (flush_one k b), by intro i; simp [savedAtOnce], ?_⟩
    rw [store_set]
    cases e with
    | blob w => cases w <;> cases hc <;> rfl
    | put l => cases hc
    | drop i => cases hc
    | save => cases hc; rfl

theorem effects_saved {c : Setup} {a : Answer} {todo : List Effect} (es : List Effect) (n : Nat) (store : MaxSize.Store) (lists : List Listing) :
    ∃ n' store' lists' ls, BRun c 1 ⟨clean n store, lists, some ⟨a, es ++ todo⟩⟩ [] [] ls ⟨clean n' store', lists', some ⟨a, todo⟩⟩ ∧
      NoFailure ls ∧ (⟨store' [], lists'⟩ : Files) = Files.applyAll c ⟨store [], lists⟩ es := by
  induction es generalizing n store lists with
  | nil => exact ⟨n, store, lists, [], .refl, by intro i; simp, rfl⟩
  | cons e es ih =>
    obtain ⟨n1, st1, l1, h1, h2, h3⟩ := effect_saved (c := c) (n := n) (store := store) (lists := lists) (a := a) (e := e) (todo := es ++ todo)
    obtain ⟨n2, st2, li2, l2, i1, i2, i3⟩ := ih n1 st1 (listsAfter lists e)
    refine ⟨n2, st2, li2, l1 ++ l2, brun_trans h1 i1, fun i hm => ?_, ?_⟩
    · rcases List.mem_append.1 hm with hm | hm
      · exact h2 i hm
      · exact i2 i hm
    · rw [i3, h3]
      rfl

theorem put_store (σ : LazySaver.State) (s k : Str) (b : Option Wire.Bytes) : (LazySaver.step σ (.put s k b)).store = σ.store := by
  unfold LazySaver.step LazySaver.put
  dsimp only
  split
  · split <;> rfl
  · rfl

theorem effects_queued {c : Setup} {a : Answer} (es : List Effect) (σ : LazySaver.State) (lists : List Listing) :
    ∃ σ' lists' ls, BRun c 1 ⟨σ, lists, some ⟨a, es⟩⟩ [] [] ls ⟨σ', lists', some ⟨a, []⟩⟩ ∧ NoFailure ls ∧ σ'.store = σ.store := by
  induction es generalizing σ lists with
  | nil => exact ⟨σ, lists, [], .refl, by intro i; simp, rfl⟩
  | cons e es ih =>
    obtain ⟨σ', li, l, i1, i2, i3⟩ := ih (lazyAfter σ (call? c lists e)) (listsAfter lists e)
    have hs : BRun c 1 ⟨σ, lists, some ⟨a, e :: es⟩⟩ [] [] _ _ := .step .refl .effect
    refine ⟨σ', li, _, brun_trans hs i1, fun i hm => ?_, i3.trans ?_⟩
    · rcases List.mem_append.1 hm with hm | hm
      · cases hc : call? c lists e with
        | none => rw [hc] at hm; simp at hm
        | some x =>
          obtain ⟨k, b, rfl⟩ := call_put hc
          rw [hc] at hm
          simp at hm
      · exact i2 i hm
    · cases hc : call? c lists e with
      | none => rfl
      | some x =>
        obtain ⟨k, b, rfl⟩ := call_put hc
        exact put_store ..

/-- The full statement fails: a request that has been answered can be left half done. For every request and every number `k` of its
changes there is a run in which it is answered, and a crash leaves what a crash after `k` changes would have left without
the write-behind store. -/
theorem C101_half_done (c : Setup) (env : Env) (F : Files) (r : Request) (k : Nat) :
    ∃ ls T, BRun c 1 (begun F) [.change env r] [.answer (Files.serve c env F r).1] ls T ∧ NoFailure ls ∧ T.job = none ∧
      (remains T).blobs = (stopped c k env F r).blobs := by
  have h0 : BRun c 1 (begun F) [.change env r] [] [] _ := .step .refl (.arrive env r)
  change BRun c 1 (begun F) [.change env r] [] [] ⟨clean 0 fun _ x => F.blobs x, F.lists, some ⟨(handle env F.db r).1, (handle env F.db r).2⟩⟩ at h0
  rw [← List.take_append_drop k (handle env F.db r).2] at h0
  obtain ⟨n1, st1, li1, l1, a1, a2, a3⟩ := effects_saved (c := c) (a := (handle env F.db r).1) (todo := (handle env F.db r).2.drop k)
    ((handle env F.db r).2.take k) 0 (fun _ x => F.blobs x) F.lists
  obtain ⟨σ, li2, l2, b1, b2, b3⟩ := effects_queued (c := c) (a := (handle env F.db r).1) ((handle env F.db r).2.drop k) (clean n1 st1) li1
  refine ⟨_, _, (brun_trans (brun_trans h0 a1) b1).step .answer, ?_, rfl, ?_⟩
  · intro i hm
    simp only [List.nil_append, Option.toList_none, List.append_nil] at hm
    rcases List.mem_append.1 hm with hm | hm
    · exact a2 i hm
    · exact b2 i hm
  · show σ.store [] = _
    rw [b3]
    have : (⟨st1 [], li1⟩ : Files).blobs = _ := congrArg Files.blobs a3
    exact this

/-- A list of nine elements in segments of at most four, saved. -/
def nineList : Files :=
  (Files.serve ⟨noCompression, false⟩ (exEnvAt 3) (Files.serve ⟨noCompression, false⟩ (exEnvAt 2)
    (Files.serve ⟨noCompression, false⟩ (exEnvAt 1) emptyFiles
      (.create false { exPayload with populate := some ((List.range 9).map fun i => ⟨10 * (i + 1), i + 1, [], 0, 0⟩) })).2 .save).2
    (.split [66] true)).2

/-- The element with the highest score gets the lowest one. -/
def moveDown : Request := .putElements [66] [⟨5, 9, [], 0, 0⟩]

/-- The scores of a list, by ID. -/
def scoresOf (F : Files) (id : Str) : List (Nat × Nat) := ((look F.db id).map fun s => s.content.map fun e => (e.id, e.score)).getD []

/-- An element that was there, and whose new score was acknowledged, is gone. -/
theorem C101_moved_lost : ∃ ls T G, BRun ⟨noCompression, false⟩ 1 (begun nineList) [.change (exEnvAt 4) moveDown] [.answer .ok] ls T ∧
    NoFailure ls ∧ T.job = none ∧ start ⟨noCompression, false⟩ (remains T) = some G ∧
    (∃ x ∈ scoresOf nineList [66], x = (9, 90)) ∧ scoresOf G [66] ≠ [] ∧ ∀ x ∈ scoresOf G [66], x.1 ≠ 9 := by
  obtain ⟨ls, T, h1, h2, h3, h4⟩ := C101_half_done ⟨noCompression, false⟩ (exEnvAt 4) nineList moveDown 2
  have hx : ∃ G, start ⟨noCompression, false⟩ ⟨(stopped ⟨noCompression, false⟩ 2 (exEnvAt 4) nineList moveDown).blobs, []⟩ = some G ∧
      (∃ x ∈ scoresOf nineList [66], x = (9, 90)) ∧ scoresOf G [66] ≠ [] ∧ ∀ x ∈ scoresOf G [66], x.1 ≠ 9 := by
    have ht : (match start ⟨noCompression, false⟩ ⟨(stopped ⟨noCompression, false⟩ 2 (exEnvAt 4) nineList moveDown).blobs, []⟩ with
        | some G => decide (scoresOf G [66] ≠ [] ∧ ∀ x ∈ scoresOf G [66], x.1 ≠ 9)
        | none => false) = true := by decide +kernel
    split at ht
    · rename_i G hG
      exact ⟨G, hG, by decide +kernel, of_decide_eq_true ht⟩
    · cases ht
  obtain ⟨G, g1, g2⟩ := hx
  have ha : (Files.serve ⟨noCompression, false⟩ (exEnvAt 4) nineList moveDown).1 = .ok := by decide +kernel
  rw [ha] at h1
  refine ⟨ls, T, G, h1, h2, h3, ?_, g2⟩
  rw [← g1]
  unfold remains
  rw [show T.lazy.store [] = _ from h4]

/-! ### Executable runs -/

/-- What happens next. -/
inductive BAct
  | event (e : Files.Event)
  | effect
  | answer
  | saver (l : LazySaver.Label)

/-- One step, if it can be taken. -/
def bAct (c : Setup) (n : Nat) (a : BAct) (B : Behind) :
    Option (Option Files.Event × Option Files.Response × Option LazySaver.Label × Behind) :=
  match a, B with
  | .event (.change env r), ⟨σ, lists, none⟩ =>
    some (some (.change env r), none, none,
      ⟨σ, lists, some ⟨(handle env (Files.db ⟨view σ, lists⟩) r).1, (handle env (Files.db ⟨view σ, lists⟩) r).2⟩⟩)
  | .event (.ask sch q), ⟨σ, lists, none⟩ =>
    some (some (.ask sch q), some (.shown (Server.ask sch (Files.db ⟨view σ, lists⟩) q)), none, ⟨σ, lists, none⟩)
  | .effect, ⟨σ, lists, some ⟨a, e :: todo⟩⟩ =>
    some (none, none, call? c lists e, ⟨lazyAfter σ (call? c lists e), listsAfter lists e, some ⟨a, todo⟩⟩)
  | .answer, ⟨σ, lists, some ⟨a, []⟩⟩ => some (none, some (.answer a), none, ⟨σ, lists, none⟩)
  | .saver l, ⟨σ, lists, j⟩ =>
    if ofSaver l = true ∧ LazySaver.enabled n σ l then some (none, none, some l, ⟨LazySaver.step σ l, lists, j⟩) else none
  | _, _ => none

theorem bAct_step {c : Setup} {n : Nat} {a : BAct} {B T : Behind} {e : Option Files.Event} {r : Option Files.Response}
    {l : Option LazySaver.Label} (h : bAct c n a B = some (e, r, l, T)) : BStep c n B e r l T := by
  unfold bAct at h
  split at h
  · cases h; exact .arrive _ _
  · cases h; exact .ask _ _
  · cases h; exact .effect
  · cases h; exact .answer
  · split at h
    · rename_i hc
      cases h
      exact .saver _ hc.1 hc.2
    · cases h
  · cases h

/-- Steps one after the other. -/
def bActs (c : Setup) (n : Nat) (B : Behind) : List BAct →
    Option (List Files.Event × List Files.Response × List LazySaver.Label × Behind)
  | [] => some ([], [], [], B)
  | a :: as =>
    match bAct c n a B with
    | none => none
    | some (e, r, l, M) =>
      match bActs c n M as with
      | none => none
      | some (es, rs, ls, T) => some (e.toList ++ es, r.toList ++ rs, l.toList ++ ls, T)

theorem bActs_run {c : Setup} {n : Nat} {B T : Behind} {as : List BAct} {es : List Files.Event} {rs : List Files.Response}
    {ls : List LazySaver.Label} (h : bActs c n B as = some (es, rs, ls, T)) : BRun c n B es rs ls T := by
  induction as generalizing B es rs ls with
  | nil => cases h; exact .refl
  | cons a as ih =>
    unfold bActs at h
    split at h
    · cases h
    · rename_i e r l M ha
      split at h
      · cases h
      · rename_i es' rs' ls' T' hb
        cases h
        have h1 : BRun c n B ([] ++ e.toList) ([] ++ r.toList) ([] ++ l.toList) M := .step .refl (bAct_step ha)
        simp only [List.nil_append] at h1
        exact brun_trans h1 (ih hb)

/-- The events among the steps. -/
def eventsOf (as : List BAct) : List Files.Event := as.filterMap fun a => match a with
  | .event e => some e
  | _ => none

theorem bActs_events {c : Setup} {n : Nat} {B T : Behind} {as : List BAct} {es : List Files.Event} {rs : List Files.Response}
    {ls : List LazySaver.Label} (h : bActs c n B as = some (es, rs, ls, T)) : es = eventsOf as := by
  induction as generalizing B es rs ls with
  | nil => cases h; rfl
  | cons a as ih =>
    unfold bActs at h
    split at h
    · cases h
    · rename_i e r l M ha
      split at h
      · cases h
      · rename_i es' rs' ls' T' hb
        cases h
        rw [ih hb]
        unfold bAct at ha
        split at ha
        · cases ha; rfl
        · cases ha; rfl
        · cases ha; rfl
        · cases ha; rfl
        · split at ha
          · cases ha; rfl
          · cases ha
        · cases ha

/-- A request with all its changes, while the savers do nothing. -/
def queuedRequest (k : Nat) (env : Env) (r : Request) : List BAct :=
  .event (.change env r) :: (List.replicate k .effect ++ [.answer])

/-- One item is saved. -/
def oneSaved : List BAct := savedAtOnce.map .saver

/-- The catalogue is saved, a list is created, the catalogue is saved again, and then the first item of the queue is written. -/
def catalogueActs : List BAct :=
  queuedRequest 1 (exEnvAt 0) .save ++ queuedRequest 5 (exEnvAt 1) (.create false exPayload) ++ queuedRequest 1 (exEnvAt 2) .save ++ oneSaved

def noFailureTest (ls : List LazySaver.Label) : Bool := ls.all fun l => match l with
  | .write _ false => false
  | _ => true

theorem noFailure_of_test {ls : List LazySaver.Label} (h : noFailureTest ls = true) : NoFailure ls := by
  intro i hm
  have := List.all_eq_true.1 h _ hm
  cases this

/-- All requests were answered with success. -/
def okTest (rs : List Files.Response) : Bool := rs.all fun r => match r with
  | .answer .ok => true
  | _ => false

theorem ok_of_test {rs : List Files.Response} (h : okTest rs = true) : rs = List.replicate rs.length (.answer .ok) := by
  induction rs with
  | nil => rfl
  | cons r rs ih =>
    simp only [okTest, List.all_cons, Bool.and_eq_true] at h
    obtain ⟨h1, h2⟩ := h
    rw [List.length_cons, List.replicate_succ, ← ih h2]
    cases r with
    | answer a => cases a <;> first | rfl | cases h1
    | shown x => cases h1
    | started b => cases h1

/-- What the queue has for a key is replaced in place. So a catalogue can be written before the list that it names: after the
crash the list is in the catalogue, nothing of it can be read, and it cannot be created either. Without the write-behind
store its segments are written before it is in any saved catalogue. -/
theorem C101_catalogue_first : ∃ rs ls T G, BRun ⟨noCompression, false⟩ 1 (begun emptyFiles)
      [.change (exEnvAt 0) .save, .change (exEnvAt 1) (.create false exPayload), .change (exEnvAt 2) .save] rs ls T ∧
    NoFailure ls ∧ T.job = none ∧ rs = [.answer .ok, .answer .ok, .answer .ok] ∧
    start ⟨noCompression, false⟩ (remains T) = some G ∧ (byID G.lists [66]).isSome = true ∧ look G.db [66] = none ∧
    (Files.serve ⟨noCompression, false⟩ (exEnvAt 3) G (.create false exPayload)).1 = .conflict := by
  have ht : (match bActs ⟨noCompression, false⟩ 1 (begun emptyFiles) catalogueActs with
      | none => false
      | some (_, rs, ls, T) => noFailureTest ls && T.job.isNone && okTest rs && decide (rs.length = 3) &&
        match start ⟨noCompression, false⟩ (remains T) with
        | none => false
        | some G => (byID G.lists [66]).isSome && (look G.db [66]).isNone &&
          decide ((Files.serve ⟨noCompression, false⟩ (exEnvAt 3) G (.create false exPayload)).1 = .conflict)) = true := by
    decide +kernel
  split at ht
  · cases ht
  · rename_i es rs ls T hT
    rw [Bool.and_eq_true] at ht
    obtain ⟨ht, hs⟩ := ht
    split at hs
    · cases hs
    · rename_i G hG
      simp only [Bool.and_eq_true, decide_eq_true_eq, Option.isNone_iff_eq_none] at ht hs
      obtain ⟨⟨⟨t1, t2⟩, t3⟩, t4⟩ := ht
      have hr := bActs_run hT
      rw [bActs_events hT] at hr
      refine ⟨rs, ls, T, G, hr, noFailure_of_test t1, t2, ?_, hG, hs.1.1, hs.1.2, hs.2⟩
      rw [ok_of_test t3, t4]
      rfl

/-! ### An example -/

/-- Two lists are created and the catalogue is saved; the savers do their work in between and afterwards. -/
def exSettled : List BAct :=
  queuedRequest 5 (exEnvAt 0) (.create false { exPayload with id := [65] }) ++ oneSaved ++
  queuedRequest 5 (exEnvAt 1) (.create false exPayload) ++ queuedRequest 1 (exEnvAt 2) .save ++
  (List.replicate 8 oneSaved).flatten

/-- Elements are added to the second list, which is saved in part while they are added. -/
def exUnsettled : List BAct :=
  .event (.change (exEnvAt 3) (.putElements [66] [⟨99, 6, [], 0, 0⟩, ⟨1, 77, [], 0, 0⟩])) :: .effect :: .effect ::
    (oneSaved ++ [.effect])

/-- The requests. -/
def exMade : List (Env × Request) :=
  [(exEnvAt 0, .create false { exPayload with id := [65] }), (exEnvAt 1, .create false exPayload), (exEnvAt 2, .save)]
def exAdded : List (Env × Request) := [(exEnvAt 3, .putElements [66] [⟨99, 6, [], 0, 0⟩, ⟨1, 77, [], 0, 0⟩])]

theorem exBoth_orderly : Orderly noLists (exMade.map (fun x => Files.Event.change x.1 x.2) ++ exAdded.map (fun x => .change x.1 x.2)) := by
  rw [← List.map_append, ← List.append_nil (List.map _ _)]
  refine orderly_changes (ready_of_test _ _ ?_ (by decide +kernel)) (roomy_of_test _ _ (by decide +kernel)) (by decide +kernel) trivial
  intro x hx
  simp only [exMade, exAdded, List.cons_append, List.nil_append, List.mem_cons, List.not_mem_nil, or_false] at hx
  rcases hx with h | h | h | h <;> (rw [h]; rfl)

/-- The conditions hold for a run that ends within a request to the second list; the crash brings back the first one. -/
example : ∃ rs1 ls1 S rs2 ls2 T,
    BRun ⟨noCompression, false⟩ 1 (begun emptyFiles) (exMade.map fun x => .change x.1 x.2) rs1 ls1 S ∧ S.job = none ∧
    S.lazy.queue = [] ∧ BRun ⟨noCompression, false⟩ 1 S (exAdded.map fun x => .change x.1 x.2) rs2 ls2 T ∧ NoFailure (ls1 ++ ls2) ∧
    T.job ≠ none ∧ T.lazy.queue.length = 2 ∧
    byID (seenOf noLists (exMade.map fun x => .change x.1 x.2)).2.file [65] =
      byID (seenOf noLists (exMade.map fun x => .change x.1 x.2)).2.lists [65] ∧
    (match start ⟨noCompression, false⟩ (remains T) with
      | none => []
      | some G => scoresOf G [65]) = [(3, 9), (2, 9), (1, 3)] := by
  have ht : (match bActs ⟨noCompression, false⟩ 1 (begun emptyFiles) exSettled with
      | none => false
      | some (_, _, ls1, S) => S.job.isNone && S.lazy.queue.isEmpty &&
        match bActs ⟨noCompression, false⟩ 1 S exUnsettled with
        | none => false
        | some (_, _, ls2, T) => noFailureTest (ls1 ++ ls2) && T.job.isSome && decide (T.lazy.queue.length = 2) &&
          decide ((match start ⟨noCompression, false⟩ (remains T) with
            | none => []
            | some G => scoresOf G [65]) = [(3, 9), (2, 9), (1, 3)])) = true := by decide +kernel
  split at ht
  · cases ht
  · rename_i es1 rs1 ls1 S hS
    rw [Bool.and_eq_true] at ht
    obtain ⟨ht, hs⟩ := ht
    split at hs
    · cases hs
    · rename_i es2 rs2 ls2 T hT
      simp only [Bool.and_eq_true, decide_eq_true_eq, Option.isNone_iff_eq_none, List.isEmpty_iff] at ht hs
      obtain ⟨⟨⟨t1, t2⟩, t3⟩, t4⟩ := hs
      have h1 := bActs_run hS
      have h2 := bActs_run hT
      rw [bActs_events hS] at h1
      rw [bActs_events hT] at h2
      refine ⟨rs1, ls1, S, rs2, ls2, T, h1, ht.1, ht.2, h2, noFailure_of_test t1, ?_, t3, by decide +kernel, t4⟩
      intro hn
      rw [hn] at t2
      cases t2

end RankDB.Props

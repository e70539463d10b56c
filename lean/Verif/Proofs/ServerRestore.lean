import Verif.Spec.ServerRestore
import Verif.Proofs.Bytes
import Verif.Props.Restart
import Verif.Props.BackupSet
/-
Lemmas about restoring a backup set on a server.
-/
namespace RankDB.Server
open Wire Stored Disk Spec

theorem readParts_of_decN : ∀ (n : Nat) (b : Bytes) (ps : List (SegMeta × List Element)) (r : Bytes),
    decN Backup.decPart n b = some (ps, r) → readParts n b = ps
  | 0, b, ps, r, h => by
    simp only [decN] at h
    cases h
    rfl
  | n + 1, b, ps, r, h => by
    simp only [decN, bind, pure] at h
    simp only [readParts]
    cases hx : Backup.decPart b with
    | none => rw [hx] at h; simp at h
    | some x =>
      rw [hx] at h
      dsimp only at h
      cases hy : decN Backup.decPart n x.2 with
      | none => rw [hy] at h; simp at h
      | some y =>
        rw [hy] at h
        simp only [Option.some.injEq, Prod.mk.injEq] at h
        rw [← h.1]
        show x.1 :: readParts n x.2 = _
        rw [readParts_of_decN n x.2 y.1 y.2 hy]

theorem partsOf_of_parse {b : Bytes} {p : Backup.Parsed} (h : Backup.parse b = .ok p) : partsOf b = p.parts := by
  unfold Backup.parse at h
  unfold partsOf
  dsimp only at h ⊢
  split at h
  · simp at h
  · rename_i h1
    rw [if_neg h1]
    split at h
    · simp at h
    · rename_i l b1 h2
      rw [h2]
      dsimp only
      split at h
      · simp at h
      · rename_i h3
        rw [if_neg h3]
        split at h
        · simp at h
        · rename_i t b2 h4
          rw [h4]
          dsimp only
          split at h
          · simp at h
          · rename_i h5
            rw [if_neg h5]
            split at h
            · simp at h
            · rename_i n b3 h6
              rw [h6]
              dsimp only
              split at h
              · simp at h
              · split at h
                · simp at h
                · rename_i ps r h7
                  simp only [Except.ok.injEq] at h
                  rw [← h]
                  exact readParts_of_decN _ _ _ _ h7

theorem restore_facts {now : Nat} {sch : Sched} {dst scores index : Str} {b : Bytes} {l : ListRec} {st : ListState}
    (h : Backup.restore now sch (some dst) scores index b = some (.ok (l, st))) :
    st.scores.segs = (partsOf b).map (Backup.toSeg now) := by
  unfold Backup.restore at h
  cases hp : Backup.parse b with
  | error e => rw [hp] at h; simp at h
  | ok p =>
    rw [hp] at h
    dsimp only at h
    rw [partsOf_of_parse hp]
    unfold Lists.reindex at h
    rw [Option.map_map] at h
    obtain ⟨q, -, hq⟩ := Option.map_eq_some_iff.1 h
    simp only [Function.comp_apply, Except.ok.injEq, Prod.mk.injEq] at hq
    rw [← hq.2]

/-- Everything that `RestoreList` writes has one of the new names. -/
theorem parent_restoreList {e : Names} {dst : Str} {b : Bytes} : ∀ w ∈ (restoreList e dst b).2, w.parent ∈ Names.all e := by
  intro w hw
  unfold restoreList at hw
  dsimp only at hw
  split at hw
  · rename_i l st hr
    have hl : (Files.listingOf l).ent.scores = e.scores ∧ (Files.listingOf l).ent.index = e.index := by
      unfold Backup.restore at hr
      cases hp : Backup.parse b with
      | error x => rw [hp] at hr; simp at hr
      | ok p =>
        rw [hp] at hr
        dsimp only at hr
        obtain ⟨q, -, hq⟩ := Option.map_eq_some_iff.1 hr
        simp only [Except.ok.injEq, Prod.mk.injEq] at hq
        rw [← hq.1]
        exact ⟨rfl, rfl⟩
    simp only [List.mem_append] at hw
    unfold Names.all
    rcases hw with hw | hw | hw | hw | hw
    · rw [parent_newSegs w hw]; simp
    · rw [parent_newSegs w hw, hl.2]; simp
    · simp only [List.mem_singleton] at hw
      subst hw
      show (Files.listingOf l).ent.index ∈ _
      rw [hl.2]; simp
    · rw [parent_deleteSegs w hw]; simp
    · rcases parent_save w hw with h | h
      · rw [h, hl.1]; simp
      · rw [h, hl.2]; simp
  · rw [parent_newSegs w hw]; simp [Names.all]

/-- The backup of a list, as far as restoring is concerned: it always gives the list that is described. -/
def Restores (p : Bytes) (s : Seen) : Prop :=
  ∀ (e : Names) (dst : Str) (d : Store), (Names.all e).Nodup → ∃ l st, (restoreList e dst p).1 = some l ∧ l.id = dst ∧
    l.ent.scores = e.scores ∧ l.ent.index = e.index ∧ 4 ≤ l.ent.splitSize ∧
    reload (writes d (restoreList e dst p).2) l.ent = some st ∧ ListOK st ∧ viewOf l st = fromBackup s

/-- What is in the storage of a server in good order can be backed up. -/
theorem writable_of {db : Db} {l : Listing} {st : ListState} (h : Good db) (hf : Files.AllFit db) (hl : l ∈ db.lists)
    (hr : reload db.store l.ent = some st) (hok : ListOK st) (hlen : st.content.length + 2 ≤ 2 ^ 32) :
    Backup.Writable (Files.recOf l) st := by
  obtain ⟨h1, h2, h3, h4⟩ := reload_iff.1 hr
  obtain ⟨hd, hd1, hd2⟩ := Option.map_eq_some_iff.1 h1.heads
  have hhead : HeadFits (head hd) := by
    have := hf.bounds.store.heads _ _ hd1
    refine ⟨this.next, by simpa [head] using this.count, ?_⟩
    intro g hg
    obtain ⟨x, hx, rfl⟩ := List.mem_map.1 hg
    obtain ⟨a, b, c, d, e, f, g⟩ := this.segs x hx
    exact ⟨a, b, c, d, e, f, g⟩
  rw [hd2] at hhead
  refine ⟨hok, (hf.lists l hl).stored, ?_, ?_, ?_, ?_, hlen, ?_, ?_⟩
  · show (l.ent.splitSize : Int) = _; rw [h4]
  · show (l.ent.mergeSize : Int) = _; rw [h3]
  · intro s hs
    have := (hhead.segs { s with elems := [] } (List.mem_map.2 ⟨s, hs, rfl⟩)).time.2
    show s.updated < _
    have h' : s.updated < 2 ^ 32 := this
    omega
  · intro e he
    obtain ⟨s, hs, hes⟩ := mem_allElems.1 he
    have := ((hf.bounds.store.elems _ _ _ (h1.elems s hs)).fine e hes).payload
    show e.payload.length ≤ 2 ^ 32 - 1
    omega
  · have := h.sizes l hl
    omega
  · have := hhead.next
    show st.scores.nextID ≤ 2 ^ 32 - 1
    have h' : st.scores.nextID < 2 ^ 32 := this
    omega

theorem restores_of {db : Db} {id : Str} {s : Seen} (h : Good db) (hf : Files.AllFit db) (hs : look db id = some s)
    (hlen : s.content.length + 2 ≤ 2 ^ 32) : ∃ p, payloadOf db id = some (some p) ∧ Restores p s := by
  rcases Server.Good.look h (id := id) with ⟨l, st, l1, l2, l3, l4, l5, l6⟩ | ⟨-, h2⟩
  · rw [hs] at l6
    cases l6
    have hw := writable_of h hf l1 l4 l5 hlen
    refine ⟨Backup.backup (Files.recOf l) st, by unfold payloadOf; rw [l3, Option.map_some, l4]; rfl, ?_⟩
    intro e dst d hn
    obtain ⟨l', st', hr, a1, a2, a3, a4, a5, a6, a7, a8, a9, a10, a11, a12⟩ :=
      Props.C32_roundtrip (Files.recOf l) st hw e.now e.sch (some dst) e.scores e.index []
    rw [List.append_nil] at hr
    have hsegs := restore_facts hr
    obtain ⟨-, -, m1, m2⟩ := reload_iff.1 l4
    have b1 : l'.splitSize = (l.ent.splitSize : Int) := a8
    have b2 : l'.mergeSize = (l.ent.mergeSize : Int) := a9
    simp only [reduceCtorEq, if_false] at a12
    simp only [Names.all, List.nodup_cons, List.mem_cons, List.not_mem_nil, or_false, not_or, not_false_eq_true,
      List.nodup_nil, and_true] at hn
    obtain ⟨⟨n1, n2⟩, n3⟩ := hn
    refine ⟨Files.listingOf l', st', ?_, a5, a12, a11, ?_, ?_, a1, ?_⟩
    · unfold restoreList; rw [hr]
    · show 4 ≤ l'.splitSize.toNat
      rw [b1]
      exact h.sizes l l1
    · unfold restoreList
      rw [hr]
      dsimp only
      rw [← hsegs]
      have e1 : (Files.listingOf l').ent.scores = e.scores := a12
      have e2 : (Files.listingOf l').ent.index = e.index := a11
      rw [← e1, ← List.append_assoc, writes_append, writes_append, writes_append]
      have hst := new_stored d (ent := (Files.listingOf l').ent) (by rw [e1, e2]; exact n2) a1
      refine ready_save (by rw [e1, e2]; exact n2) ⟨?_, ?_⟩ ?_ ?_
      · intro g hg
        rw [(writes_other _ (p := (Files.listingOf l').ent.scores) (fun w hw => by
            rw [parent_deleteSegs w hw, e1]; exact fun x => n1 x.symm)).2,
          (writes_other _ (p := (Files.listingOf l').ent.scores) (fun w hw => by
            simp only [List.mem_cons, List.not_mem_nil, or_false] at hw
            subst hw
            rw [e1]; show (Files.listingOf l').ent.index ≠ _; rw [e2]; exact fun x => n2 x.symm)).2]
        exact hst.scores g hg
      · intro g hg
        rw [(writes_other _ (p := (Files.listingOf l').ent.index) (fun w hw => by
            rw [parent_deleteSegs w hw, e2]; exact n3)).2]
        exact hst.index g hg
      · show l'.mergeSize.toNat = _
        rw [b2, a3]; exact m1
      · show l'.splitSize.toNat = _
        rw [b1, a4]; exact m2
    · unfold viewOf fromBackup
      have c1 : l'.mergeSize.toNat = l.ent.mergeSize := by rw [b2]; rfl
      have c2 : l'.splitSize.toNat = l.ent.splitSize := by rw [b1]; rfl
      simp only [Files.listingOf, c1, c2, a2, a6, a7, a10]
      rfl
  · rw [hs] at h2; simp at h2

/-! ### One list -/

theorem dropOld_good {e : Names} {db : Db} {dst : Str} (h : Good db) :
    Good (applyAll db (dropOld e db dst)) ∧ look (applyAll db (dropOld e db dst)) = (look db).set dst none ∧
    (applyAll db (dropOld e db dst)).file = db.file ∧
    (applyAll db (dropOld e db dst)).lists = db.lists.filter (fun x => x.id != dst) := by
  unfold dropOld
  rcases Server.Good.look h (id := dst) with ⟨l, st, l1, l2, l3, l4, l5, l6⟩ | ⟨h1, h2⟩
  · rw [l3]
    dsimp only
    show Good (applyAll (apply db (.drop dst)) _) ∧ look (applyAll (apply db (.drop dst)) _) = _ ∧
      (applyAll (apply db (.drop dst)) _).file = _ ∧ (applyAll (apply db (.drop dst)) _).lists = _
    rw [applyAll_blobs, ← l2]
    obtain ⟨g1, g2⟩ := good_drop (ws := deleteAll e.sch db.store l.ent) h l1 parent_deleteAll
    exact ⟨g1, g2, rfl, rfl⟩
  · rw [h1]
    refine ⟨h, ?_, rfl, ?_⟩
    · funext x
      show look db x = if x = dst then none else look db x
      split
      · rename_i hx; rw [hx]; exact h2
      · rfl
    · refine (List.filter_eq_self.2 fun x hx => ?_).symm
      simpa using byID_none h1 x hx

/-- One list is restored. -/
theorem restore_one {e : Names} {db : Db} {dst : Str} {p : Bytes} {s : Seen} (h : Good db) (hd : (Names.all e).Nodup)
    (hf : ∀ l ∈ db.lists, ∀ n ∈ Names.all e, n ∉ names l) (hr : Restores p s) :
    ∃ l, (restoreList e dst p).1 = some l ∧ l.id = dst ∧ (∀ n ∈ names l, n ∈ Names.all e) ∧
      let db' := applyAll db (dropOld e db dst ++ ((restoreList e dst p).2.map .blob ++ [.put l]))
      Good db' ∧ look db' = (look db).set dst (some (fromBackup s)) ∧ db'.file = db.file ∧
      ∀ x ∈ db'.lists, x = l ∨ x ∈ db.lists := by
  obtain ⟨g1, g2, g3, g4⟩ := dropOld_good (e := e) (dst := dst) h
  obtain ⟨l, st, r1, r2, r3, r4, r5, r6, r7, r8⟩ := hr e dst (applyAll db (dropOld e db dst)).store hd
  have hsub : ∀ x ∈ (applyAll db (dropOld e db dst)).lists, x ∈ db.lists := by
    rw [g4]; exact fun x hx => (List.mem_filter.1 hx).1
  have hall : e.scores ∈ Names.all e ∧ e.index ∈ Names.all e := by simp [Names.all]
  refine ⟨l, r1, r2, ?_, ?_⟩
  · intro n hn
    simp only [Spec.names, List.mem_cons, List.not_mem_nil, or_false] at hn
    rcases hn with rfl | rfl
    · rw [r3]; exact hall.1
    · rw [r4]; exact hall.2
  · intro db'
    have hdb' : db' = { applyAll db (dropOld e db dst) with
        store := writes (applyAll db (dropOld e db dst)).store (restoreList e dst p).2
        lists := l :: (applyAll db (dropOld e db dst)).lists.filter fun x => x.id != l.id } := by
      show applyAll db _ = _
      rw [applyAll_append, applyAll_append, applyAll_blobs]
      rfl
    have hne : l.ent.scores ≠ l.ent.index := by
      simp only [Names.all, List.nodup_cons, List.mem_cons, List.not_mem_nil, or_false, not_or] at hd
      rw [r3, r4]; exact hd.1.2
    obtain ⟨p1, p2⟩ := good_put_apart (l := l) (ws := (restoreList e dst p).2) g1 hne r5
      (fun x hx _ => by rw [r3, r4]; exact ⟨hf x (hsub x hx) _ hall.1, hf x (hsub x hx) _ hall.2⟩)
      (fun w hw x hx _ => hf x (hsub x hx) _ (parent_restoreList w hw)) r6 r7
    rw [hdb']
    refine ⟨p1, ?_, g3, ?_⟩
    · rw [p2, g2, r2, r8]
      funext x
      unfold Lists.set
      split <;> rfl
    · intro x hx
      rcases List.mem_cons.1 hx with h1 | h1
      · exact .inl h1
      · exact .inr (hsub x (List.mem_filter.1 h1).1)

/-! ### The records of a set -/

theorem restoreLoop_record (pre suf : Str) (replace : Bool) (env : Nat → Names) (fuel k : Nat) (db : Db)
    (res : Backup.Result) {i : Str × Bytes} (h : Backup.Short i) (rest : Bytes) :
    restoreLoop pre suf replace env (fuel + 1) k db res (Backup.record i.1 i.2 ++ rest) =
      if (byID db.lists (pre ++ i.1 ++ suf)).isSome ∧ replace = false then
        restoreLoop pre suf replace env fuel k db { res with skipped := res.skipped + 1 } rest
      else match (restoreList (env k) (pre ++ i.1 ++ suf) i.2).1 with
        | none => (.panic, dropOld (env k) db (pre ++ i.1 ++ suf) ++
            (restoreList (env k) (pre ++ i.1 ++ suf) i.2).2.map .blob)
        | some l =>
          let es := dropOld (env k) db (pre ++ i.1 ++ suf) ++
            ((restoreList (env k) (pre ++ i.1 ++ suf) i.2).2.map .blob ++ [.put l])
          let t := restoreLoop pre suf replace env fuel (k + 1) (applyAll db es)
            { res with restored := res.restored + 1 } rest
          (t.1, es ++ t.2) := by
  unfold Backup.record
  simp only [List.append_assoc]
  rw [restoreLoop, reads_bool true]
  dsimp only
  rw [getVersion_enc (by decide)]
  dsimp only
  rw [if_neg (by simp), reads_str (lt_of_le_maxU32 h.1)]
  dsimp only
  rw [reads_bin (lt_of_le_maxU32 h.2)]
  dsimp only
  unfold Backup.dest
  simp only [List.append_assoc]
  rfl

/-- A record of a set that can be restored: the ID, the bytes, and what a user saw of the list. -/
structure Item where
  id : Str
  payload : Bytes
  seen : Seen

/-- The stream of some records. -/
def Item.bytes (is : List Item) : Bytes := is.flatMap fun i => Backup.record i.id i.payload

/-- What the records describe. -/
def Item.set (is : List Item) : List (Str × Seen) := is.map fun i => (i.id, i.seen)

/-- The record is passed over. -/
def kept (pre suf : Str) (replace : Bool) (L : Lists) (id : Str) : Bool := (L (pre ++ id ++ suf)).isSome && !replace

theorem byID_look {db : Db} (h : Good db) (id : Str) : (byID db.lists id).isSome = (look db id).isSome := by
  rcases Server.Good.look h (id := id) with ⟨l, st, -, -, h3, -, -, h6⟩ | ⟨h1, h2⟩
  · rw [h3, h6]; rfl
  · rw [h1, h2]; rfl

theorem dest_inj {pre suf a b : Str} (h : pre ++ a ++ suf = pre ++ b ++ suf) : a = b :=
  List.append_cancel_left (List.append_cancel_right h)

/-- The records `is` are read, and then the rest. -/
theorem restoreLoop_items (pre suf : Str) (replace : Bool) (env : Nat → Names) (is : List Item) (rest : Bytes)
    (hs : ∀ i ∈ is, Backup.Short (i.id, i.payload) ∧ Restores i.payload i.seen) (hn : (is.map (·.id)).Nodup)
    (hd : ∀ k, (Names.all (env k)).Nodup) (ha : ∀ j k, ∀ n ∈ Names.all (env j), n ∈ Names.all (env k) → j = k)
    (fuel k : Nat) (db : Db) (res : Backup.Result) (h : Good db)
    (hf : ∀ j, k ≤ j → ∀ l ∈ db.lists, ∀ n ∈ Names.all (env j), n ∉ names l) :
    ∃ es k', let db' := applyAll db es
      restoreLoop pre suf replace env (is.length + fuel) k db res (Item.bytes is ++ rest) =
        (let t := restoreLoop pre suf replace env fuel k' db'
          { res with restored := res.restored + is.countP (fun i => !kept pre suf replace (look db) i.id)
                     skipped := res.skipped + is.countP (fun i => kept pre suf replace (look db) i.id) } rest
         (t.1, es ++ t.2)) ∧
      k ≤ k' ∧ Good db' ∧ look db' = afterRestore pre suf replace (Item.set is) (look db) ∧ db'.file = db.file ∧
      (∀ j, k' ≤ j → ∀ l ∈ db'.lists, ∀ n ∈ Names.all (env j), n ∉ names l) := by
  induction is generalizing k db res with
  | nil =>
    refine ⟨[], k, ?_, Nat.le_refl _, h, ?_, rfl, hf⟩
    · simp [Item.bytes, applyAll]
    · funext x; rfl
  | cons i is ih =>
    rw [List.map_cons, List.nodup_cons] at hn
    have hshort := (hs i (List.mem_cons_self ..)).1
    have hbytes : Item.bytes (i :: is) ++ rest = Backup.record i.id i.payload ++ (Item.bytes is ++ rest) := by
      simp [Item.bytes, List.append_assoc]
    have hfuel : (i :: is).length + fuel = (is.length + fuel) + 1 := by rw [List.length_cons]; omega
    have hne : ∀ j ∈ is, pre ++ j.id ++ suf ≠ pre ++ i.id ++ suf := fun j hj he =>
      hn.1 (List.mem_map.2 ⟨j, hj, dest_inj he⟩)
    have hfind : ∀ x, pre ++ i.id ++ suf = x → (Item.set is).find? (fun i => decide (pre ++ i.1 ++ suf = x)) = none := by
      intro x hx
      rw [List.find?_eq_none]
      intro j hj
      obtain ⟨y, hy, rfl⟩ := List.mem_map.1 hj
      simp only [decide_eq_true_eq]
      exact fun hjx => hne y hy (hjx.trans hx.symm)
    rw [hbytes, hfuel, restoreLoop_record pre suf replace env _ k db res (i := (i.id, i.payload)) hshort]
    have hb := byID_look h (pre ++ i.id ++ suf)
    by_cases hk : (byID db.lists (pre ++ i.id ++ suf)).isSome ∧ replace = false
    · have hk' : kept pre suf replace (look db) i.id = true := by
        unfold kept; rw [← hb, hk.1, hk.2]; rfl
      simp only [if_pos hk]
      obtain ⟨es, k', e1, e2, e3, e4, e5, e6⟩ := ih (fun j hj => hs j (List.mem_cons_of_mem _ hj)) hn.2 k db
        { res with skipped := res.skipped + 1 } h hf
      refine ⟨es, k', ?_, e2, e3, ?_, e5, e6⟩
      · rw [e1]
        dsimp only
        rw [List.countP_cons_of_neg (by simp [hk']), List.countP_cons_of_pos (p := fun i : Item => kept pre suf replace (look db) i.id) hk', show res.skipped + 1 +
          is.countP (fun i => kept pre suf replace (look db) i.id) = res.skipped +
          (is.countP (fun i => kept pre suf replace (look db) i.id) + 1) by omega]
      · rw [e4]
        funext x
        unfold afterRestore
        by_cases hx : pre ++ i.id ++ suf = x
        · rw [hfind x hx]
          show look db x = match ((i.id, i.seen) :: Item.set is).find? _ with | some i => _ | none => _
          rw [List.find?_cons_of_pos (by simpa using hx)]
          dsimp only
          rw [if_pos (by rw [← hx, ← hb]; exact hk)]
        · show _ = match ((i.id, i.seen) :: Item.set is).find? _ with | some i => _ | none => _
          rw [List.find?_cons_of_neg (by simpa using hx)]
          rfl
    · have hk' : kept pre suf replace (look db) i.id = false := by
        unfold kept; rw [← hb]
        cases h1 : (byID db.lists (pre ++ i.id ++ suf)).isSome
        · rfl
        · cases replace
          · exact absurd ⟨h1, rfl⟩ hk
          · rfl
      simp only [if_neg hk]
      obtain ⟨l, r1, r2, r3, r4, r5, r6, r7⟩ := restore_one (dst := pre ++ i.id ++ suf) h (hd k) (hf k (Nat.le_refl _))
        (hs i (List.mem_cons_self ..)).2
      rw [r1]
      dsimp only at r4 r5 r6 r7 ⊢
      generalize hes0 : dropOld (env k) db (pre ++ i.id ++ suf) ++
        ((restoreList (env k) (pre ++ i.id ++ suf) i.payload).2.map .blob ++ [.put l]) = es0 at *
      obtain ⟨es, k', e1, e2, e3, e4, e5, e6⟩ := ih (fun j hj => hs j (List.mem_cons_of_mem _ hj)) hn.2 (k + 1)
        (applyAll db es0) { res with restored := res.restored + 1 } r4 (by
          intro j hj x hx n hnn hnx
          rcases r7 x hx with rfl | hx
          · have := ha j k n hnn (r3 n hnx)
            omega
          · exact hf j (by omega) x hx n hnn hnx)
      have hkept : ∀ j ∈ is, kept pre suf replace (look (applyAll db es0)) j.id = kept pre suf replace (look db) j.id := by
        intro j hj
        unfold kept
        rw [r5]
        unfold Lists.set
        rw [if_neg (hne j hj)]
      refine ⟨es0 ++ es, k', ?_, by omega, ?_, ?_, ?_, ?_⟩
      · rw [e1]
        dsimp only
        rw [applyAll_append]
        have c1 : is.countP (fun i => !kept pre suf replace (look (applyAll db es0)) i.id) =
            is.countP (fun i => !kept pre suf replace (look db) i.id) := List.countP_congr fun j hj => by rw [hkept j hj]
        have c2 : is.countP (fun i => kept pre suf replace (look (applyAll db es0)) i.id) =
            is.countP (fun i => kept pre suf replace (look db) i.id) := List.countP_congr fun j hj => by rw [hkept j hj]
        rw [c1, c2, List.countP_cons_of_pos (by simp [hk']), List.countP_cons_of_neg (by simp [hk']),
          show res.restored + 1 + is.countP (fun i => !kept pre suf replace (look db) i.id) = res.restored +
          (is.countP (fun i => !kept pre suf replace (look db) i.id) + 1) by omega, List.append_assoc]
      · rw [applyAll_append]; exact e3
      · rw [applyAll_append, e4]
        funext x
        unfold afterRestore
        by_cases hx : pre ++ i.id ++ suf = x
        · rw [hfind x hx]
          show look (applyAll db es0) x = match ((i.id, i.seen) :: Item.set is).find? _ with | some i => _ | none => _
          rw [List.find?_cons_of_pos (by simpa using hx)]
          dsimp only
          rw [if_neg (by rw [← hx, ← hb]; exact hk), r5]
          unfold Lists.set
          rw [if_pos hx.symm]
        · show _ = match ((i.id, i.seen) :: Item.set is).find? _ with | some i => _ | none => _
          rw [List.find?_cons_of_neg (by simpa using hx)]
          have hxe : look (applyAll db es0) x = look db x := by
            rw [r5]; unfold Lists.set; rw [if_neg (fun h => hx h.symm)]
          rw [hxe]
          rfl
      · rw [applyAll_append]; exact e5.trans r6
      · rw [applyAll_append]; exact e6

/-! ### What is changed at all -/

/-- A change that concerns lists with `D` and new names only. -/
def OwnRestore (D : Str → Prop) (env : Nat → Names) (d0 : Db) : Effect → Prop
  | .blob w => (∃ k, w.parent ∈ Names.all (env k)) ∨ ∃ x ∈ d0.lists, D x.id ∧ w.parent ∈ names x
  | .put l => D l.id
  | .drop id => D id
  | .save => False

/-- The lists are those of the beginning and new ones. -/
def Known (D : Str → Prop) (env : Nat → Names) (d0 db : Db) : Prop :=
  ∀ x ∈ db.lists, x ∈ d0.lists ∨ (D x.id ∧ ∀ n ∈ names x, ∃ k, n ∈ Names.all (env k))

theorem restoreList_listing {e : Names} {dst : Str} {b : Bytes} {l : Listing} (h : (restoreList e dst b).1 = some l) :
    l.id = dst ∧ ∀ n ∈ names l, n ∈ Names.all e := by
  unfold restoreList at h
  dsimp only at h
  split at h
  · rename_i r st hr
    simp only [Option.some.injEq] at h
    subst h
    unfold Backup.restore at hr
    cases hp : Backup.parse b with
    | error x => rw [hp] at hr; simp at hr
    | ok p =>
      rw [hp] at hr
      dsimp only at hr
      obtain ⟨q, -, hq⟩ := Option.map_eq_some_iff.1 hr
      simp only [Except.ok.injEq, Prod.mk.injEq] at hq
      rw [← hq.1]
      refine ⟨rfl, fun n hn => ?_⟩
      simp only [Spec.names, Files.listingOf, List.mem_cons, List.not_mem_nil, or_false] at hn
      unfold Names.all
      rcases hn with rfl | rfl <;> simp
  · simp at h

theorem dropOld_own {D : Str → Prop} {env : Nat → Names} {d0 db : Db} {dst : Str} {k : Nat} (hd : D dst)
    (h : Known D env d0 db) : ∀ e ∈ dropOld (env k) db dst, OwnRestore D env d0 e := by
  intro e he
  unfold dropOld at he
  split at he
  · simp at he
  · rename_i o ho
    obtain ⟨o1, o2⟩ := byID_mem ho
    rcases List.mem_cons.1 he with rfl | he
    · exact hd
    · obtain ⟨w, hw, rfl⟩ := List.mem_map.1 he
      have hp : w.parent ∈ names o := by
        unfold Spec.names
        rcases parent_deleteAll w hw with h1 | h1 <;> simp [h1]
      rcases h o o1 with h1 | ⟨-, h2⟩
      · exact .inr ⟨o, h1, by rw [o2]; exact hd, hp⟩
      · exact .inl (h2 _ hp)

theorem known_apply {D : Str → Prop} {env : Nat → Names} {d0 : Db} (es : List Effect) (db : Db) (h : Known D env d0 db)
    (hes : ∀ l, Effect.put l ∈ es → D l.id ∧ ∀ n ∈ names l, ∃ k, n ∈ Names.all (env k)) :
    Known D env d0 (applyAll db es) := by
  induction es generalizing db with
  | nil => exact h
  | cons e es ih =>
    show Known D env d0 (applyAll (apply db e) es)
    refine ih _ ?_ (fun l hl => hes l (List.mem_cons_of_mem _ hl))
    cases e with
    | blob w => exact h
    | put l =>
      intro x hx
      rcases List.mem_cons.1 hx with rfl | hx
      · exact .inr (hes _ (List.mem_cons_self ..))
      · exact h x (List.mem_filter.1 hx).1
    | drop id => exact fun x hx => h x (List.mem_filter.1 hx).1
    | save => exact h

theorem restoreLoop_own {D : Str → Prop} {env : Nat → Names} {d0 : Db} (pre suf : Str) (replace : Bool) :
    ∀ (fuel k : Nat) (db : Db) (res : Backup.Result) (b : Bytes), Known D env d0 db →
      (∀ id ∈ listed fuel b, D (pre ++ id ++ suf)) →
      ∀ e ∈ (restoreLoop pre suf replace env fuel k db res b).2, OwnRestore D env d0 e
  | 0, _, _, _, _, _, _ => by simp [restoreLoop]
  | fuel + 1, k, db, res, b, hk, hd => by
    rw [restoreLoop]
    rw [listed] at hd
    cases hb : decBool b with
    | none => simp
    | some x =>
      obtain ⟨t, b1⟩ := x
      rw [hb] at hd
      cases t with
      | false => simp
      | true =>
        dsimp only at hd ⊢
        by_cases hv : (getVersion b1).1 ≠ Backup.backupListVersion
        · rw [if_pos hv]; simp
        · rw [if_neg hv] at hd ⊢
          cases hs : decStr (getVersion b1).2 with
          | none => simp
          | some y =>
            obtain ⟨id, b2⟩ := y
            rw [hs] at hd
            dsimp only at hd ⊢
            cases hp : decBin b2 with
            | none => simp
            | some z =>
              obtain ⟨p, b3⟩ := z
              rw [hp] at hd
              dsimp only at hd ⊢
              have hdst : D (Backup.dest pre suf id) := hd id (List.mem_cons_self ..)
              have hrest : ∀ id ∈ listed fuel b3, D (pre ++ id ++ suf) := fun x hx => hd x (List.mem_cons_of_mem _ hx)
              have hblob : ∀ e ∈ (restoreList (env k) (Backup.dest pre suf id) p).2.map Effect.blob, OwnRestore D env d0 e := by
                intro e he
                obtain ⟨w, hw, rfl⟩ := List.mem_map.1 he
                exact .inl ⟨k, parent_restoreList w hw⟩
              by_cases hc : (byID db.lists (Backup.dest pre suf id)).isSome ∧ replace = false
              · rw [if_pos hc]
                exact restoreLoop_own pre suf replace fuel k db _ b3 hk hrest
              · rw [if_neg hc]
                cases hr : (restoreList (env k) (Backup.dest pre suf id) p).1 with
                | none =>
                  intro e he
                  rcases List.mem_append.1 he with he | he
                  · exact dropOld_own hdst hk e he
                  · exact hblob e he
                | some l =>
                  obtain ⟨l1, l2⟩ := restoreList_listing hr
                  intro e he
                  dsimp only at he
                  rcases List.mem_append.1 he with he | he
                  · rcases List.mem_append.1 he with he | he
                    · exact dropOld_own hdst hk e he
                    · rcases List.mem_append.1 he with he | he
                      · exact hblob e he
                      · rw [List.mem_singleton.1 he]
                        show D l.id
                        rw [l1]; exact hdst
                  · refine restoreLoop_own pre suf replace fuel (k + 1) _ _ b3 ?_ hrest e he
                    refine known_apply _ db hk fun x hx => ?_
                    have hx' : x = l := by
                      rcases List.mem_append.1 hx with hx | hx
                      · unfold dropOld at hx
                        split at hx
                        · simp at hx
                        · simp at hx
                      · rcases List.mem_append.1 hx with hx | hx
                        · simp at hx
                        · simpa using hx
                    subst hx'
                    exact ⟨by rw [l1]; exact hdst, fun n hn => ⟨k, l2 n hn⟩⟩

/-- The changes leave other lists alone: their entries, in memory and in the file, and their content. -/
theorem own_entry {D : Str → Prop} {env : Nat → Names} {d0 : Db} {id : Str} (hid : ¬ D id) (es : List Effect) (db : Db)
    (h : ∀ e ∈ es, OwnRestore D env d0 e) :
    byID (applyAll db es).lists id = byID db.lists id ∧ (applyAll db es).file = db.file := by
  induction es generalizing db with
  | nil => exact ⟨rfl, rfl⟩
  | cons e es ih =>
    obtain ⟨i1, i2⟩ := ih (apply db e) (fun x hx => h x (List.mem_cons_of_mem _ hx))
    have he := h e List.mem_cons_self
    refine ⟨i1.trans ?_, i2.trans ?_⟩
    · cases e with
      | blob w => rfl
      | put l =>
        show byID (l :: db.lists.filter fun x => x.id != l.id) id = _
        rw [byID_put, if_neg]
        intro hx; exact hid (hx ▸ he)
      | drop i =>
        show byID (db.lists.filter fun x => x.id != i) id = _
        apply byID_filter
        intro hx; exact hid (hx ▸ he)
      | save => rfl
    · cases e with
      | save => exact he.elim
      | _ => rfl

theorem own_content {D : Str → Prop} {env : Nat → Names} {d0 : Db} {ent : Entry}
    (hnew : ∀ k, ent.scores ∉ Names.all (env k) ∧ ent.index ∉ Names.all (env k))
    (hold : ∀ x ∈ d0.lists, D x.id → ent.scores ∉ names x ∧ ent.index ∉ names x) (es : List Effect) (db : Db)
    (h : ∀ e ∈ es, OwnRestore D env d0 e) : reload (applyAll db es).store ent = reload db.store ent := by
  induction es generalizing db with
  | nil => rfl
  | cons e es ih =>
    show reload (applyAll (apply db e) es).store ent = _
    rw [ih (apply db e) (fun x hx => h x (List.mem_cons_of_mem _ hx))]
    have he := h e List.mem_cons_self
    cases e with
    | blob w =>
      show reload (writes db.store [w]) ent = _
      apply reload_other
      intro w' hw'
      rw [List.mem_singleton.1 hw']
      rcases he with ⟨k, hk⟩ | ⟨x, hx, hxD, hxn⟩
      · exact ⟨fun h => (hnew k).1 (h ▸ hk), fun h => (hnew k).2 (h ▸ hk)⟩
      · exact ⟨fun h => (hold x hx hxD).1 (h ▸ hxn), fun h => (hold x hx hxD).2 (h ▸ hxn)⟩
    | put l => rfl
    | drop i => rfl
    | save => rfl

theorem listed_items (is : List Item) (hs : ∀ i ∈ is, Backup.Short (i.id, i.payload)) (fuel : Nat) (rest : Bytes) :
    listed (is.length + fuel) (Item.bytes is ++ rest) = is.map (·.id) ++ listed fuel rest := by
  induction is with
  | nil => simp [Item.bytes]
  | cons i is ih =>
    have h := hs i (List.mem_cons_self ..)
    have hbytes : Item.bytes (i :: is) ++ rest = Backup.record i.id i.payload ++ (Item.bytes is ++ rest) := by
      simp [Item.bytes, List.append_assoc]
    have hfuel : (i :: is).length + fuel = (is.length + fuel) + 1 := by rw [List.length_cons]; omega
    rw [hbytes, hfuel]
    unfold Backup.record
    simp only [List.append_assoc]
    rw [listed, reads_bool true]
    dsimp only
    rw [getVersion_enc (by decide)]
    dsimp only
    rw [if_neg (by simp), reads_str (lt_of_le_maxU32 h.1)]
    dsimp only
    rw [reads_bin (lt_of_le_maxU32 h.2)]
    dsimp only
    rw [ih fun j hj => hs j (List.mem_cons_of_mem _ hj)]
    rfl

end RankDB.Server

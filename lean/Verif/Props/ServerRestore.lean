import Verif.Proofs.ServerRestore
import Verif.Props.Bytes
import Verif.Props.Validate
/-
Property C92: a backup set is restored on a server.
-/
namespace RankDB.Props
open Spec Server Disk Wire Stored

/-- The records of the set that a job writes for some lists of a server. -/
theorem backup_items (src : Db) (ids : List Str) (h : Good src) (hf : Files.AllFit src) (hn : ids.Nodup)
    (hfit : ∀ id ∈ ids, FitsBackup src id) :
    ∃ is : List Item, (Backup.backupSet (payloadOf src) ids).1 = Item.bytes is ++ encBool false ∧
      (is.map (·.id)).Nodup ∧ (is.map (·.id)).Perm (ids.filter fun id => (look src id).isSome) ∧
      ∀ i ∈ is, look src i.id = some i.seen ∧ Backup.Short (i.id, i.payload) ∧ Restores i.payload i.seen := by
  have hp : (Catalogue.sortIDs ids).Perm ids := goSort_perm _ _
  have key : ∀ l : List Str, (∀ id ∈ l, id ∈ ids) → ∃ is : List Item,
      (l.filterMap fun id => (payloadOf src id).join.map (id, ·)).flatMap (fun i => Backup.record i.1 i.2) = Item.bytes is ∧
      is.map (·.id) = l.filter (fun id => (look src id).isSome) ∧
      ∀ i ∈ is, look src i.id = some i.seen ∧ Backup.Short (i.id, i.payload) ∧ Restores i.payload i.seen := by
    intro l
    induction l with
    | nil => intro _; exact ⟨[], rfl, rfl, by simp⟩
    | cons id l ih =>
      intro hl
      obtain ⟨is, i1, i2, i3⟩ := ih fun x hx => hl x (List.mem_cons_of_mem _ hx)
      have hid := hl id (List.mem_cons_self ..)
      cases hs : look src id with
      | none =>
        have : (payloadOf src id).join = none := by
          rcases Server.Good.look h (id := id) with ⟨l, st, -, -, -, -, -, h6⟩ | ⟨h1, -⟩
          · rw [hs] at h6; simp at h6
          · unfold payloadOf; rw [h1]; rfl
        refine ⟨is, ?_, ?_, i3⟩
        · rw [List.filterMap_cons_none (by rw [this]; rfl)]; exact i1
        · rw [List.filter_cons_of_neg (by simp [hs])]; exact i2
      | some s =>
        obtain ⟨p, hp1, hp2⟩ := restores_of h hf hs ((hfit id hid).1 s hs)
        have hlen := (hfit id hid).2 p hp1
        have hidlen : id.length ≤ maxU32 := by
          rcases Server.Good.look h (id := id) with ⟨l, st, l1, l2, -, -, -, -⟩ | ⟨-, h2⟩
          · have := (hf.lists l l1).stored.id
            rw [← l2]; exact this
          · rw [hs] at h2; simp at h2
        refine ⟨⟨id, p, s⟩ :: is, ?_, ?_, ?_⟩
        · rw [List.filterMap_cons_some (b := (id, p)) (by rw [hp1]; rfl), List.flatMap_cons, i1]
          rfl
        · rw [List.filter_cons_of_pos (by simp [hs]), List.map_cons, i2]
        · intro i hi
          rcases List.mem_cons.1 hi with rfl | hi
          · exact ⟨hs, ⟨hidlen, by show p.length ≤ 2 ^ 32 - 1; omega⟩, hp2⟩
          · exact i3 i hi
  obtain ⟨is, i1, i2, i3⟩ := key (Catalogue.sortIDs ids) fun id hid => hp.mem_iff.1 hid
  refine ⟨is, ?_, ?_, ?_, i3⟩
  · unfold Backup.backupSet
    dsimp only
    rw [Backup.backupLoop_eq]
    dsimp only
    rw [List.nil_append, i1]
  · rw [i2]
    exact ((List.Perm.nodup_iff hp).2 hn).sublist List.filter_sublist
  · rw [i2]
    exact hp.filter _

theorem item_bytes_length (is : List Item) : is.length ≤ (Item.bytes is).length := by
  induction is with
  | nil => simp
  | cons i is ih =>
    have := Backup.record_ne_nil i.id i.payload
    show is.length + 1 ≤ (Backup.record i.id i.payload ++ Item.bytes is).length
    rw [List.length_append]
    omega

/-- A set that is complete. -/
theorem restore_complete (pre suf : Str) (replace : Bool) (env : Nat → Names) (db : Db) (is : List Item) (h : Good db)
    (hn : FreshNames env db) (hs : ∀ i ∈ is, Backup.Short (i.id, i.payload) ∧ Restores i.payload i.seen)
    (hd : (is.map (·.id)).Nodup) :
    (restoreSet pre suf replace env db (Item.bytes is ++ encBool false)).1 =
      .done { restored := is.countP (fun i => !kept pre suf replace (look db) i.id)
              skipped := is.countP (fun i => kept pre suf replace (look db) i.id) } ∧
    Good (restored pre suf replace env db (Item.bytes is ++ encBool false)) ∧
    look (restored pre suf replace env db (Item.bytes is ++ encBool false)) =
      afterRestore pre suf replace (Item.set is) (look db) ∧
    (restored pre suf replace env db (Item.bytes is ++ encBool false)).file = db.file := by
  have hl := item_bytes_length is
  have hlen : (Item.bytes is ++ encBool false).length = (Item.bytes is).length + 1 := by
    rw [List.length_append]; rfl
  obtain ⟨fuel, hfuel⟩ : ∃ fuel, (Item.bytes is ++ encBool false).length + 1 = is.length + (fuel + 1) :=
    ⟨(Item.bytes is).length + 1 - is.length, by omega⟩
  obtain ⟨es, k', e1, -, e3, e4, e5, -⟩ := restoreLoop_items pre suf replace env is (encBool false) hs hd hn.differ hn.apart
    (fuel + 1) 0 db {} h (fun j _ l hl => hn.fresh j l (List.mem_append_left _ hl))
  unfold restored restoreSet
  rw [hfuel, e1]
  have hend : ∀ k d r, restoreLoop pre suf replace env (fuel + 1) k d r (encBool false) = (.done r, []) := by
    intro k d r
    rw [restoreLoop, show decBool (encBool false) = some (false, []) by simpa using reads_bool false []]
  rw [hend]
  dsimp only
  rw [List.append_nil]
  exact ⟨by simp, e3, e4, e5⟩

theorem afterRestore_at {pre suf : Str} {replace : Bool} {is : List Item} {L : Lists} (hd : (is.map (·.id)).Nodup) {i : Item}
    (hi : i ∈ is) : afterRestore pre suf replace (Item.set is) L (pre ++ i.id ++ suf) =
      if (L (pre ++ i.id ++ suf)).isSome ∧ replace = false then L (pre ++ i.id ++ suf) else some (fromBackup i.seen) := by
  unfold afterRestore
  have hf : (Item.set is).find? (fun j => decide (pre ++ j.1 ++ suf = pre ++ i.id ++ suf)) = some (i.id, i.seen) := by
    induction is with
    | nil => simp at hi
    | cons j is ih =>
      rw [List.map_cons, List.nodup_cons] at hd
      show ((j.id, j.seen) :: Item.set is).find? _ = _
      rcases List.mem_cons.1 hi with rfl | hi
      · rw [List.find?_cons_of_pos (by simp)]
      · rw [List.find?_cons_of_neg, ih hd.2 hi]
        simp only [decide_eq_true_eq]
        intro he
        exact hd.1 (List.mem_map.2 ⟨i, hi, (Server.dest_inj he).symm⟩)
  rw [hf]

theorem afterRestore_other {pre suf : Str} {replace : Bool} {is : List Item} {L : Lists} {x : Str}
    (hx : ∀ i ∈ is, pre ++ i.id ++ suf ≠ x) : afterRestore pre suf replace (Item.set is) L x = L x := by
  unfold afterRestore
  rw [List.find?_eq_none.2 (by
    intro j hj
    obtain ⟨i, hi, rfl⟩ := List.mem_map.1 hj
    simpa using hx i hi)]

/-! ### C92 Restoring a set on a server -/

/-- Lists of one server are backed up and the set is restored on a server, the same or another one, with a prefix and a
suffix for the IDs. The restoration succeeds and reports how many lists it restored and how many it passed over. Every
list that was backed up has, under its new ID, exactly the options and the ranking it had, unless existing lists are
kept and there is one. No other list changes. The server is in good order: all later requests do what they should
(C70). -/
theorem C92_restored_partial (src db : Db) (ids : List Str) (pre suf : Str) (replace : Bool) (env : Nat → Names)
    (hsrc : Good src) (hfit : Files.AllFit src) (hids : ids.Nodup) (hbig : ∀ id ∈ ids, FitsBackup src id)
    (h : Good db) (hn : FreshNames env db) :
    let b := (Backup.backupSet (payloadOf src) ids).1
    let db' := restored pre suf replace env db b
    (restoreSet pre suf replace env db b).1 =
      .done { restored := ids.countP fun id => (look src id).isSome && !((look db (pre ++ id ++ suf)).isSome && !replace)
              skipped := ids.countP fun id => (look src id).isSome && ((look db (pre ++ id ++ suf)).isSome && !replace) } ∧
    (∀ id ∈ ids, ∀ s, look src id = some s → look db' (pre ++ id ++ suf) =
      if (look db (pre ++ id ++ suf)).isSome ∧ replace = false then look db (pre ++ id ++ suf) else some (fromBackup s)) ∧
    (∀ x, (∀ id ∈ ids, (look src id).isSome → x ≠ pre ++ id ++ suf) → look db' x = look db x) ∧
    Good db' := by
  intro b db'
  obtain ⟨is, i1, i2, i3, i4⟩ := backup_items src ids hsrc hfit hids hbig
  have hb : b = Item.bytes is ++ encBool false := i1
  obtain ⟨r1, r2, r3, -⟩ := restore_complete pre suf replace env db is h hn (fun i hi => (i4 i hi).2) i2
  have hmem : ∀ id, id ∈ is.map (·.id) ↔ id ∈ ids ∧ (look src id).isSome := by
    intro id; rw [i3.mem_iff, List.mem_filter]
  have hcount : ∀ f : Str → Bool, is.countP (fun i => f i.id) = ids.countP fun id => (look src id).isSome && f id := by
    intro f
    have h1 : is.countP (fun i => f i.id) = (is.map (·.id)).countP f := by rw [List.countP_map]; rfl
    rw [h1, i3.countP_eq, List.countP_filter]
    congr 1
    funext id
    exact Bool.and_comm _ _
  refine ⟨?_, ?_, ?_, ?_⟩
  · rw [hb, r1, hcount fun id => !kept pre suf replace (look db) id, hcount fun id => kept pre suf replace (look db) id]
    rfl
  · intro id hid s hs
    obtain ⟨i, hi, hii⟩ := List.mem_map.1 ((hmem id).2 ⟨hid, by rw [hs]; rfl⟩)
    have hseen := (i4 i hi).1
    rw [hii, hs] at hseen
    cases hseen
    show look (restored pre suf replace env db b) _ = _
    rw [hb, r3, ← hii, afterRestore_at i2 hi]
  · intro x hx
    show look (restored pre suf replace env db b) x = _
    rw [hb, r3]
    refine afterRestore_other fun i hi he => ?_
    obtain ⟨h1, h2⟩ := (hmem i.id).1 (List.mem_map.2 ⟨i, hi, rfl⟩)
    exact hx i.id h1 h2 he.symm
  · show Good (restored pre suf replace env db b)
    rw [hb]; exact r2

theorem noLists_fresh (env : Nat → Names) (hd : ∀ k, (Names.all (env k)).Nodup)
    (ha : ∀ j k, ∀ n ∈ Names.all (env j), n ∈ Names.all (env k) → j = k) : FreshNames env noLists :=
  ⟨hd, ha, by simp [noLists]⟩

/-- Moving to a new server: what it shows is what the old one showed of these lists, and nothing else. -/
theorem C92_moved (src : Db) (ids : List Str) (replace : Bool) (env : Nat → Names)
    (hsrc : Good src) (hfit : Files.AllFit src) (hids : ids.Nodup) (hbig : ∀ id ∈ ids, FitsBackup src id)
    (hn : FreshNames env noLists) :
    look (restored [] [] replace env noLists (Backup.backupSet (payloadOf src) ids).1) =
      fun id => if id ∈ ids then (look src id).map fromBackup else none := by
  obtain ⟨-, h2, h3, -⟩ := C92_restored_partial src noLists ids [] [] replace env hsrc hfit hids hbig noLists_good hn
  funext x
  have hno : look noLists x = none := rfl
  by_cases hx : x ∈ ids
  · rw [if_pos hx]
    cases hs : look src x with
    | none =>
      rw [h3 x, hno]; · rfl
      intro id _ hsome he
      simp only [List.nil_append, List.append_nil] at he
      rw [← he, hs] at hsome
      simp at hsome
    | some s =>
      have := h2 x hx s hs
      simp only [List.nil_append, List.append_nil] at this
      rw [this, hno]
      rfl
  · rw [if_neg hx, h3 x, hno]
    intro id hid _ he
    simp only [List.nil_append, List.append_nil] at he
    exact hx (he ▸ hid)

/-- Whatever the stream contains, and whether it is restored completely or stops at any point: a list that the stream is
not about shows what it showed. -/
theorem C92_others (pre suf : Str) (replace : Bool) (env : Nat → Names) (db : Db) (b : Bytes) (k : Nat) (x : Str)
    (h : Good db) (hn : FreshNames env db) (hx : ¬ IsListed pre suf b x) :
    look (applyAll db ((restoreSet pre suf replace env db b).2.take k)) x = look db x := by
  have hown : ∀ e ∈ (restoreSet pre suf replace env db b).2.take k, OwnRestore (IsListed pre suf b) env db e :=
    fun e he => restoreLoop_own pre suf replace (b.length + 1) 0 db {} b (fun x hx => .inl hx)
      (fun id hid => ⟨id, hid, rfl⟩) e (List.mem_of_mem_take he)
  generalize (restoreSet pre suf replace env db b).2.take k = es at hown
  obtain ⟨e1, -⟩ := own_entry hx es db hown
  unfold look
  rw [e1]
  cases hb : byID db.lists x with
  | none => rfl
  | some l =>
    obtain ⟨l1, l2⟩ := byID_mem hb
    simp only [Option.bind_some]
    rw [own_content (fun k => ?_) (fun y hy hyD => ?_) es db hown]
    · exact ⟨fun hm => hn.fresh k l (List.mem_append_left _ l1) _ hm (by simp [names]),
        fun hm => hn.fresh k l (List.mem_append_left _ l1) _ hm (by simp [names])⟩
    · have hne : y.id ≠ l.id := by
        intro he; rw [he, l2] at hyD; exact hx hyD
      exact ⟨fun hm => hne (h.names y hy l l1 _ hm (by simp [names])), fun hm => hne (h.names y hy l l1 _ hm (by simp [names]))⟩

/-- The same for a server that stops at any point and is started again, for lists that have not been moved since the
catalogue was saved. -/
theorem C92_others_crash (pre suf : Str) (replace : Bool) (env : Nat → Names) (db : Db) (b : Bytes) (k : Nat) (x : Str)
    (h : Good db) (hn : FreshNames env db) (hx : ¬ IsListed pre suf b x) (hsaved : byID db.file x = byID db.lists x) :
    look (restart (applyAll db ((restoreSet pre suf replace env db b).2.take k))) x = look db x := by
  have hl := C92_others pre suf replace env db b k x h hn hx
  have hown : ∀ e ∈ (restoreSet pre suf replace env db b).2.take k, OwnRestore (IsListed pre suf b) env db e :=
    fun e he => restoreLoop_own pre suf replace (b.length + 1) 0 db {} b (fun x hx => .inl hx)
      (fun id hid => ⟨id, hid, rfl⟩) e (List.mem_of_mem_take he)
  generalize (restoreSet pre suf replace env db b).2.take k = es at hown hl
  obtain ⟨e1, e2⟩ := own_entry hx es db hown
  rw [← hl]
  unfold look
  show ((byID (applyAll db es).file x).bind fun l => (reload (applyAll db es).store l.ent).map _) = _
  rw [e2, hsaved, ← e1]

/-- Once the catalogue is saved, the restored lists are there after every start. -/
theorem C92_saved (pre suf : Str) (replace : Bool) (env : Nat → Names) (db : Db) (b : Bytes) (env' : Env) :
    look (restart (serve env' (restored pre suf replace env db b) .save).2) = look (restored pre suf replace env db b) := rfl

/-- The lists of a complete set, for `IsListed`. -/
theorem listed_set (is : List Item) (hs : ∀ i ∈ is, Backup.Short (i.id, i.payload)) (fuel : Nat) (hf : is.length < fuel) :
    listed fuel (Item.bytes is ++ encBool false) = is.map (·.id) := by
  obtain ⟨n, rfl⟩ : ∃ n, fuel = is.length + (n + 1) := ⟨fuel - is.length - 1, by omega⟩
  rw [listed_items is hs (n + 1) (encBool false), listed, show decBool (encBool false) = some (false, []) by
    simpa using reads_bool false []]
  simp

/-- A list that is replaced cannot be read with its old entry afterwards. -/
theorem lost_items (pre suf : Str) (env : Nat → Names) (db0 : Db) (is : List Item)
    (hs : ∀ i ∈ is, Backup.Short (i.id, i.payload) ∧ Restores i.payload i.seen) (hd : (is.map (·.id)).Nodup)
    (hn : FreshNames env db0) (fuel k : Nat) (db : Db) (res : Backup.Result) (h : Good db)
    (hf : ∀ j, k ≤ j → ∀ l ∈ db.lists, ∀ n ∈ Names.all (env j), n ∉ names l) (i : Item) (hi : i ∈ is) (l : Listing)
    (hl : l ∈ db.lists) (hl0 : l ∈ db0.lists) (hli : l.id = pre ++ i.id ++ suf) :
    reload (applyAll db (restoreLoop pre suf true env (is.length + (fuel + 1)) k db res (Item.bytes is ++ encBool false)).2).store
      l.ent = none := by
  induction is generalizing k db res with
  | nil => simp at hi
  | cons j is ih =>
    rw [List.map_cons, List.nodup_cons] at hd
    have hbytes : Item.bytes (j :: is) ++ encBool false = Backup.record j.id j.payload ++ (Item.bytes is ++ encBool false) := by
      simp [Item.bytes, List.append_assoc]
    have hfuel : (j :: is).length + (fuel + 1) = (is.length + (fuel + 1)) + 1 := by rw [List.length_cons]; omega
    rw [hbytes, hfuel, restoreLoop_record pre suf true env _ k db res (i := (j.id, j.payload)) (hs j (List.mem_cons_self ..)).1,
      if_neg (by simp)]
    obtain ⟨x, r1, r2, r3, r4, r5, r6, r7⟩ := restore_one (dst := pre ++ j.id ++ suf) h (hn.differ k) (hf k (Nat.le_refl _))
      (hs j (List.mem_cons_self ..)).2
    dsimp only at r1 r4 r5 r6 r7 ⊢
    rw [r1]
    dsimp only
    rw [applyAll_append]
    have hf' : ∀ m, k + 1 ≤ m → ∀ l ∈ (applyAll db (dropOld (env k) db (pre ++ j.id ++ suf) ++
        ((restoreList (env k) (pre ++ j.id ++ suf) j.payload).2.map .blob ++ [.put x]))).lists,
        ∀ n ∈ Names.all (env m), n ∉ names l := by
      intro m hm y hy n hnn hny
      rcases r7 y hy with rfl | hy
      · have := hn.apart m k n hnn (r3 n hny)
        omega
      · exact hf m (by omega) y hy n hnn hny
    by_cases hji : j.id = i.id
    · -- the list is deleted now, and nothing is written under its names later
      have hown := restoreLoop_own (D := fun y => ∃ z ∈ is, y = pre ++ z.id ++ suf) (env := env) pre suf true
        (is.length + (fuel + 1)) (k + 1) (applyAll db (dropOld (env k) db (pre ++ j.id ++ suf) ++
        ((restoreList (env k) (pre ++ j.id ++ suf) j.payload).2.map .blob ++ [.put x]))) { res with restored := res.restored + 1 }
        (Item.bytes is ++ encBool false) (fun y hy => .inl hy) (by
          rw [listed_set is (fun i hi => (hs i (List.mem_cons_of_mem _ hi)).1) _ (by omega)]
          intro id hid
          obtain ⟨z, hz, rfl⟩ := List.mem_map.1 hid
          exact ⟨z, hz, rfl⟩)
      rw [own_content (ent := l.ent) (fun m => ?_) (fun y hy hyD => ?_) _ _ hown]
      · rw [applyAll_append, applyAll_append, applyAll_blobs]
        show reload (writes (applyAll db (dropOld (env k) db (pre ++ j.id ++ suf))).store _) l.ent = none
        rw [reload_other]
        · have hb : byID db.lists (pre ++ j.id ++ suf) = some l := by
            rw [hji, ← hli]; exact byID_of_mem h.ids hl
          unfold dropOld
          rw [hb]
          dsimp only
          show reload (applyAll (apply db (.drop (pre ++ j.id ++ suf))) _).store l.ent = none
          rw [applyAll_blobs]
          obtain ⟨st, hst, -⟩ := h.readable l hl
          exact deleteAll_gone hst
        · intro w hw
          have := parent_restoreList w hw
          exact ⟨fun he => hf k (Nat.le_refl _) l hl _ this (by rw [he]; simp [names]),
            fun he => hf k (Nat.le_refl _) l hl _ this (by rw [he]; simp [names])⟩
      · exact ⟨fun hm => hn.fresh m l (List.mem_append_left _ hl0) _ hm (by simp [names]),
          fun hm => hn.fresh m l (List.mem_append_left _ hl0) _ hm (by simp [names])⟩
      · obtain ⟨z, hz, hzy⟩ := hyD
        have hne : y.id ≠ l.id := by
          intro he
          apply hd.1
          refine List.mem_map.2 ⟨z, hz, ?_⟩
          rw [hji]
          exact Server.dest_inj (by rw [← hzy, he, hli])
        rcases r7 y hy with rfl | hy
        · exact absurd (r2.trans (by rw [hji, ← hli])) hne
        · exact ⟨fun hm => hne (h.names y hy l hl _ hm (by simp [names])), fun hm => hne (h.names y hy l hl _ hm (by simp [names]))⟩
    · rcases List.mem_cons.1 hi with rfl | hi
      · exact absurd rfl hji
      · refine ih (fun m hm => hs m (List.mem_cons_of_mem _ hm)) hd.2 (k + 1) _ _ r4 hf' hi ?_
        -- the list is still there
        have hne : l.id ≠ pre ++ j.id ++ suf := by
          rw [hli]; intro he; exact hji (Server.dest_inj he).symm
        rw [applyAll_append, applyAll_append, applyAll_blobs]
        show l ∈ x :: List.filter _ _
        refine List.mem_cons_of_mem _ (List.mem_filter.2 ⟨?_, ?_⟩)
        · rw [(dropOld_good (e := env k) (dst := pre ++ j.id ++ suf) h).2.2.2]
          exact List.mem_filter.2 ⟨hl, by simpa using hne⟩
        · rw [r2]; simpa using hne

/-- What can be lost: the restoration does not save the catalogue. After it reported success, a start without saving the
catalogue shows none of the restored lists, and the lists that they replaced are gone too. -/
theorem C92_unsaved_lost (src db : Db) (ids : List Str) (pre suf : Str) (env : Nat → Names)
    (hsrc : Good src) (hfit : Files.AllFit src) (hids : ids.Nodup) (hbig : ∀ id ∈ ids, FitsBackup src id)
    (h : Good db) (hn : FreshNames env db) (hfile : db.file = db.lists) (id : Str) (hid : id ∈ ids) (s : Seen)
    (hs : look src id = some s) :
    let b := (Backup.backupSet (payloadOf src) ids).1
    look (restored pre suf true env db b) (pre ++ id ++ suf) = some (fromBackup s) ∧
    look (restart (restored pre suf true env db b)) (pre ++ id ++ suf) = none := by
  intro b
  obtain ⟨-, h2, -, -⟩ := C92_restored_partial src db ids pre suf true env hsrc hfit hids hbig h hn
  refine ⟨by have := h2 id hid s hs; simpa using this, ?_⟩
  obtain ⟨is, i1, i2, i3, i4⟩ := backup_items src ids hsrc hfit hids hbig
  have hb : b = Item.bytes is ++ encBool false := i1
  obtain ⟨r1, r2, r3, r4⟩ := restore_complete pre suf true env db is h hn (fun i hi => (i4 i hi).2) i2
  obtain ⟨i, hi, rfl⟩ := List.mem_map.1 (i3.mem_iff.2 (List.mem_filter.2 ⟨hid, by rw [hs]; rfl⟩))
  unfold look
  show ((byID (restored pre suf true env db b).file (pre ++ i.id ++ suf)).bind fun l =>
    (reload (restored pre suf true env db b).store l.ent).map _) = none
  rw [hb, r4, hfile]
  cases hbl : byID db.lists (pre ++ i.id ++ suf) with
  | none => rfl
  | some l =>
    obtain ⟨l1, l2⟩ := byID_mem hbl
    simp only [Option.bind_some]
    have hlen := item_bytes_length is
    have hlen' : (Item.bytes is ++ encBool false).length = (Item.bytes is).length + 1 := by rw [List.length_append]; rfl
    obtain ⟨fuel, hfuel⟩ : ∃ fuel, (Item.bytes is ++ encBool false).length + 1 = is.length + (fuel + 1) :=
      ⟨(Item.bytes is).length + 1 - is.length, by omega⟩
    have := lost_items pre suf env db is (fun i hi => (i4 i hi).2) i2 hn fuel 0 db {} h
      (fun j _ l hl => hn.fresh j l (List.mem_append_left _ hl)) i hi l l1 l1 l2
    unfold restored restoreSet
    rw [hfuel, this]
    rfl

/-- What a list that cannot be read does: the request panics there, whatever follows in the set. What came before is
restored. The list with this ID is gone although nothing replaces it. -/
theorem C92_broken (src db : Db) (ids : List Str) (pre suf : Str) (env : Nat → Names)
    (hsrc : Good src) (hfit : Files.AllFit src) (hids : ids.Nodup) (hbig : ∀ id ∈ ids, FitsBackup src id)
    (h : Good db) (hn : FreshNames env db) (id : Str) (p rest : Bytes) (err : Err) (hid : id.length < 2 ^ 32)
    (hnew : id ∉ ids) (hp : p.length < 2 ^ 32) (hbad : Backup.parse p = .error err) (begin : Bytes)
    (hb : (Backup.backupSet (payloadOf src) ids).1 = begin ++ encBool false) :
    let b := begin ++ (Backup.record id p ++ rest)
    let db' := restored pre suf true env db b
    (restoreSet pre suf true env db b).1 = .panic ∧
    look db' (pre ++ id ++ suf) = none ∧
    (∀ x ∈ ids, ∀ s, look src x = some s → look db' (pre ++ x ++ suf) = some (fromBackup s)) ∧
    (∀ x, x ≠ pre ++ id ++ suf → (∀ y ∈ ids, (look src y).isSome → x ≠ pre ++ y ++ suf) → look db' x = look db x) ∧
    Good db' := by
  intro b db'
  obtain ⟨is, i1, i2, i3, i4⟩ := backup_items src ids hsrc hfit hids hbig
  have hbegin : begin = Item.bytes is := by
    rw [hb] at i1
    exact List.append_cancel_right i1
  have hmem : ∀ id, id ∈ is.map (·.id) ↔ id ∈ ids ∧ (look src id).isSome := by
    intro id; rw [i3.mem_iff, List.mem_filter]
  have hlen := item_bytes_length is
  have hbl : b.length = (Item.bytes is).length + ((Backup.record id p).length + rest.length) := by
    show (begin ++ _).length = _
    rw [hbegin, List.length_append, List.length_append]
  have hrec := Backup.record_ne_nil id p
  obtain ⟨fuel, hfuel⟩ : ∃ fuel, b.length + 1 = is.length + (fuel + 1) := ⟨b.length - is.length, by omega⟩
  obtain ⟨es, k', e1, -, e3, e4, e5, e6⟩ := restoreLoop_items pre suf true env is (Backup.record id p ++ rest)
    (fun i hi => (i4 i hi).2) i2 hn.differ hn.apart
    (fuel + 1) 0 db {} h (fun j _ l hl => hn.fresh j l (List.mem_append_left _ hl))
  have hfail : (restoreList (env k') (pre ++ id ++ suf) p).1 = none := by
    unfold restoreList Backup.restore
    rw [hbad]
  have hset : restoreSet pre suf true env db b = (.panic, es ++ (dropOld (env k') (applyAll db es) (pre ++ id ++ suf) ++
      (restoreList (env k') (pre ++ id ++ suf) p).2.map .blob)) := by
    unfold restoreSet
    show restoreLoop pre suf true env (b.length + 1) 0 db {} (begin ++ (Backup.record id p ++ rest)) = _
    rw [hfuel, hbegin, e1, restoreLoop_record pre suf true env fuel k' _ _ (i := (id, p))
      ⟨by show id.length ≤ 2 ^ 32 - 1; omega, by show p.length ≤ 2 ^ 32 - 1; omega⟩, if_neg (by simp)]
    dsimp only
    rw [hfail]
  obtain ⟨g1, g2, -, g4⟩ := dropOld_good (e := env k') (dst := pre ++ id ++ suf) e3
  have hdb' : db' = { applyAll (applyAll db es) (dropOld (env k') (applyAll db es) (pre ++ id ++ suf)) with
      store := writes (applyAll (applyAll db es) (dropOld (env k') (applyAll db es) (pre ++ id ++ suf))).store
        (restoreList (env k') (pre ++ id ++ suf) p).2 } := by
    show applyAll db (restoreSet pre suf true env db b).2 = _
    rw [hset]
    dsimp only
    rw [applyAll_append, applyAll_append, applyAll_blobs]
  generalize hd2 : applyAll (applyAll db es) (dropOld (env k') (applyAll db es) (pre ++ id ++ suf)) = d2 at *
  have hsame : ∀ l ∈ d2.lists, reload (writes d2.store (restoreList (env k') (pre ++ id ++ suf) p).2) l.ent =
      reload d2.store l.ent := by
    intro l hl
    rw [g4] at hl
    apply reload_other
    intro w hw
    have := e6 k' (Nat.le_refl _) l (List.mem_filter.1 hl).1 _ (parent_restoreList w hw)
    exact ⟨fun he => this (by rw [he]; simp [names]), fun he => this (by rw [he]; simp [names])⟩
  have hlook : look db' = look d2 := by
    rw [hdb']
    funext x
    unfold look
    show ((byID d2.lists x).bind fun l => (reload (writes d2.store _) l.ent).map _) = _
    cases hx : byID d2.lists x with
    | none => rfl
    | some l =>
      simp only [Option.bind_some]
      rw [hsame l (byID_mem hx).1]
  refine ⟨by rw [hset], ?_, ?_, ?_, ?_⟩
  · rw [hlook, g2]; simp [Lists.set]
  · intro x hx s hs
    obtain ⟨i, hi, hii⟩ := List.mem_map.1 ((hmem x).2 ⟨hx, by rw [hs]; rfl⟩)
    have hseen := (i4 i hi).1
    rw [hii, hs] at hseen
    cases hseen
    rw [hlook, g2]
    unfold Lists.set
    rw [if_neg (fun he => hnew (by rw [← Server.dest_inj he]; exact hx)), e4, ← hii, afterRestore_at i2 hi]
    simp
  · intro x hx hy
    rw [hlook, g2]
    unfold Lists.set
    rw [if_neg hx, e4]
    refine afterRestore_other fun i hi he => ?_
    obtain ⟨h1, h2⟩ := (hmem i.id).1 (List.mem_map.2 ⟨i, hi, rfl⟩)
    exact hy i.id h1 h2 he.symm
  · rw [hdb']
    exact ⟨g1.ids, g1.own, g1.names, fun l hl => by
      obtain ⟨st, h3, h4⟩ := g1.readable l hl
      exact ⟨st, by show reload (writes d2.store _) l.ent = _; rw [hsame l hl, h3], h4⟩, g1.sizes⟩

/-- What can be stuck: prefix and suffix are not checked. With a blank in one of them the list exists, but the requests
that show it or delete it refuse its ID. -/
theorem C92_unreachable (src db : Db) (ids : List Str) (pre suf : Str) (env : Nat → Names)
    (hsrc : Good src) (hfit : Files.AllFit src) (hids : ids.Nodup) (hbig : ∀ id ∈ ids, FitsBackup src id)
    (h : Good db) (hn : FreshNames env db) (id : Str) (hid : id ∈ ids) (s : Seen) (hs : look src id = some s)
    (hblank : ' '.toUInt8 ∈ pre ∨ ' '.toUInt8 ∈ suf) (env' : Env) :
    let db' := restored pre suf true env db (Backup.backupSet (payloadOf src) ids).1
    let dst := pre ++ id ++ suf
    look db' dst = some (fromBackup s) ∧
    Validate.respond env' db' (.getList dst) = (.answer .badRequest, db') ∧
    Validate.respond env' db' (.deleteList dst) = (.answer .badRequest, db') := by
  obtain ⟨-, h2, -, -⟩ := C92_restored_partial src db ids pre suf true env hsrc hfit hids hbig h hn
  have hbad : ¬ Validate.okListID (pre ++ id ++ suf) = true := by
    intro hok
    have hl := ((Validate.okListID_iff _).1 hok).2.2 ' '.toUInt8 (by
      rcases hblank with h | h <;> simp [h])
    revert hl
    decide
  refine ⟨by have := h2 id hid s hs; simpa using this, ?_, ?_⟩
  · unfold Validate.respond
    simp only [Validate.route]
    rw [if_neg hbad]
  · unfold Validate.respond
    simp only [Validate.route]
    rw [if_neg hbad]

/-! ### An example -/

/-- Names for the lists of a set. -/
def exNames (k : Nat) : Names :=
  { now := 900 + k, sch := .reversed, scores := 1 :: List.replicate k 0, stub := 2 :: List.replicate k 0
    index := 3 :: List.replicate k 0 }

theorem exNames_fresh (db : Db) (h : ∀ l ∈ db.lists ++ db.file, ∀ m ∈ names l, m.head? ≠ some 1 ∧ m.head? ≠ some 2 ∧
    m.head? ≠ some 3) : FreshNames exNames db := by
  refine ⟨fun k => by simp [Names.all, exNames], fun j k n hj hk => ?_, fun k l hl n hn => ?_⟩
  · have h1 : n.length = j + 1 := by
      simp only [Names.all, exNames, List.mem_cons, List.not_mem_nil, or_false] at hj
      rcases hj with h | h | h <;> rw [h] <;> simp
    have h2 : n.length = k + 1 := by
      simp only [Names.all, exNames, List.mem_cons, List.not_mem_nil, or_false] at hk
      rcases hk with h | h | h <;> rw [h] <;> simp
    omega
  · have h1 : n.head? = some 1 ∨ n.head? = some 2 ∨ n.head? = some 3 := by
      simp only [Names.all, exNames, List.mem_cons, List.not_mem_nil, or_false] at hn
      rcases hn with h | h | h <;> rw [h] <;> simp
    intro hm
    obtain ⟨a, b, c⟩ := h l hl n hm
    rcases h1 with h | h | h <;> contradiction

theorem seenOf_changes (db : Db) (rs : List (Env × Request)) :
    (seenOf db (rs.map fun x => .change x.1 x.2)).2 = (serveAll db rs).2 := by
  induction rs generalizing db with
  | nil => rfl
  | cons x rs ih =>
    simp only [List.map_cons, seenOf, serveAll]
    exact ih _

theorem exStopped_fit : Files.AllFit exStopped := by
  have ho : Orderly noLists (exBefore.map (fun x => Files.Event.change x.1 x.2) ++ []) := by
    refine orderly_changes (ready_of_test _ _ ?_ (by decide +kernel)) (roomy_of_test _ _ (by decide +kernel)) (by decide +kernel) trivial
    intro x hx
    simp only [exBefore, exFromNothing, exHistory, List.take, List.mem_cons, List.not_mem_nil, or_false] at hx
    rcases hx with h | h | h | h | h | h | h | h <;> (rw [h]; rfl)
  have := (bytes_history ⟨noCompression, false⟩ emptyFiles noLists _ noLists_good Files.noLists_fit (emptyFiles_represents _) ho).2.2.2
  rw [List.append_nil, seenOf_changes] at this
  exact this

/-- The lists to back up: one of them does not exist. -/
def exIds : List Str := exStopped.lists.map (·.id) ++ [[1, 1]]

theorem exIds_fit : ∀ id ∈ exIds, FitsBackup exStopped id := by
  intro id hid
  have h1 : ∀ id ∈ exIds, (match look exStopped id with | some s => decide (s.content.length + 2 ≤ 2 ^ 32) | none => true) = true := by
    decide +kernel
  have h2 : ∀ id ∈ exIds, (match payloadOf exStopped id with | some (some p) => decide (p.length < 2 ^ 32) | _ => true) = true := by
    decide +kernel
  refine ⟨fun s hs => ?_, fun p hp => ?_⟩
  · have := h1 id hid
    rw [hs] at this
    simpa using this
  · have := h2 id hid
    rw [hp] at this
    simpa using this

/-- The set. -/
def exSet : Bytes := (Backup.backupSet (payloadOf exStopped) exIds).1

/-- A list of the set and how it is shown. -/
def exShown (db : Db) (id : Str) : Option (List (Nat × Nat)) := (look db id).map fun s => s.content.map fun e => (e.id, e.score)

/-- The conditions hold, for another server and for the same one. -/
example : Good exStopped ∧ Files.AllFit exStopped ∧ exIds.Nodup ∧ (∀ id ∈ exIds, FitsBackup exStopped id) ∧
    (Good exDb ∧ FreshNames exNames exDb ∧ exDb.file = exDb.lists) ∧ FreshNames exNames exStopped ∧ FreshNames exNames noLists :=
  ⟨exStopped_good, exStopped_fit, by decide +kernel, exIds_fit, ⟨exDb_good, exNames_fresh _ (by decide +kernel), rfl⟩,
    exNames_fresh _ (by decide +kernel), exNames_fresh _ (by decide +kernel)⟩

/-- The lists with prefix `A`, and the same lists after a change, where they are replaced or kept. -/
example :
    exShown (restored [65] [] true exNames exDb exSet) [65, 67] = some [(3, 9), (2, 9), (1, 3), (77, 1)] ∧
    exShown (restored [65] [] true exNames exDb exSet) [65] = exShown exDb [65] ∧
    exShown (restart (restored [65] [] true exNames exDb exSet)) [65, 67] = none := by
  decide +kernel

/-- The same server after a change. -/
def exChanged : Db := (serve (exEnvAt 30) exStopped (.putElements [67] [⟨12, 5, [], 0, 0⟩])).2

example :
    exShown exChanged [67] = some [(5, 12), (3, 9), (2, 9), (1, 3), (77, 1)] ∧
    exShown (restored [] [] false exNames exChanged exSet) [67] = some [(5, 12), (3, 9), (2, 9), (1, 3), (77, 1)] ∧
    exShown (restored [] [] true exNames exChanged exSet) [67] = some [(3, 9), (2, 9), (1, 3), (77, 1)] := by
  decide +kernel

/-- What the set is about. -/
example : IsListed [65] [] exSet [65, 67] ∧ ¬ IsListed [65] [] exSet [65] := by
  have : listed (exSet.length + 1) exSet = [[66], [67]] := by decide +kernel
  unfold IsListed
  rw [this]
  constructor
  · exact ⟨[67], by decide, rfl⟩
  · rintro ⟨id, hid, he⟩
    simp only [List.mem_cons, List.not_mem_nil, or_false] at hid
    rcases hid with rfl | rfl <;> exact absurd he (by decide)

/-- A list that cannot be read, and the start of the set. -/
example : (match Backup.parse [7, 7] with | .error _ => true | _ => false) = true ∧
    exSet = exSet.dropLast ++ encBool false ∧ [65] ∉ exIds := by decide +kernel

example : exShown exDb [65] ≠ none ∧
    exShown (restored [] [] true exNames exDb (exSet.dropLast ++ (Backup.record [65] [7, 7] ++ [1, 2]))) [65] = none ∧
    exShown (restored [] [] true exNames exDb (exSet.dropLast ++ (Backup.record [65] [7, 7] ++ [1, 2]))) [66] =
      some [(3, 9), (2, 9), (1, 3)] := by decide +kernel

end RankDB.Props

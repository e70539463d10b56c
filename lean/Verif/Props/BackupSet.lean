import Verif.Props.Backup
/-
Property C37: sets of lists.
-/
namespace RankDB
namespace Backup
open Wire Stored

/-- The stream with the given records. -/
def stream (items : List (Str × Bytes)) : Bytes := items.flatMap (fun i => record i.1 i.2) ++ encBool false

/-- The record of an existing list is passed over when existing lists are kept. -/
def Kept {α : Type} (pre suf : Str) (replace : Bool) (db : Str → Option α) (i : Str × Bytes) : Bool :=
  (db (pre ++ i.1 ++ suf)).isSome && !replace

/-- The lists after restoring: for every list of the set the restored one, or the existing one when it is kept, and
all others as before. -/
def after {α : Type} (pre suf : Str) (replace : Bool) (one : Str → Bytes → Option α) (db : Str → Option α)
    (items : List (Str × Bytes)) (x : Str) : Option α :=
  match items.find? (fun i => pre ++ i.1 ++ suf = x) with
  | some i => if Kept pre suf replace db i then db x else one x i.2
  | none => db x

/-- Lengths that can be written. -/
def Short (i : Str × Bytes) : Prop := i.1.length ≤ maxU32 ∧ i.2.length ≤ maxU32

theorem dest_inj {pre suf a b : Str} (h : dest pre suf a = dest pre suf b) : a = b := by
  unfold dest at h
  have h1 := List.append_cancel_right h
  exact List.append_cancel_left h1

theorem restoreLoop_record {α : Type} (pre suf : Str) (replace : Bool) (one : Str → Bytes → Option α) (fuel : Nat)
    (db : Str → Option α) (res : Result) {i : Str × Bytes} (h : Short i) (rest : Bytes) :
    restoreLoop pre suf replace one (fuel + 1) db res (record i.1 i.2 ++ rest) =
      if Kept pre suf replace db i then
        restoreLoop pre suf replace one fuel db { res with skipped := res.skipped + 1 } rest
      else match one (dest pre suf i.1) i.2 with
        | none => (fun x => if x = dest pre suf i.1 then none else db x, .panic)
        | some l => restoreLoop pre suf replace one fuel (fun x => if x = dest pre suf i.1 then some l else db x)
            { res with restored := res.restored + 1 } rest := by
  unfold record
  simp only [List.append_assoc]
  rw [restoreLoop, reads_bool true]
  dsimp only
  rw [getVersion_enc (by decide)]
  dsimp only
  rw [if_neg (by simp), reads_str (lt_of_le_maxU32 h.1)]
  dsimp only
  rw [reads_bin (lt_of_le_maxU32 h.2)]
  dsimp only
  unfold Kept
  have hk : ((db (pre ++ i.1 ++ suf)).isSome && !replace) = true ↔ (db (dest pre suf i.1)).isSome = true ∧ replace = false := by
    unfold dest
    cases replace <;> simp
  by_cases hc : (db (dest pre suf i.1)).isSome = true ∧ replace = false
  · rw [if_pos hc, if_pos (hk.2 hc)]
  · rw [if_neg hc, if_neg (fun h => hc (hk.1 h))]
    cases one (dest pre suf i.1) i.2 with
    | none => rfl
    | some l =>
      dsimp only
      congr 1
      funext x
      split <;> rfl

theorem restoreLoop_items {α : Type} (pre suf : Str) (replace : Bool) (one : Str → Bytes → Option α)
    (items : List (Str × Bytes)) (hs : ∀ i ∈ items, Short i) (hd : (items.map (·.1)).Nodup) (fuel : Nat)
    (hf : items.length < fuel) (db : Str → Option α) (res : Result) (rest : Bytes)
    (hone : ∀ i ∈ items, Kept pre suf replace db i = false → (one (pre ++ i.1 ++ suf) i.2).isSome) :
    (restoreLoop pre suf replace one fuel db res (items.flatMap (fun i => record i.1 i.2) ++ (encBool false ++ rest))) =
      (after pre suf replace one db items,
        .done { res with restored := res.restored + items.countP (fun i => !(Kept pre suf replace db i))
                         skipped := res.skipped + items.countP (Kept pre suf replace db) }) := by
  induction items generalizing fuel db res with
  | nil =>
    cases fuel with
    | zero => simp at hf
    | succ fuel =>
      rw [List.flatMap_nil, List.nil_append, restoreLoop, reads_bool false]
      rfl
  | cons i items ih =>
    cases fuel with
    | zero => simp at hf
    | succ fuel =>
      rw [List.map_cons, List.nodup_cons] at hd
      rw [List.flatMap_cons, List.append_assoc, restoreLoop_record _ _ _ _ _ _ _ (hs i (List.mem_cons_self ..))]
      have hlen : items.length < fuel := by simpa using hf
      have hne : ∀ j ∈ items, dest pre suf j.1 ≠ dest pre suf i.1 := fun j hj he =>
        hd.1 (List.mem_map.2 ⟨j, hj, dest_inj he⟩)
      by_cases hk : Kept pre suf replace db i = true
      · rw [if_pos hk, ih (fun j hj => hs j (List.mem_cons_of_mem _ hj)) hd.2 fuel hlen _ _
          (fun j hj => hone j (List.mem_cons_of_mem _ hj))]
        congr 1
        · funext x
          unfold after
          by_cases hx : pre ++ i.1 ++ suf = x
          · rw [List.find?_cons_of_pos (by simpa using hx), List.find?_eq_none.2 (by
              intro j hj
              simp only [decide_eq_true_eq]
              intro hjx
              exact hne j hj (hjx.trans hx.symm))]
            dsimp only
            rw [if_pos hk]
          · rw [List.find?_cons_of_neg (by simpa using hx)]
        · rw [List.countP_cons_of_neg (by simp [hk]), List.countP_cons_of_pos hk]
          dsimp only
          congr 2
          omega
      · rw [if_neg hk]
        have hsome := hone i (List.mem_cons_self ..) (by simpa using hk)
        obtain ⟨l, hl⟩ := Option.isSome_iff_exists.1 hsome
        have hl' : one (dest pre suf i.1) i.2 = some l := hl
        rw [hl']
        dsimp only
        have hkept : ∀ j ∈ items, Kept pre suf replace (fun x => if x = dest pre suf i.1 then some l else db x) j =
            Kept pre suf replace db j := by
          intro j hj
          unfold Kept
          have : pre ++ j.1 ++ suf ≠ dest pre suf i.1 := hne j hj
          simp only [if_neg this]
        rw [ih (fun j hj => hs j (List.mem_cons_of_mem _ hj)) hd.2 fuel hlen _ _ (fun j hj hkj =>
          hone j (List.mem_cons_of_mem _ hj) (by rw [← hkept j hj]; exact hkj))]
        congr 1
        · funext x
          unfold after
          by_cases hx : pre ++ i.1 ++ suf = x
          · rw [List.find?_cons_of_pos (by simpa using hx), List.find?_eq_none.2 (by
              intro j hj
              simp only [decide_eq_true_eq]
              intro hjx
              exact hne j hj (hjx.trans hx.symm))]
            dsimp only
            rw [if_neg hk, if_pos (show x = dest pre suf i.1 from hx.symm), ← hx]
            exact hl.symm
          · rw [List.find?_cons_of_neg (by simpa using hx)]
            cases hfd : items.find? (fun i => decide (pre ++ i.1 ++ suf = x)) with
            | none =>
              dsimp only
              rw [if_neg (fun h => hx h.symm)]
            | some j =>
              dsimp only
              rw [hkept j (List.mem_of_find?_eq_some hfd)]
              simp only [if_neg (show ¬ x = dest pre suf i.1 from fun h => hx h.symm)]
        · rw [List.countP_cons_of_pos (by simpa using hk), List.countP_cons_of_neg hk]
          have c1 : items.countP (fun j => !Kept pre suf replace (fun x => if x = dest pre suf i.1 then some l else db x) j) =
              items.countP (fun j => !Kept pre suf replace db j) :=
            List.countP_congr fun j hj => by rw [hkept j hj]
          have c2 : items.countP (Kept pre suf replace (fun x => if x = dest pre suf i.1 then some l else db x)) =
              items.countP (Kept pre suf replace db) :=
            List.countP_congr fun j hj => by rw [hkept j hj]
          rw [c1, c2]
          dsimp only
          congr 2
          omega

theorem record_ne_nil (id : Str) (p : Bytes) : 0 < (record id p).length := by
  unfold record
  rw [List.length_append]
  show 0 < 1 + _
  omega

theorem stream_length (items : List (Str × Bytes)) : items.length < (stream items).length := by
  unfold stream
  rw [List.length_append]
  have : items.length ≤ (items.flatMap (fun i => record i.1 i.2)).length := by
    induction items with
    | nil => simp
    | cons i items ih =>
      rw [List.flatMap_cons, List.length_append, List.length_cons]
      have := record_ne_nil i.1 i.2
      omega
  have : (encBool false).length = 1 := rfl
  omega

theorem backupLoop_eq (payload : Str → Option (Option Bytes)) (ids : List Str) (out : Bytes) (s : Status) :
    backupLoop payload ids (out, s) =
      (out ++ (ids.filterMap fun id => (payload id).join.map (id, ·)).flatMap (fun i => record i.1 i.2),
        { success := s.success ++ ids.filter (fun id => (payload id).join.isSome)
          errors := s.errors ++ ids.filter (fun id => (payload id).join.isNone) }) := by
  induction ids generalizing out s with
  | nil => simp [backupLoop]
  | cons id ids ih =>
    unfold backupLoop
    cases hp : payload id with
    | none => simp [hp, ih]
    | some o =>
      cases ho : o with
      | none => simp [hp, ho, ih]
      | some p => simp [hp, ho, ih, List.append_assoc]

end Backup

namespace Props
open Wire Stored Backup

/-! ### C37 Backup sets -/

/-- Writing a set: every requested list is reported once, either as success or as error, and the set has a record
for exactly the lists reported as success. -/
theorem C37_backup (payload : Str → Option (Option Bytes)) (lists : List Str) :
    let r := backupSet payload lists
    (r.2.success ++ r.2.errors).Perm lists ∧
    (∀ id, id ∈ r.2.success ↔ id ∈ lists ∧ ∃ p, payload id = some (some p)) ∧
    ∃ items : List (Str × Bytes), r.1 = stream items ∧ items.map (·.1) = r.2.success ∧
      ∀ i ∈ items, payload i.1 = some (some i.2) := by
  have hp : (Catalogue.sortIDs lists).Perm lists := goSort_perm _ _
  dsimp only
  unfold backupSet
  dsimp only
  rw [backupLoop_eq]
  dsimp only
  simp only [List.nil_append]
  refine ⟨?_, ?_, _, rfl, ?_, ?_⟩
  · refine List.Perm.trans ?_ hp
    have := List.filter_append_perm (fun id => (payload id).join.isSome) (Catalogue.sortIDs lists)
    simpa using this
  · intro id
    rw [List.mem_filter, hp.mem_iff]
    cases payload id with
    | none => simp
    | some o => cases o <;> simp
  · generalize Catalogue.sortIDs lists = ids
    induction ids with
    | nil => rfl
    | cons id ids ih =>
      cases hj : (payload id).join with
      | none => simp [hj, ih]
      | some p => simp [hj, ih]
  · intro i hi
    obtain ⟨id, hid, hm⟩ := List.mem_filterMap.1 hi
    cases hpay : payload id with
    | none => simp [hpay] at hm
    | some o =>
      cases ho : o with
      | none => simp [hpay, ho] at hm
      | some p =>
        simp only [hpay, ho, Option.join_some, Option.map_some, Option.some.injEq] at hm
        subst hm
        exact hpay.trans (by rw [ho])

/-- Restoring a set of which every list that is not kept can be restored: exactly the lists of the set are restored,
under their ID with prefix and suffix; existing lists are kept when asked for; all other lists stay as they are; the
counts are right. -/
theorem C37_restore_partial {α : Type} (pre suf : Str) (replace : Bool) (one : Str → Bytes → Option α)
    (db : Str → Option α) (items : List (Str × Bytes)) (hs : ∀ i ∈ items, Short i) (hd : (items.map (·.1)).Nodup)
    (hone : ∀ i ∈ items, Kept pre suf replace db i = false → (one (pre ++ i.1 ++ suf) i.2).isSome) (rest : Bytes) :
    restoreSet pre suf replace one db (stream items ++ rest) =
      (after pre suf replace one db items,
        .done { restored := items.countP (fun i => !(Kept pre suf replace db i))
                skipped := items.countP (Kept pre suf replace db), failed := [] }) := by
  unfold restoreSet
  have hl := stream_length items
  have := restoreLoop_items pre suf replace one items hs hd ((stream items ++ rest).length + 1)
    (by rw [List.length_append]; omega) db {} rest hone
  unfold stream at this ⊢
  rw [List.append_assoc] at this ⊢
  rw [this]
  simp only [Nat.zero_add]

/-- The whole way: lists that are backed up as a set and restored are there, under their ID with prefix and suffix,
well formed and with the same content and settings. -/
theorem C37_roundtrip (src : Str → Option (ListRec × ListState)) (lists : List Str) (hd : lists.Nodup)
    (hsrc : ∀ id ∈ lists, ∃ l st, src id = some (l, st) ∧ Writable l st ∧ id.length ≤ maxU32 ∧ (backup l st).length ≤ maxU32)
    (pre suf : Str) (now : Nat) (sch : Sched) (scores index : Str → Str) (db : Str → Option (ListRec × ListState)) :
    let set := (backupSet (fun id => (src id).map fun x => some (backup x.1 x.2)) lists).1
    let one := fun dst b => match restore now sch (some dst) (scores dst) (index dst) b with
      | some (.ok r) => some r
      | _ => none
    let r := restoreSet pre suf true one db set
    r.2 = .done { restored := lists.length, skipped := 0, failed := [] } ∧
    (∀ id ∈ lists, ∃ l st l' st', src id = some (l, st) ∧ r.1 (pre ++ id ++ suf) = some (l', st') ∧
      Spec.ListOK st' ∧ st'.content = st.content ∧ l'.id = pre ++ id ++ suf ∧ l'.set = l.set ∧
      l'.metadata = some (l.metadata.getD []) ∧ l'.splitSize = l.splitSize ∧ l'.mergeSize = l.mergeSize ∧
      l'.loadIndex = l.loadIndex) ∧
    (∀ x, (∀ id ∈ lists, x ≠ pre ++ id ++ suf) → r.1 x = db x) := by
  intro set one r
  obtain ⟨h1, h2, items, h3, h4, h5⟩ := C37_backup (fun id => (src id).map fun x => some (backup x.1 x.2)) lists
  have hsucc : ∀ id, id ∈ items.map (·.1) ↔ id ∈ lists := by
    intro id
    rw [h4, h2]
    constructor
    · exact And.left
    · intro h
      obtain ⟨l, st, hx, -⟩ := hsrc id h
      exact ⟨h, backup l st, by rw [hx]; rfl⟩
  have hnd : (items.map (·.1)).Nodup := by
    rw [h4]
    have h6 : (_ ++ _ : List Str).Nodup := (List.Perm.nodup_iff h1).2 hd
    exact (List.nodup_append.1 h6).1
  have hitem : ∀ i ∈ items, ∃ l st, src i.1 = some (l, st) ∧ i.2 = backup l st ∧ Writable l st ∧ Short i := by
    intro i hi
    obtain ⟨l, st, hx, hw, hl1, hl2⟩ := hsrc i.1 ((hsucc _).1 (List.mem_map.2 ⟨i, hi, rfl⟩))
    have := h5 i hi
    rw [hx] at this
    simp only [Option.map_some, Option.some.injEq] at this
    exact ⟨l, st, hx, this.symm, hw, hl1, this ▸ hl2⟩
  have hone : ∀ i ∈ items, ∃ l st l' st', src i.1 = some (l, st) ∧ one (pre ++ i.1 ++ suf) i.2 = some (l', st') ∧
      Spec.ListOK st' ∧ st'.content = st.content ∧ l'.id = pre ++ i.1 ++ suf ∧ l'.set = l.set ∧
      l'.metadata = some (l.metadata.getD []) ∧ l'.splitSize = l.splitSize ∧ l'.mergeSize = l.mergeSize ∧
      l'.loadIndex = l.loadIndex := by
    intro i hi
    obtain ⟨l, st, hx, hb, hw, -⟩ := hitem i hi
    obtain ⟨l', st', hr, a1, a2, a3, a4, a5, a6, a7, a8, a9, a10, -⟩ := C32_roundtrip l st hw now sch
      (some (pre ++ i.1 ++ suf)) (scores (pre ++ i.1 ++ suf)) (index (pre ++ i.1 ++ suf)) []
    rw [List.append_nil, ← hb] at hr
    refine ⟨l, st, l', st', hx, ?_, a1, a2, a5, a6, a7, a8, a9, a10⟩
    show (match restore now sch (some (pre ++ i.1 ++ suf)) (scores (pre ++ i.1 ++ suf)) (index (pre ++ i.1 ++ suf)) i.2 with
      | some (.ok r) => some r
      | _ => none) = _
    rw [hr]
  have hkept : ∀ i, Kept pre suf true db i = false := by intro i; simp [Kept]
  have hmain := C37_restore_partial pre suf true one db items (fun i hi => by
    obtain ⟨_, _, _, _, _, h⟩ := hitem i hi
    exact h) hnd (fun i hi _ => by
    obtain ⟨_, _, l', st', _, h, _⟩ := hone i hi
    rw [h]; rfl) []
  rw [List.append_nil, ← h3] at hmain
  have hr : r = _ := hmain
  rw [hr]
  dsimp only
  refine ⟨?_, ?_, ?_⟩
  · have hlen : items.length = lists.length := by
      have hp : (items.map (·.1)).Perm lists := (List.perm_ext_iff_of_nodup hnd hd).2 hsucc
      have := hp.length_eq
      rwa [List.length_map] at this
    rw [List.countP_eq_length.2 (by intro i _; simp [hkept]), List.countP_eq_zero.2 (by intro i _; simp [hkept]), hlen]
  · intro id hid
    have hm := (hsucc id).2 hid
    unfold after
    cases hf : items.find? (fun i => decide (pre ++ i.1 ++ suf = pre ++ id ++ suf)) with
    | none =>
      obtain ⟨i, hi, rfl⟩ := List.mem_map.1 hm
      rw [List.find?_eq_none] at hf
      exact absurd (by simp) (hf i hi)
    | some i =>
      have hi := List.mem_of_find?_eq_some hf
      have he : pre ++ i.1 ++ suf = pre ++ id ++ suf := by simpa using List.find?_some hf
      have he' : i.1 = id := dest_inj (pre := pre) (suf := suf) he
      obtain ⟨l, st, l', st', b1, b2, b3⟩ := hone i hi
      rw [he'] at b1 b2 b3
      refine ⟨l, st, l', st', b1, ?_, b3⟩
      dsimp only
      rw [hkept, if_neg (by simp)]
      exact b2
  · intro x hx
    unfold after
    rw [List.find?_eq_none.2 (by
      intro i hi
      simp only [decide_eq_true_eq]
      intro he
      exact hx i.1 ((hsucc _).1 (List.mem_map.2 ⟨i, hi, rfl⟩)) he.symm)]

/-- Non-vacuity: a set of two lists, one of which exists already and is kept. -/
example : (∀ i ∈ [(([97], [1]) : Str × Bytes), ([98], [2])], Short i) ∧
    (restoreSet [112] [] false (fun _ b => some b) (fun x => if x = [112, 97] then some [9] else none)
      (stream [([97], [1]), ([98], [2])])).2 = .done { restored := 1, skipped := 1, failed := [] } ∧
    (restoreSet [112] [] false (fun _ b => some b) (fun x => if x = [112, 97] then some [9] else none)
      (stream [([97], [1]), ([98], [2])])).1 [112, 98] = some [2] := by
  refine ⟨?_, by decide +kernel, by decide +kernel⟩
  intro i hi
  simp only [List.mem_cons, List.not_mem_nil, or_false] at hi
  rcases hi with rfl | rfl <;> exact ⟨by decide, by decide⟩

example : ∃ l st, (fun _ => some (exDesc, exList)) ([108] : Str) = some (l, st) ∧ Writable l st ∧
    ([108] : Str).length ≤ maxU32 ∧ (backup l st).length ≤ maxU32 :=
  ⟨exDesc, exList, rfl, exWritable, by decide, by decide +kernel⟩

/-! Where the property fails. -/

/-- A list of the set that cannot be restored stops everything with a panic: the lists after it are not restored. When
lists are replaced, the existing list has been deleted before. -/
theorem C37_failure_panics {α : Type} (pre suf : Str) (replace : Bool) (one : Str → Bytes → Option α)
    (db : Str → Option α) (items1 : List (Str × Bytes)) (i : Str × Bytes) (items2 : List (Str × Bytes))
    (hs : ∀ j ∈ i :: items1, Short j) (hd : ((i :: items1).map (·.1)).Nodup)
    (hone : ∀ j ∈ items1, Kept pre suf replace db j = false → (one (pre ++ j.1 ++ suf) j.2).isSome)
    (hk : Kept pre suf replace db i = false) (hf : one (pre ++ i.1 ++ suf) i.2 = none) :
    (restoreSet pre suf replace one db (stream (items1 ++ i :: items2))).2 = .panic ∧
    (restoreSet pre suf replace one db (stream (items1 ++ i :: items2))).1 (pre ++ i.1 ++ suf) = none := by
  unfold restoreSet
  have hlen := stream_length (items1 ++ i :: items2)
  generalize hfu : (stream (items1 ++ i :: items2)).length + 1 = fuel
  have hfuel : items1.length < fuel := by rw [List.length_append] at hlen; omega
  unfold stream
  rw [List.flatMap_append, List.flatMap_cons, List.append_assoc, List.append_assoc]
  clear hlen hfu
  generalize items2.flatMap (fun i => record i.1 i.2) ++ encBool false = rest
  generalize hres : ({} : Result) = res
  clear hres
  induction items1 generalizing fuel db res with
  | nil =>
    cases fuel with
    | zero => simp at hfuel
    | succ fuel =>
      rw [List.flatMap_nil, List.nil_append, restoreLoop_record _ _ _ _ _ _ _ (hs i (List.mem_cons_self ..)),
        if_neg (by simp [hk])]
      have hf' : one (dest pre suf i.1) i.2 = none := hf
      rw [hf']
      exact ⟨rfl, if_pos rfl⟩
  | cons j items1 ih =>
    cases fuel with
    | zero => simp at hfuel
    | succ fuel =>
      have hlen : items1.length < fuel := by simpa using hfuel
      rw [List.map_cons, List.map_cons, List.nodup_cons, List.nodup_cons] at hd
      have hs' : ∀ k ∈ i :: items1, Short k := fun k hk => hs k (by
        rcases List.mem_cons.1 hk with rfl | h
        · exact List.mem_cons_self ..
        · exact List.mem_cons_of_mem _ (List.mem_cons_of_mem _ h))
      have hd' : ((i :: items1).map (·.1)).Nodup := by
        rw [List.map_cons, List.nodup_cons]
        exact ⟨fun h => hd.1 (List.mem_cons_of_mem _ h), hd.2.2⟩
      rw [List.flatMap_cons, List.append_assoc,
        restoreLoop_record _ _ _ _ _ _ _ (hs j (List.mem_cons_of_mem _ (List.mem_cons_self ..)))]
      by_cases hkj : Kept pre suf replace db j = true
      · rw [if_pos hkj]
        exact ih db hs' hd' (fun k hk => hone k (List.mem_cons_of_mem _ hk)) hk fuel hlen _
      · rw [if_neg hkj]
        obtain ⟨l, hl⟩ := Option.isSome_iff_exists.1 (hone j (List.mem_cons_self ..) (by simpa using hkj))
        have hl' : one (dest pre suf j.1) j.2 = some l := hl
        rw [hl']
        dsimp only
        have hkept : ∀ k : Str × Bytes, k.1 ≠ j.1 → Kept pre suf replace (fun x => if x = dest pre suf j.1 then some l else db x) k =
            Kept pre suf replace db k := by
          intro k hkj
          unfold Kept
          have : pre ++ k.1 ++ suf ≠ dest pre suf j.1 := fun h => hkj (dest_inj (pre := pre) (suf := suf) h)
          simp only [if_neg this]
        refine ih _ hs' hd' ?_ ?_ fuel hlen _
        · intro k hkm hkk
          rw [hkept k (by intro h; exact hd.2.1 (h ▸ List.mem_map.2 ⟨k, hkm, rfl⟩))] at hkk
          exact hone k (List.mem_cons_of_mem _ hkm) hkk
        · rw [hkept i (by intro h; exact hd.1 (h ▸ List.mem_cons_self ..))]
          exact hk

/-- So failures are not reported: two lists, the first cannot be restored; the existing list is gone, and the
second is not restored. -/
theorem C37_failure_witness :
    let one : Str → Bytes → Option Bytes := fun _ b => if b = [1] then none else some b
    let db : Str → Option Bytes := fun x => if x = [97] then some [9] else none
    (restoreSet [] [] true one db (stream [([97], [1]), ([98], [2])])).2 = .panic ∧
      (restoreSet [] [] true one db (stream [([97], [1]), ([98], [2])])).1 [97] = none ∧
      (restoreSet [] [] true one db (stream [([97], [1]), ([98], [2])])).1 [98] = none := by
  decide +kernel

end Props
end RankDB

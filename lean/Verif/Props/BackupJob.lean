import Verif.Spec.BackupJob
import Verif.Proofs.BackupJob
/-
Property C84: backup jobs.
-/
namespace RankDB
namespace BackupJob
open Wire Stored Backup

/-- What `run` is for a destination that gave a writer. -/
theorem run_eq {cap : Nat} {e : Env} {lists : List Str} (h : e.dst ≠ .refused) :
    ∃ j, j = finish cap e (loop cap e 0 (Catalogue.sortIDs lists) ({}, { lists := lists.length })) ∧
      (run cap e lists).1 = e.dst.arrived j.1.given ∧
      (run cap e lists).2.success = j.2.success ∧ (run cap e lists).2.listsDone = j.2.listsDone ∧
      (run cap e lists).2.cancelled = j.2.cancelled ∧ (run cap e lists).2.done = true ∧
      (run cap e lists).2.lists = j.2.lists ∧
      ((run cap e lists).2.errors = j.2.errors ∧ (∀ f, e.dst ≠ .uploadFailed f) ∨
        (run cap e lists).2.errors = j.2.errors ++ [Key.delayed] ∧ ∃ f, e.dst = .uploadFailed f) := by
  refine ⟨_, rfl, ?_⟩
  unfold run
  cases hd : e.dst with
  | refused => exact absurd hd h
  | direct f k => exact ⟨rfl, rfl, rfl, rfl, rfl, rfl, Or.inl ⟨rfl, by simp⟩⟩
  | uploaded => exact ⟨rfl, rfl, rfl, rfl, rfl, rfl, Or.inl ⟨rfl, by simp⟩⟩
  | uploadFailed f => exact ⟨rfl, rfl, rfl, rfl, rfl, rfl, Or.inr ⟨rfl, f, rfl⟩⟩

theorem finish_fields (cap : Nat) (e : Env) (j : Sink × Report) :
    (finish cap e j).2.cancelled = j.2.cancelled ∧ (finish cap e j).2.lists = j.2.lists := by
  unfold finish
  split
  · exact ⟨rfl, rfl⟩
  · dsimp only
    split <;> exact ⟨rfl, rfl⟩

/-- All facts about a job. -/
theorem run_final {cap : Nat} {e : Env} {lists : List Str} :
    ∃ seen rest j, Catalogue.sortIDs lists = seen ++ rest ∧ (j.2.cancelled = false → rest = []) ∧
      Final e seen j.1 j.2 ∧ ((∀ t, e.cancelled t = false) → j.2.cancelled = false) ∧ j.2.lists = lists.length ∧
      j = finish cap e (loop cap e 0 (Catalogue.sortIDs lists) ({}, { lists := lists.length })) := by
  obtain ⟨seen, rest, h1, h2, h3, h4, h5⟩ := loop_inv cap e (Catalogue.sortIDs lists) 0 [] {} { lists := lists.length }
    (Inv.start e lists.length) rfl
  have hf := finish_fields cap e (loop cap e 0 (Catalogue.sortIDs lists) ({}, { lists := lists.length }))
  refine ⟨seen, rest, _, h1, ?_, finish_final (by simpa using h2), ?_, ?_, rfl⟩
  · rw [hf.1]; exact h3
  · rw [hf.1]; exact h4
  · rw [hf.2]; exact h5

theorem restore_stream {α : Type} (pre suf : Str) (replace : Bool) (one : Str → Bytes → Option α)
    (db : Str → Option α) (items : List (Str × Bytes)) (hs : ∀ i ∈ items, Short i) (hd : (items.map (·.1)).Nodup)
    (hone : ∀ i ∈ items, Kept pre suf replace db i = false → (one (pre ++ i.1 ++ suf) i.2).isSome) :
    ∃ res, restoreSet pre suf replace one db (stream items) = (after pre suf replace one db items, .done res) :=
  ⟨_, by simpa using Props.C37_restore_partial pre suf replace one db items hs hd hone []⟩

/-- Restoring the set `b` restores the lists `items` and leaves all other lists as they are; then it ends with an error,
or `items` are all lists that the status `r` reports as success, and the job was not cancelled. -/
def RestoresAs (r : Report) (b : Bytes) (items : List (Str × Bytes)) : Prop :=
  ∀ {α : Type} (pre suf : Str) (replace : Bool) (one : Str → Bytes → Option α) (db : Str → Option α),
    (∀ i ∈ items, Kept pre suf replace db i = false → (one (pre ++ i.1 ++ suf) i.2).isSome) →
    (restoreSet pre suf replace one db b).1 = after pre suf replace one db items ∧
    ((∃ err, (restoreSet pre suf replace one db b).2 = .error err) ∨
     (∃ res, (restoreSet pre suf replace one db b).2 = .done res) ∧
      items.map (·.1) = r.success ∧ r.cancelled = false)

/-- The status of a job that has backed up all lists. -/
def allDone (lists : List Str) (done : Bool) : Report :=
  { lists := lists.length, listsDone := (Catalogue.sortIDs lists).length, success := Catalogue.sortIDs lists, done := done }

/-- The status of a job that is cancelled after `n` lists. -/
def cancelledAt (lists : List Str) (n : Nat) : Report :=
  { lists := lists.length, listsDone := n, success := (Catalogue.sortIDs lists).take n, cancelled := true, done := true }

end BackupJob

namespace Props
open Wire Stored Backup BackupJob

/-! ### C84 Backup jobs -/

/-- The status of a job: it ends as done, it counts the lists it reports as success, and the lists it has dealt with,
an initial part of the requested ones in their order, are each reported once, as success or as error. All of them have
been dealt with unless it reports that it was cancelled or that the destination could not be opened; and it reports to
be cancelled only if it was. -/
theorem C84_status (cap : Nat) (e : Env) (lists : List Str) :
    let r := (run cap e lists).2
    r.done = true ∧ r.lists = lists.length ∧ r.listsDone = r.success.length ∧
    (∃ seen rest errs more, Catalogue.sortIDs lists = seen ++ rest ∧ r.errors = errs.map Key.list ++ more ∧
      (∀ id, Key.list id ∉ more) ∧ (r.success ++ errs).Perm seen ∧
      (r.cancelled = false → Key.saver ∉ r.errors → rest = [])) ∧
    ((∀ t, e.cancelled t = false) → r.cancelled = false) := by
  intro r
  by_cases hd : e.dst = .refused
  · have hr : r = { lists := lists.length, errors := [.saver], done := true } := by
      show (run cap e lists).2 = _
      unfold run
      rw [hd]
    rw [hr]
    exact ⟨rfl, rfl, rfl, ⟨[], _, [], [.saver], rfl, rfl, by simp, List.Perm.refl _, fun _ h => by simp at h⟩, fun _ => rfl⟩
  · obtain ⟨j, hj, h1, h2, h3, h4, h5, h5', h6⟩ := run_eq (cap := cap) (lists := lists) hd
    obtain ⟨seen, rest, j', g1, g2, g3, g4, g5, g6⟩ := run_final (cap := cap) (e := e) (lists := lists)
    rw [← g6] at hj
    subst hj
    obtain ⟨errs, more, e1, e2, e3⟩ := g3.errs
    refine ⟨h5, h5'.trans g5, by rw [show r.listsDone = _ from h3, show r.success = _ from h2]; exact g3.count, ?_, ?_⟩
    · rcases h6 with ⟨h6, -⟩ | ⟨h6, -⟩
      · refine ⟨seen, rest, errs, more, g1, h6.trans e1, ?_, by rw [show r.success = _ from h2]; exact e2, ?_⟩
        · rcases e3 with rfl | rfl <;> simp
        · intro hc _
          exact g2 (by rw [← h4]; exact hc)
      · refine ⟨seen, rest, errs, more ++ [Key.delayed], g1, by rw [show r.errors = _ from h6, e1, List.append_assoc], ?_,
          by rw [show r.success = _ from h2]; exact e2, ?_⟩
        · rcases e3 with rfl | rfl <;> simp
        · intro hc _
          exact g2 (by rw [← h4]; exact hc)
    · intro hc
      rw [show r.cancelled = _ from h4]
      exact g4 hc

/-- Whatever fails, whenever the job is cancelled, and wherever the data is cut off: restoring what is at the
destination gives exactly the first of the lists that are reported as success, each as it was when the job backed it
up, and leaves all other lists as they are. It either reports an error then, or it has restored all lists that are
reported as success and the job was not cancelled. -/
theorem C84_arrived (cap : Nat) (e : Env) (lists : List Str) (hd : lists.Nodup)
    (hshort : ∀ t id p, id ∈ lists → e.payload t id = some (some p) → Short (id, p)) :
    ∃ items : List (Str × Bytes), items.map (·.1) <+: (run cap e lists).2.success ∧
      (∀ i ∈ items, ∃ t, e.payload t i.1 = some (some i.2)) ∧ RestoresAs (run cap e lists).2 (run cap e lists).1 items := by
  have hnd : (Catalogue.sortIDs lists).Nodup := (List.Perm.nodup_iff (goSort_perm _ _)).2 hd
  have hmem : ∀ id, id ∈ Catalogue.sortIDs lists → id ∈ lists := fun id => (goSort_perm _ _).mem_iff.1
  have torn : ∀ seen g, (∀ id ∈ seen, id ∈ Catalogue.sortIDs lists) → seen.Nodup →
      Torn e seen (run cap e lists).2 g → g = (run cap e lists).1 →
      ∃ items : List (Str × Bytes), items.map (·.1) <+: (run cap e lists).2.success ∧
        (∀ i ∈ items, ∃ t, e.payload t i.1 = some (some i.2)) ∧ RestoresAs (run cap e lists).2 (run cap e lists).1 items := by
    intro seen g hsub hsn ht hg
    obtain ⟨items, h1, h2, h3⟩ := ht.restore hsn (fun t id p hid => hshort t id p (hmem id (hsub id hid)))
    refine Exists.intro items ⟨h1, h2, ?_⟩
    intro α pre suf replace one db hone
    obtain ⟨err, h⟩ := h3 pre suf replace one db hone
    rw [hg] at h
    exact ⟨by rw [h], Or.inl ⟨err, by rw [h]⟩⟩
  by_cases hd : e.dst = .refused
  · refine torn [] [] (by simp) (by simp) (Torn.nil ..) ?_
    unfold run
    rw [hd]
  · obtain ⟨j, hj, h1, h2, h3, h4, h5, h5', h6⟩ := run_eq (cap := cap) (lists := lists) hd
    obtain ⟨seen, rest, j', g1, g2, g3, g4, g5, g6⟩ := run_final (cap := cap) (e := e) (lists := lists)
    rw [← g6] at hj
    subst hj
    have hsn : seen.Nodup := by rw [g1] at hnd; exact (List.nodup_append.1 hnd).1
    have hsub : ∀ id ∈ seen, id ∈ Catalogue.sortIDs lists := by intro id hid; rw [g1]; simp [hid]
    have conv : ∀ g, Torn e seen j.2 g → Torn e seen (run cap e lists).2 g := by
      intro g ⟨its, part, a1, a2, a3, a4, a5⟩
      exact ⟨its, part, a1, by rw [h2]; exact a2, a3, a4, a5⟩
    have whole : e.dst.arrived j.1.given = j.1.given →
      ∃ items : List (Str × Bytes), items.map (·.1) <+: (run cap e lists).2.success ∧
        (∀ i ∈ items, ∃ t, e.payload t i.1 = some (some i.2)) ∧ RestoresAs (run cap e lists).2 (run cap e lists).1 items := by
      intro hg
      rw [hg] at h1
      rcases g3.out with ⟨o1, o2, items, o3, o4, o5⟩ | ⟨hb, -⟩
      · refine Exists.intro items ⟨by rw [h2, o4]; exact List.prefix_refl _, o5, ?_⟩
        intro α pre suf replace one db hone
        have hs : ∀ i ∈ items, Short i := by
          intro i hi
          obtain ⟨t, ht⟩ := o5 i hi
          exact hshort t i.1 i.2 (hmem _ (hsub _ (g3.sub.subset (by rw [← o4]; exact List.mem_map.2 ⟨i, hi, rfl⟩)))) ht
        obtain ⟨res, hr⟩ := restore_stream pre suf replace one db items hs (by rw [o4]; exact hsn.sublist g3.sub) hone
        rw [h1, o3, hr]
        exact ⟨rfl, Or.inr ⟨⟨res, rfl⟩, by rw [o4, h2], by rw [h4]; exact o1⟩⟩
      · refine torn seen _ hsub hsn (conv _ (Torn.take g3 j.1.given.length ?_)) (by rw [h1, List.take_length])
        rcases hb with hb | hb
        · exact Or.inr (Or.inl hb)
        · exact Or.inl hb
    cases hdst : e.dst with
    | refused => exact absurd hdst hd
    | uploaded => exact whole (by rw [hdst]; rfl)
    | uploadFailed f =>
      refine torn seen [] hsub hsn (Torn.nil ..) ?_
      rw [h1, hdst]
      rfl
    | direct f k =>
      cases k with
      | none => exact whole (by rw [hdst]; rfl)
      | some k =>
        by_cases hk : k < j.1.given.length
        · refine torn seen _ hsub hsn (conv _ (Torn.take g3 k (Or.inr (Or.inr hk)))) ?_
          rw [h1, hdst]
          rfl
        · refine whole ?_
          rw [hdst]
          exact List.take_of_length_le (by omega)

/-- A destination that takes everything and a job that was not cancelled: the destination has the records of exactly
the lists reported as success, and the end of the set; the only errors are those of lists; and without errors these
are all requested lists. -/
theorem C84_complete_partial (cap : Nat) (e : Env) (lists : List Str) (hdst : Spec.TakesAll e.dst)
    (hc : (run cap e lists).2.cancelled = false) :
    ∃ items : List (Str × Bytes), (run cap e lists).1 = stream items ∧
      items.map (·.1) = (run cap e lists).2.success ∧ (∀ i ∈ items, ∃ t, e.payload t i.1 = some (some i.2)) ∧
      ((run cap e lists).2.errors = [] → (items.map (·.1)).Perm lists) := by
  have hd : e.dst ≠ .refused := by
    rintro h
    rcases hdst with h' | ⟨f, h', -⟩ <;> rw [h] at h' <;> simp at h'
  have hfault : ∀ n, e.dst.fault n = none := by
    intro n
    rcases hdst with h' | ⟨f, h', hf⟩
    · rw [h']; rfl
    · rw [h']; exact hf n
  have harr : ∀ b, e.dst.arrived b = b := by
    intro b
    rcases hdst with h' | ⟨f, h', hf⟩ <;> rw [h'] <;> rfl
  obtain ⟨j, hj, h1, h2, h3, h4, h5, h5', h6⟩ := run_eq (cap := cap) (lists := lists) hd
  obtain ⟨seen, rest, j', g1, g2, g3, g4, g5, g6⟩ := run_final (cap := cap) (e := e) (lists := lists)
  rw [← g6] at hj
  subst hj
  rw [h4] at hc
  have hb : j.1.broken = false := by
    rw [g6]
    have hinv : ∀ ids t s r, s.broken = false → (loop cap e t ids (s, r)).1.broken = false := by
      intro ids
      induction ids with
      | nil => intro t s r h; exact h
      | cons id ids ih =>
        intro t s r h
        simp only [loop]
        split
        · exact h
        · split
          · rename_i p _
            have hw := putAll_healthy (cap := cap) hfault (parts id p) h
            rw [if_pos hw]
            exact ih _ _ _ (putAll_ok _ hw h).1
          · exact ih _ _ _ h
    have hl := hinv (Catalogue.sortIDs lists) 0 {} { lists := lists.length } rfl
    unfold finish
    split
    · exact hl
    · dsimp only
      have hp := put_healthy (cap := cap) hfault hl (encBool false)
      have hp2 := put_ok hp hl
      exact (flush_ok (flush_healthy hfault hp2.1) hp2.1).1
  rcases g3.out with ⟨o1, o2, items, o3, o4, o5⟩ | ⟨hx, -⟩
  · refine ⟨items, by rw [h1, harr, o3], by rw [o4, h2], o5, ?_⟩
    intro he
    have hrest := g2 hc
    subst hrest
    rw [List.append_nil] at g1
    obtain ⟨errs, more, e1, e2, e3⟩ := g3.errs
    have herr : j.2.errors = [] := by
      rcases h6 with ⟨h6, -⟩ | ⟨h6, -⟩
      · rw [← h6]; exact he
      · rw [h6] at he; simp at he
    rw [herr] at e1
    have hnil : errs = [] := by
      have := (List.append_eq_nil_iff.1 e1.symm).1
      simpa using this
    subst hnil
    rw [List.append_nil, ← g1] at e2
    rw [o4]
    exact e2.trans (goSort_perm _ _)
  · rcases hx with hx | hx
    · rw [hc] at hx; simp at hx
    · rw [hb] at hx; simp at hx

/-- Uploads: when the status says success, all requested lists are in the uploaded set, with its end. -/
theorem C84_upload_complete (cap : Nat) (e : Env) (lists : List Str)
    (hdst : e.dst = .uploaded ∨ ∃ f, e.dst = .uploadFailed f) (hs : Spec.SaysSuccess (run cap e lists).2) :
    ∃ items : List (Str × Bytes), (run cap e lists).1 = stream items ∧ (items.map (·.1)).Perm lists ∧
      ∀ i ∈ items, ∃ t, e.payload t i.1 = some (some i.2) := by
  rcases hdst with hdst | ⟨f, hdst⟩
  · obtain ⟨items, h1, h2, h3, h4⟩ := C84_complete_partial cap e lists (Or.inl hdst) hs.2.1
    exact ⟨items, h1, h4 hs.2.2, h3⟩
  · obtain ⟨j, hj, h1, h2, h3, h4, h5, h5', h6⟩ := run_eq (cap := cap) (lists := lists) (e := e) (by rw [hdst]; simp)
    have he := hs.2.2
    rcases h6 with ⟨-, h6⟩ | ⟨h6, -⟩
    · exact absurd hdst (h6 f)
    · rw [h6] at he; simp at he

/-- From the database to the restored database: when the destination takes everything and the status says success,
restoring the set elsewhere gives every requested list, with the properties, the elements and the ranking it had at
the time the job looked at it, and leaves other lists as they are. -/
theorem C84_restored_partial (cap : Nat) (src : Nat → Str → Option (ListRec × ListState)) (cancelled : Nat → Bool) (d : Dst)
    (lists : List Str) (hd : lists.Nodup) (hdst : Spec.TakesAll d)
    (hsrc : ∀ t, ∀ id ∈ lists, ∀ l st, src t id = some (l, st) →
      Writable l st ∧ id.length ≤ maxU32 ∧ (backup l st).length ≤ maxU32)
    (pre suf : Str) (now : Nat) (sch : Sched) (scores index : Str → Str) (db : Str → Option (ListRec × ListState)) :
    let e : Env := { cancelled, payload := fun t id => (src t id).map fun x => some (backup x.1 x.2), dst := d }
    let one := fun dst b => match restore now sch (some dst) (scores dst) (index dst) b with
      | some (.ok r) => some r
      | _ => none
    Spec.SaysSuccess (run cap e lists).2 →
    let r := restoreSet pre suf true one db (run cap e lists).1
    (∃ res, r.2 = .done res) ∧
    (∀ id ∈ lists, ∃ t l st l' st', src t id = some (l, st) ∧ r.1 (pre ++ id ++ suf) = some (l', st') ∧
      Spec.ListOK st' ∧ st'.content = st.content ∧ l'.id = pre ++ id ++ suf ∧ l'.set = l.set ∧
      l'.metadata = some (l.metadata.getD []) ∧ l'.splitSize = l.splitSize ∧ l'.mergeSize = l.mergeSize ∧
      l'.loadIndex = l.loadIndex) ∧
    (∀ x, (∀ id ∈ lists, x ≠ pre ++ id ++ suf) → r.1 x = db x) := by
  intro e one hs r
  obtain ⟨items, h1, h2, h3, h4⟩ := C84_complete_partial cap e lists hdst hs.2.1
  have hperm := h4 hs.2.2
  have hnd : (items.map (·.1)).Nodup := (List.Perm.nodup_iff hperm).2 hd
  have hitem : ∀ i ∈ items, ∃ t l st, src t i.1 = some (l, st) ∧ i.2 = backup l st ∧ Writable l st ∧ Short i := by
    intro i hi
    obtain ⟨t, ht⟩ := h3 i hi
    have ht' : ((src t i.1).map fun x => some (backup x.1 x.2)) = some (some i.2) := ht
    cases hx : src t i.1 with
    | none => rw [hx] at ht'; simp at ht'
    | some x =>
      obtain ⟨l, st⟩ := x
      rw [hx] at ht'
      simp only [Option.map_some, Option.some.injEq] at ht'
      obtain ⟨w1, w2, w3⟩ := hsrc t i.1 (hperm.mem_iff.1 (List.mem_map.2 ⟨i, hi, rfl⟩)) l st hx
      exact ⟨t, l, st, hx, ht'.symm, w1, w2, ht' ▸ w3⟩
  have hone : ∀ i ∈ items, ∃ t l st l' st', src t i.1 = some (l, st) ∧ one (pre ++ i.1 ++ suf) i.2 = some (l', st') ∧
      Spec.ListOK st' ∧ st'.content = st.content ∧ l'.id = pre ++ i.1 ++ suf ∧ l'.set = l.set ∧
      l'.metadata = some (l.metadata.getD []) ∧ l'.splitSize = l.splitSize ∧ l'.mergeSize = l.mergeSize ∧
      l'.loadIndex = l.loadIndex := by
    intro i hi
    obtain ⟨t, l, st, hx, hb, hw, -⟩ := hitem i hi
    obtain ⟨l', st', hr, a1, a2, a3, a4, a5, a6, a7, a8, a9, a10, -⟩ := C32_roundtrip l st hw now sch
      (some (pre ++ i.1 ++ suf)) (scores (pre ++ i.1 ++ suf)) (index (pre ++ i.1 ++ suf)) []
    rw [List.append_nil, ← hb] at hr
    refine ⟨t, l, st, l', st', hx, ?_, a1, a2, a5, a6, a7, a8, a9, a10⟩
    show (match restore now sch (some (pre ++ i.1 ++ suf)) (scores (pre ++ i.1 ++ suf)) (index (pre ++ i.1 ++ suf)) i.2 with
      | some (.ok r) => some r
      | _ => none) = _
    rw [hr]
  have hkept : ∀ i, Kept pre suf true db i = false := by intro i; simp [Kept]
  obtain ⟨res, hres⟩ := restore_stream pre suf true one db items (fun i hi => by
    obtain ⟨_, _, _, _, _, _, h⟩ := hitem i hi
    exact h) hnd (fun i hi _ => by
    obtain ⟨_, _, _, l', st', _, h, _⟩ := hone i hi
    rw [h]; rfl)
  rw [← h1] at hres
  have hr : r = _ := hres
  rw [hr]
  dsimp only
  refine ⟨⟨res, rfl⟩, ?_, ?_⟩
  · intro id hid
    have hm := hperm.mem_iff.2 hid
    unfold after
    cases hf : items.find? (fun i => decide (pre ++ i.1 ++ suf = pre ++ id ++ suf)) with
    | none =>
      obtain ⟨i, hi, rfl⟩ := List.mem_map.1 hm
      rw [List.find?_eq_none] at hf
      exact absurd (by simp) (hf i hi)
    | some i =>
      have hi := List.mem_of_find?_eq_some hf
      have he : pre ++ i.1 ++ suf = pre ++ id ++ suf := by simpa using List.find?_some hf
      have he' : i.1 = id := dest_inj (pre := pre) (suf := suf) he
      obtain ⟨t, l, st, l', st', b1, b2, b3⟩ := hone i hi
      rw [he'] at b1 b2 b3
      refine ⟨t, l, st, l', st', b1, ?_, b3⟩
      dsimp only
      rw [hkept, if_neg (by simp)]
      exact b2
  · intro x hx
    unfold after
    rw [List.find?_eq_none.2 (by
      intro i hi
      simp only [decide_eq_true_eq]
      intro he
      exact hx i.1 (hperm.mem_iff.1 (List.mem_map.2 ⟨i, hi, rfl⟩)) he.symm)]

/-! #### Where the status and the destination disagree -/

/-- The last write is not checked: a set that fits into the buffer is written by `Flush` only. If that write fails,
the status still says success for all lists, and there is nothing to restore. -/
theorem C84_flush_error_ignored (cap : Nat) (pay : Nat → Str → Bytes) (lists : List Str)
    (hfit : Spec.setSize (Spec.backedUp pay (Catalogue.sortIDs lists)) ≤ cap) :
    let e : Env := { cancelled := fun _ => false, payload := fun t id => some (some (pay t id)),
                     dst := .direct (fun _ => some 0) none }
    Spec.SaysSuccess (run cap e lists).2 ∧ (run cap e lists).2.success = Catalogue.sortIDs lists ∧
      Spec.NothingToRestore (run cap e lists).1 := by
  intro e
  have hl := loop_fits (cap := cap) (e := e) (pay := pay) (fun _ _ => rfl) (Catalogue.sortIDs lists) [] 0 {}
    { lists := lists.length } (fun _ _ _ => rfl) (Spec.backedUp pay (Catalogue.sortIDs lists))
    (by unfold Spec.backedUp; congr 1; funext i id; rw [Nat.zero_add])
    (by unfold Spec.setSize at hfit; show 0 + (records _).length ≤ cap; unfold records; omega)
  rw [List.append_nil] at hl
  have hrun : run cap e lists = ([], allDone lists true) := by
    show (_, _) = _
    rw [hl]
    simp only [loop]
    unfold finish
    rw [if_neg (by simp)]
    dsimp only
    have hput := put_fits (cap := cap) (d := e.dst) (p := encBool false)
      (s := { buf := ([] : Bytes) ++ records (Spec.backedUp pay (Catalogue.sortIDs lists)) }) (by
        unfold Spec.setSize at hfit
        rw [List.nil_append]
        show (records _).length + 1 ≤ cap
        unfold records
        exact hfit)
    rw [hput]
    dsimp only
    rw [if_pos rfl]
    have hflush : ((({ buf := ([] : Bytes) ++ records (Spec.backedUp pay (Catalogue.sortIDs lists)) ++ encBool false } : Sink).flush
        e.dst).1).given = [] := by
      unfold Sink.flush
      rw [if_neg (by simp [encBool])]
      dsimp only
      simp [Sink.write, e, Dst.fault]
    show (((({ buf := ([] : Bytes) ++ records (Spec.backedUp pay (Catalogue.sortIDs lists)) ++ encBool false } : Sink).flush
        e.dst).1).given, _) = _
    rw [hflush]
    simp [allDone]
  rw [hrun]
  refine ⟨⟨rfl, rfl, rfl⟩, rfl, ?_⟩
  intro α pre suf replace one db
  exact ⟨.decode, rfl⟩

/-- Errors when the destination is closed are dropped, and a job does not wait for the other server: if the data is cut
off anywhere, even though no write failed, the status says success and restoring gives an error. -/
theorem C84_close_error_ignored (cap : Nat) (pay : Nat → Str → Bytes) (lists : List Str) (hd : lists.Nodup) (k : Nat)
    (hk : k < Spec.setSize (Spec.backedUp pay (Catalogue.sortIDs lists)))
    (hshort : ∀ t, ∀ id ∈ lists, Short (id, pay t id)) :
    let e : Env := { cancelled := fun _ => false, payload := fun t id => some (some (pay t id)),
                     dst := .direct (fun _ => none) (some k) }
    Spec.SaysSuccess (run cap e lists).2 ∧ (run cap e lists).2.success = Catalogue.sortIDs lists ∧
      ∀ {α : Type} (pre suf : Str) (replace : Bool) (one : Str → Bytes → Option α) (db : Str → Option α),
        (∀ x b, (one x b).isSome) → ∃ err, (restoreSet pre suf replace one db (run cap e lists).1).2 = .error err := by
  intro e
  have hloop : ∀ ids t s r, s.broken = false →
      (loop cap e t ids (s, r)).1.broken = false ∧
      (loop cap e t ids (s, r)).2 = { r with success := r.success ++ ids, listsDone := r.listsDone + ids.length } ∧
      (loop cap e t ids (s, r)).1.given ++ (loop cap e t ids (s, r)).1.buf =
        s.given ++ s.buf ++ records (ids.mapIdx fun i id => (id, pay (t + i) id)) := by
    intro ids
    induction ids with
    | nil => intro t s r h; exact ⟨h, by simp [loop], by simp [loop, records]⟩
    | cons id ids ih =>
      intro t s r h
      have hw := putAll_healthy (cap := cap) (d := e.dst) (fun _ => rfl) (parts id (pay t id)) h
      have hw2 := putAll_ok _ hw h
      have hstep : loop cap e t (id :: ids) (s, r) = loop cap e (t + 1) ids ((s.putAll cap e.dst (parts id (pay t id))).1,
          { r with success := r.success ++ [id], listsDone := r.listsDone + 1 }) := by
        rw [loop, if_neg (show ¬ e.cancelled t = true by simp [e])]
        show (if (s.putAll cap e.dst (parts id (pay t id))).2 = true then _ else _) = _
        rw [if_pos hw]
      rw [hstep]
      obtain ⟨i1, i2, i3⟩ := ih (t + 1) _ { r with success := r.success ++ [id], listsDone := r.listsDone + 1 } hw2.1
      refine ⟨i1, ?_, ?_⟩
      · rw [i2]; simp [Nat.add_comm 1, Nat.add_assoc]
      · rw [i3, hw2.2, List.mapIdx_cons, parts_flatten]
        simp [records, List.append_assoc, Nat.add_comm 1, Nat.add_assoc]
  obtain ⟨l1, l2, l3⟩ := hloop (Catalogue.sortIDs lists) 0 {} { lists := lists.length } rfl
  have hj := run_eq (cap := cap) (lists := lists) (e := e) (by simp [e])
  obtain ⟨j, hj, h1, h2, h3, h4, h5, h5', h6⟩ := hj
  have hp := put_healthy (cap := cap) (d := e.dst) (fun _ => rfl) l1 (encBool false)
  have hp2 := put_ok hp l1
  have hfin : j.2 = allDone lists false ∧
      j.1.given = stream (Spec.backedUp pay (Catalogue.sortIDs lists)) := by
    rw [hj]
    unfold finish
    rw [if_neg (by rw [l2]; simp)]
    dsimp only
    rw [if_pos hp, l2]
    refine ⟨by simp [allDone], ?_⟩
    rw [(flush_ok (flush_healthy (d := e.dst) (fun _ => rfl) hp2.1) hp2.1).2.1, hp2.2, l3]
    unfold stream records Spec.backedUp
    simp
  have hsucc : (run cap e lists).2.success = Catalogue.sortIDs lists := by rw [h2, hfin.1]; rfl
  refine ⟨⟨h5, by rw [h4, hfin.1]; rfl, ?_⟩, hsucc, ?_⟩
  · rcases h6 with ⟨h6, -⟩ | ⟨-, f, h6⟩
    · rw [h6, hfin.1]; rfl
    · simp [e] at h6
  · intro α pre suf replace one db hone
    obtain ⟨seen, rest, j', g1, g2, g3, g4, g5, g6⟩ := run_final (cap := cap) (e := e) (lists := lists)
    rw [← g6] at hj
    subst hj
    have hnd : (Catalogue.sortIDs lists).Nodup := (List.Perm.nodup_iff (goSort_perm _ _)).2 hd
    have hsn : seen.Nodup := by rw [g1] at hnd; exact (List.nodup_append.1 hnd).1
    have ht := Torn.take g3 k (Or.inr (Or.inr (by
      rw [hfin.2]
      unfold stream
      unfold Spec.setSize at hk
      rw [List.length_append]
      exact hk)))
    obtain ⟨its, c1, c2, c3⟩ := ht.restore hsn (fun t id p hid hp => by
      simp only [e, Option.some.injEq] at hp
      rw [← hp]
      exact hshort t id ((show (Catalogue.sortIDs lists).Perm lists from goSort_perm _ _).mem_iff.1 (by rw [g1]; simp [hid])))
    obtain ⟨err, hc⟩ := c3 pre suf replace one db (fun i _ _ => hone _ _)
    exact ⟨err, by rw [h1]; exact (congrArg Prod.snd hc)⟩

/-- A cancelled job drops what is in its buffer: as long as everything fits into it, the lists that a cancelled job
reports as success are not at the destination, although nothing failed. -/
theorem C84_cancelled_success_lost (cap : Nat) (pay : Nat → Str → Bytes) (lists : List Str) (n : Nat) (hn : n < lists.length)
    (hfit : Spec.setSize (Spec.backedUp pay ((Catalogue.sortIDs lists).take n)) ≤ cap) :
    let e : Env := { cancelled := fun t => decide (n ≤ t), payload := fun t id => some (some (pay t id)),
                     dst := .direct (fun _ => none) none }
    (run cap e lists).2 = cancelledAt lists n ∧
      Spec.NothingToRestore (run cap e lists).1 := by
  intro e
  have hlen : (Catalogue.sortIDs lists).length = lists.length := (goSort_perm _ _).length_eq
  have hlt : ((Catalogue.sortIDs lists).take n).length = n := by rw [List.length_take]; omega
  have hl := loop_fits (cap := cap) (e := e) (pay := pay) (fun _ _ => rfl) ((Catalogue.sortIDs lists).take n)
    ((Catalogue.sortIDs lists).drop n) 0 {} { lists := lists.length } (fun u _ hu => by
      simp only [e, decide_eq_false_iff_not]; omega) (Spec.backedUp pay ((Catalogue.sortIDs lists).take n))
    (by unfold Spec.backedUp; congr 1; funext i id; rw [Nat.zero_add])
    (by unfold Spec.setSize at hfit; show 0 + (records _).length ≤ cap; unfold records; omega)
  rw [List.take_append_drop, hlt, Nat.zero_add] at hl
  obtain ⟨x, xs, hx⟩ : ∃ x xs, (Catalogue.sortIDs lists).drop n = x :: xs := by
    cases h : (Catalogue.sortIDs lists).drop n with
    | nil =>
      have := congrArg List.length h
      rw [List.length_drop, List.length_nil] at this
      omega
    | cons x xs => exact ⟨x, xs, rfl⟩
  have hrun : run cap e lists = ([], cancelledAt lists n) := by
    show (_, _) = _
    rw [hl, hx, loop, if_pos (show e.cancelled n = true by simp [e])]
    unfold finish
    rw [if_pos rfl]
    simp [e, Dst.arrived, cancelledAt]
  rw [hrun]
  refine ⟨rfl, ?_⟩
  intro α pre suf replace one db
  exact ⟨.decode, rfl⟩

/-- The lists of a set need not belong together: an element that is moved from a list to another while a job runs can be
missing in the set, although it was in one of the lists at all times. (Lists are sets of elements here, and the backup
of a list is its elements.) -/
theorem C84_not_a_snapshot :
    let pay : Nat → Str → Bytes := fun t id => if (t = 0) = (id = [98]) then [7] else []
    let e : Env := { cancelled := fun _ => false, payload := fun t id => some (some (pay t id)), dst := .uploaded }
    (∀ t, 7 ∈ pay t [97] ∨ 7 ∈ pay t [98]) ∧
    Spec.SaysSuccess (run 2048 e [[97], [98]]).2 ∧ (run 2048 e [[97], [98]]).1 = stream [([97], []), ([98], [])] := by
  refine ⟨?_, ⟨by decide +kernel, by decide +kernel, by decide +kernel⟩, by decide +kernel⟩
  intro t
  by_cases ht : t = 0
  · right; simp [ht]
  · left; simp [ht]

/-! #### Asking for the status -/

/-- Asking for the status of a job that meets no errors never ends the server. -/
theorem C84_status_safe_partial (as : List Access) (h : ∀ k, Access.store k ∉ as) :
    (as.foldl access (some [])).isSome := by
  suffices ∀ rs, (as.foldl access (some rs)).isSome from this []
  induction as with
  | nil => intro rs; rfl
  | cons a as ih =>
    intro rs
    have ih := ih (fun k hk => h k (List.mem_cons_of_mem _ hk))
    cases a with
    | store k => exact absurd (List.mem_cons_self ..) (h k)
    | encodeStarts i => exact ih _
    | encodeEnds i => exact ih _

/-- A job that meets an error while its status is sent to a client ends the server, whatever happened before. -/
theorem C84_status_fatal (as : List Access) (i : Nat) (k : Key) (rest : List Access) :
    (as ++ [Access.encodeStarts i, Access.store k] ++ rest).foldl access (some []) = none := by
  have hnone : ∀ l : List Access, l.foldl access none = none := by
    intro l
    induction l with
    | nil => rfl
    | cons a l ih => exact ih
  rw [List.foldl_append, List.foldl_append]
  cases as.foldl access (some []) with
  | none => exact hnone _
  | some rs =>
    show rest.foldl access none = none
    exact hnone _

/-! #### Examples -/

/-- Non-vacuity: three lists, one of which does not exist; the job is cancelled before the third; the buffer is so small
that the first record has been written. -/
example :
    let e : Env := { cancelled := fun t => decide (2 ≤ t),
                     payload := fun _ id => if id = [98] then none else some (some [1, 2, 3]),
                     dst := .direct (fun _ => none) none }
    (run 2 e [[99], [97], [98]]).2 =
      { lists := 3, listsDone := 1, success := [[97]], errors := [.list [98]], cancelled := true, done := true } ∧
    (restoreSet [] [] true (fun _ b => some b) (fun _ => none) (run 2 e [[99], [97], [98]]).1).1 [97] = some [1, 2, 3] ∧
    (restoreSet [] [] true (fun _ b => some b) (fun _ => none) (run 2 e [[99], [97], [98]]).1).2 = .error .decode := by
  decide +kernel

/-- Non-vacuity: a destination that fails in the second record. The first list can be restored. -/
example :
    let e : Env := { cancelled := fun _ => false, payload := fun _ _ => some (some [1, 2, 3]),
                     dst := .direct (fun n => if n = 3 then some 1 else none) none }
    (run 2 e [[97], [98]]).2.success = [[97]] ∧ (run 2 e [[97], [98]]).2.errors = [.list [98], .finalizing] ∧
    (restoreSet [] [] true (fun _ b => some b) (fun _ => none) (run 2 e [[97], [98]]).1).1 [97] = some [1, 2, 3] := by
  decide +kernel

/-- Non-vacuity of the hypotheses of the complete case and of the cases that lose data. -/
example :
    let pay : Nat → Str → Bytes := fun _ _ => [1, 2, 3]
    Spec.TakesAll .uploaded ∧ Spec.TakesAll (.direct (fun _ => none) none) ∧
    Spec.setSize (Spec.backedUp pay (Catalogue.sortIDs [[97], [98]])) = 19 ∧
    (∀ t, ∀ id ∈ [([97] : Str), [98]], Short (id, pay t id)) := by
  refine ⟨Or.inl rfl, Or.inr ⟨_, rfl, fun _ => rfl⟩, by decide +kernel, ?_⟩
  intro t id hid
  simp only [List.mem_cons, List.not_mem_nil, or_false] at hid
  rcases hid with rfl | rfl <;> simp [Short, maxU32]

end Props
end RankDB

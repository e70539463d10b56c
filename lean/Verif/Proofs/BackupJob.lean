import Verif.Model.BackupJob
import Verif.Props.BackupSet
/-
Lemmas about backup jobs.
-/
namespace RankDB.BackupJob
open Wire Stored Backup

/-- The bytes of the records of some lists. -/
def records (items : List (Str × Bytes)) : Bytes := items.flatMap fun i => record i.1 i.2

theorem records_append (a b : List (Str × Bytes)) : records (a ++ b) = records a ++ records b := by
  unfold records; rw [List.flatMap_append]

theorem records_single (i : Str × Bytes) : records [i] = record i.1 i.2 := by simp [records]

theorem parts_flatten (id : Str) (p : Bytes) : (parts id p).flatten = record id p := by
  simp [parts, record]

/-! ### Writing -/

theorem write_ok {d : Dst} {s : Sink} {p : Bytes} (h : (s.write d p).2 = true) :
    s.broken = false ∧ (s.write d p).1.broken = false ∧ (s.write d p).1.given = s.given ++ p ∧
      (s.write d p).1.buf = s.buf := by
  unfold Sink.write at *
  by_cases hb : s.broken = true
  · rw [if_pos hb] at h; simp at h
  · rw [if_neg hb] at *
    have hb' : s.broken = false := by simpa using hb
    cases hf : d.fault s.writes with
    | none => simp [hb']
    | some k => rw [hf] at h; simp at h

theorem write_fails {d : Dst} {s : Sink} {p : Bytes} (hb : s.broken = false) (hp : p ≠ [])
    (h : (s.write d p).2 = false) :
    (s.write d p).1.broken = true ∧ ∃ c, c ≠ [] ∧ (s.write d p).1.given ++ c = s.given ++ p := by
  unfold Sink.write at *
  rw [if_neg (by simp [hb])] at *
  cases hf : d.fault s.writes with
  | none => rw [hf] at h; simp at h
  | some k =>
    dsimp only
    refine ⟨rfl, p.dropLast.drop k ++ [p.getLast hp], by simp, ?_⟩
    rw [List.append_assoc, ← List.append_assoc (p.dropLast.take k), List.take_append_drop, List.dropLast_concat_getLast]

theorem write_broken {d : Dst} {s : Sink} {p : Bytes} (hb : s.broken = true) : s.write d p = (s, false) := by
  unfold Sink.write; rw [if_pos hb]

theorem flush_ok {d : Dst} {s : Sink} (h : (s.flush d).2 = true) (hb : s.broken = false) :
    (s.flush d).1.broken = false ∧ (s.flush d).1.given = s.given ++ s.buf ∧ (s.flush d).1.buf = [] := by
  unfold Sink.flush at *
  by_cases he : s.buf = []
  · rw [if_pos he] at *
    simp [he, hb]
  · rw [if_neg he] at *
    dsimp only at *
    by_cases hw : (s.write d s.buf).2 = true
    · rw [if_pos hw] at *
      have := write_ok hw
      exact ⟨this.2.1, this.2.2.1, rfl⟩
    · rw [if_neg hw] at h; simp at h

theorem flush_fails {d : Dst} {s : Sink} (h : (s.flush d).2 = false) (hb : s.broken = false) :
    (s.flush d).1.broken = true ∧ ∃ c, c ≠ [] ∧ (s.flush d).1.given ++ c = s.given ++ s.buf := by
  unfold Sink.flush at *
  by_cases he : s.buf = []
  · rw [if_pos he] at h; simp at h
  · rw [if_neg he] at *
    dsimp only at *
    by_cases hw : (s.write d s.buf).2 = true
    · rw [if_pos hw] at h; simp at h
    · rw [if_neg hw]
      exact write_fails hb he (by simpa using hw)

theorem flush_broken {d : Dst} {s : Sink} (hb : s.broken = true) :
    (s.flush d).1.broken = true ∧ (s.flush d).1.given = s.given := by
  unfold Sink.flush
  by_cases he : s.buf = []
  · rw [if_pos he]; exact ⟨hb, rfl⟩
  · rw [if_neg he, write_broken hb]; exact ⟨hb, rfl⟩

theorem put_ok {cap : Nat} {d : Dst} {s : Sink} {p : Bytes} (h : (s.put cap d p).2 = true) (hb : s.broken = false) :
    (s.put cap d p).1.broken = false ∧
      (s.put cap d p).1.given ++ (s.put cap d p).1.buf = s.given ++ s.buf ++ p := by
  unfold Sink.put at *
  by_cases hc : s.buf.length + p.length ≤ cap
  · rw [if_pos hc]; exact ⟨hb, by simp⟩
  · rw [if_neg hc] at *
    dsimp only at *
    by_cases hf : (s.flush d).2 = true
    · rw [if_pos hf] at *
      obtain ⟨h1, h2, h3⟩ := flush_ok hf hb
      by_cases hl : cap < p.length
      · rw [if_pos hl] at *
        have := write_ok h
        exact ⟨this.2.1, by rw [this.2.2.1, this.2.2.2, h2, h3, List.append_nil]⟩
      · rw [if_neg hl] at *
        exact ⟨h1, by dsimp only; rw [h2]⟩
    · rw [if_neg hf] at h; simp at h

theorem put_fails {cap : Nat} {d : Dst} {s : Sink} {p : Bytes} (h : (s.put cap d p).2 = false) (hb : s.broken = false) :
    (s.put cap d p).1.broken = true ∧ ∃ c, c ≠ [] ∧ (s.put cap d p).1.given ++ c = s.given ++ s.buf ++ p := by
  unfold Sink.put at *
  by_cases hc : s.buf.length + p.length ≤ cap
  · rw [if_pos hc] at h; simp at h
  · rw [if_neg hc] at *
    dsimp only at *
    by_cases hf : (s.flush d).2 = true
    · rw [if_pos hf] at *
      obtain ⟨h1, h2, h3⟩ := flush_ok hf hb
      by_cases hl : cap < p.length
      · rw [if_pos hl] at *
        have hp : p ≠ [] := by
          rintro rfl
          simp at hl
        obtain ⟨h4, c, h5, h6⟩ := write_fails h1 hp h
        exact ⟨h4, c, h5, by rw [h6, h2]⟩
      · rw [if_neg hl] at h; simp at h
    · rw [if_neg hf]
      obtain ⟨h1, c, h2, h3⟩ := flush_fails (by simpa using hf) hb
      exact ⟨h1, c ++ p, by simp [h2], by rw [← List.append_assoc, h3]⟩

theorem put_broken {cap : Nat} {d : Dst} {s : Sink} {p : Bytes} (hb : s.broken = true) :
    (s.put cap d p).1.broken = true ∧ (s.put cap d p).1.given = s.given := by
  unfold Sink.put
  by_cases hc : s.buf.length + p.length ≤ cap
  · rw [if_pos hc]; exact ⟨hb, rfl⟩
  · rw [if_neg hc]
    dsimp only
    have hf := flush_broken (d := d) hb
    by_cases h2 : (s.flush d).2 = true
    · rw [if_pos h2]
      by_cases hl : cap < p.length
      · rw [if_pos hl, write_broken hf.1]; exact hf
      · rw [if_neg hl]; exact hf
    · rw [if_neg h2]; exact hf

theorem putAll_ok {cap : Nat} {d : Dst} (ps : List Bytes) {s : Sink} (h : (s.putAll cap d ps).2 = true)
    (hb : s.broken = false) : (s.putAll cap d ps).1.broken = false ∧
      (s.putAll cap d ps).1.given ++ (s.putAll cap d ps).1.buf = s.given ++ s.buf ++ ps.flatten := by
  induction ps generalizing s with
  | nil => simp [Sink.putAll, hb]
  | cons p ps ih =>
    simp only [Sink.putAll] at *
    by_cases hp : (s.put cap d p).2 = true
    · rw [if_pos hp] at *
      have h1 := put_ok hp hb
      have h2 := ih h h1.1
      refine ⟨h2.1, ?_⟩
      rw [h2.2, h1.2]
      simp [List.append_assoc]
    · rw [if_neg hp] at h; simp at h

theorem putAll_fails {cap : Nat} {d : Dst} (ps : List Bytes) {s : Sink} (h : (s.putAll cap d ps).2 = false)
    (hb : s.broken = false) : (s.putAll cap d ps).1.broken = true ∧
      ∃ c, c ≠ [] ∧ (s.putAll cap d ps).1.given ++ c = s.given ++ s.buf ++ ps.flatten := by
  induction ps generalizing s with
  | nil => simp [Sink.putAll] at h
  | cons p ps ih =>
    simp only [Sink.putAll] at *
    by_cases hp : (s.put cap d p).2 = true
    · rw [if_pos hp] at *
      have h1 := put_ok hp hb
      obtain ⟨h2, c, h3, h4⟩ := ih h h1.1
      refine ⟨h2, c, h3, ?_⟩
      rw [h4, h1.2]
      simp [List.append_assoc]
    · rw [if_neg hp] at *
      obtain ⟨h1, c, h2, h3⟩ := put_fails (by simpa using hp) hb
      refine ⟨h1, c ++ ps.flatten, by simp [h2], ?_⟩
      rw [← List.append_assoc, h3]
      simp [List.append_assoc]

theorem putAll_broken {cap : Nat} {d : Dst} (ps : List Bytes) {s : Sink} (hb : s.broken = true) :
    (s.putAll cap d ps).1.broken = true ∧ (s.putAll cap d ps).1.given = s.given := by
  induction ps generalizing s with
  | nil => exact ⟨hb, rfl⟩
  | cons p ps ih =>
    simp only [Sink.putAll]
    have h1 := put_broken (cap := cap) (d := d) (p := p) hb
    by_cases hp : (s.put cap d p).2 = true
    · rw [if_pos hp]
      have h2 := ih h1.1
      exact ⟨h2.1, h2.2.trans h1.2⟩
    · rw [if_neg hp]; exact h1

/-! ### Nothing fails -/

theorem write_healthy {d : Dst} (hd : ∀ n, d.fault n = none) {s : Sink} (hb : s.broken = false) (p : Bytes) :
    (s.write d p).2 = true := by
  unfold Sink.write
  rw [if_neg (by simp [hb]), hd]

theorem flush_healthy {d : Dst} (hd : ∀ n, d.fault n = none) {s : Sink} (hb : s.broken = false) :
    (s.flush d).2 = true := by
  unfold Sink.flush
  split
  · rfl
  · dsimp only
    rw [if_pos (write_healthy hd hb _)]

theorem put_healthy {cap : Nat} {d : Dst} (hd : ∀ n, d.fault n = none) {s : Sink} (hb : s.broken = false) (p : Bytes) :
    (s.put cap d p).2 = true := by
  unfold Sink.put
  split
  · rfl
  · dsimp only
    rw [if_pos (flush_healthy hd hb)]
    split
    · exact write_healthy hd (flush_ok (flush_healthy hd hb) hb).1 _
    · rfl

theorem putAll_healthy {cap : Nat} {d : Dst} (hd : ∀ n, d.fault n = none) (ps : List Bytes) {s : Sink}
    (hb : s.broken = false) : (s.putAll cap d ps).2 = true := by
  induction ps generalizing s with
  | nil => rfl
  | cons p ps ih =>
    simp only [Sink.putAll]
    have hp := put_healthy (cap := cap) hd hb p
    rw [if_pos hp]
    exact ih (put_ok hp hb).1

/-! ### The job -/

/-- The items were backups of lists, in the order of the job, at the times when the job looked at them. -/
def Sound (e : Env) (items : List (Str × Bytes)) : Prop := ∀ i ∈ items, ∃ t, e.payload t i.1 = some (some i.2)

/-- What holds of a job that has looked at the lists `seen`. -/
structure Inv (e : Env) (seen : List Str) (s : Sink) (r : Report) : Prop where
  count : r.listsDone = r.success.length
  done : r.done = false
  sub : r.success.Sublist seen
  errs : ∃ errs, r.errors = errs.map Key.list ∧ (r.success ++ errs).Perm seen
  good : s.broken = false → ∃ items, s.given ++ s.buf = records items ∧ items.map (·.1) = r.success ∧ Sound e items
  bad : s.broken = true → ∃ items j c, c ≠ [] ∧ s.given ++ c = records (items ++ [j]) ∧
    items.map (·.1) <+: r.success ∧ Sound e (items ++ [j]) ∧ ((items ++ [j]).map (·.1)).Sublist seen ∧ r.errors ≠ []

theorem Inv.start (e : Env) (n : Nat) : Inv e [] {} { lists := n } :=
  { count := rfl, done := rfl, sub := List.Sublist.refl _, errs := ⟨[], rfl, List.Perm.refl _⟩
    good := fun _ => ⟨[], rfl, rfl, fun i hi => by simp at hi⟩
    bad := fun h => by simp at h }

theorem Inv.skip {e : Env} {seen : List Str} {s : Sink} {r : Report} (h : Inv e seen s r) (id : Str) :
    Inv e (seen ++ [id]) s { r with errors := r.errors ++ [.list id] } := by
  obtain ⟨errs, he, hp⟩ := h.errs
  exact
    { count := h.count, done := h.done, sub := h.sub.trans (List.sublist_append_left _ _)
      errs := ⟨errs ++ [id], by simp [he], by rw [← List.append_assoc]; exact hp.append_right _⟩
      good := h.good
      bad := fun hb => by
        obtain ⟨items, j, c, h1, h2, h3, h4, h5, h6⟩ := h.bad hb
        exact ⟨items, j, c, h1, h2, h3, h4, h5.trans (List.sublist_append_left _ _), by simp⟩ }

theorem Inv.wrote {e : Env} {seen : List Str} {s : Sink} {r : Report} (h : Inv e seen s r) {cap t : Nat} {id : Str}
    {p : Bytes} (hp : e.payload t id = some (some p)) (hw : (s.putAll cap e.dst (parts id p)).2 = true) :
    Inv e (seen ++ [id]) (s.putAll cap e.dst (parts id p)).1
      { r with success := r.success ++ [id], listsDone := r.listsDone + 1 } := by
  obtain ⟨errs, he, hperm⟩ := h.errs
  refine
    { count := by simp [h.count], done := h.done, sub := h.sub.append (List.Sublist.refl _)
      errs := ⟨errs, he, ?_⟩, good := ?_, bad := ?_ }
  · dsimp only
    rw [List.append_assoc]
    refine (List.Perm.append_left _ List.perm_append_comm).trans ?_
    rw [← List.append_assoc]
    exact hperm.append_right _
  · intro hb
    have hb0 : s.broken = false := by
      cases hx : s.broken with
      | false => rfl
      | true => rw [(putAll_broken (cap := cap) (d := e.dst) (parts id p) hx).1] at hb; simp at hb
    obtain ⟨items, h1, h2, h3⟩ := h.good hb0
    refine ⟨items ++ [(id, p)], ?_, by simp [h2], ?_⟩
    · rw [(putAll_ok (parts id p) hw hb0).2, h1, records_append, records_single, parts_flatten]
    · intro i hi
      rcases List.mem_append.1 hi with hi | hi
      · exact h3 i hi
      · rw [List.mem_singleton.1 hi]; exact ⟨t, hp⟩
  · intro hb
    have hb0 : s.broken = true := by
      cases hx : s.broken with
      | true => rfl
      | false => rw [(putAll_ok (parts id p) hw hx).1] at hb; simp at hb
    obtain ⟨items, j, c, h1, h2, h3, h4, h5, h6⟩ := h.bad hb0
    exact ⟨items, j, c, h1, by rw [(putAll_broken (parts id p) hb0).2]; exact h2,
      h3.trans (List.prefix_append _ _), h4, h5.trans (List.sublist_append_left _ _), h6⟩

theorem Inv.failed {e : Env} {seen : List Str} {s : Sink} {r : Report} (h : Inv e seen s r) {cap t : Nat} {id : Str}
    {p : Bytes} (hp : e.payload t id = some (some p)) (hw : (s.putAll cap e.dst (parts id p)).2 = false) :
    Inv e (seen ++ [id]) (s.putAll cap e.dst (parts id p)).1 { r with errors := r.errors ++ [.list id] } := by
  have h0 := h.skip id
  refine { count := h0.count, done := h0.done, sub := h0.sub, errs := h0.errs, good := ?_, bad := ?_ }
  · intro hb
    cases hx : s.broken with
    | true => rw [(putAll_broken (cap := cap) (d := e.dst) (parts id p) hx).1] at hb; simp at hb
    | false => rw [(putAll_fails (parts id p) hw hx).1] at hb; simp at hb
  · intro hb
    cases hx : s.broken with
    | true =>
      obtain ⟨items, j, c, h1, h2, h3, h4, h5, h6⟩ := h0.bad hx
      exact ⟨items, j, c, h1, by rw [(putAll_broken (parts id p) hx).2]; exact h2, h3, h4, h5, h6⟩
    | false =>
      obtain ⟨items, h1, h2, h3⟩ := h.good hx
      obtain ⟨-, c, h5, h6⟩ := putAll_fails (parts id p) hw hx
      refine ⟨items, (id, p), c, h5, ?_, by rw [h2]; exact List.prefix_refl _, ?_, ?_, by simp⟩
      · rw [h6, h1, records_append, records_single, parts_flatten]
      · intro i hi
        rcases List.mem_append.1 hi with hi | hi
        · exact h3 i hi
        · rw [List.mem_singleton.1 hi]; exact ⟨t, hp⟩
      · rw [List.map_append, h2]
        exact h.sub.append (List.Sublist.refl _)

theorem Inv.cancel {e : Env} {seen : List Str} {s : Sink} {r : Report} (h : Inv e seen s r) :
    Inv e seen s { r with cancelled := true } :=
  { count := h.count, done := h.done, sub := h.sub, errs := h.errs, good := h.good, bad := h.bad }

theorem loop_inv (cap : Nat) (e : Env) (ids : List Str) (t : Nat) (seen : List Str) (s : Sink) (r : Report)
    (h : Inv e seen s r) (hc : r.cancelled = false) :
    ∃ more rest, ids = more ++ rest ∧ Inv e (seen ++ more) (loop cap e t ids (s, r)).1 (loop cap e t ids (s, r)).2 ∧
      ((loop cap e t ids (s, r)).2.cancelled = false → rest = []) ∧
      ((∀ t, e.cancelled t = false) → (loop cap e t ids (s, r)).2.cancelled = false) ∧
      (loop cap e t ids (s, r)).2.lists = r.lists := by
  induction ids generalizing t seen s r with
  | nil => exact ⟨[], [], rfl, by simpa [loop] using h, fun _ => rfl, fun _ => hc, rfl⟩
  | cons id ids ih =>
    simp only [loop]
    by_cases hx : e.cancelled t = true
    · rw [if_pos hx]
      exact ⟨[], id :: ids, rfl, by simpa using h.cancel, fun h => by simp at h,
        fun h => by rw [h] at hx; simp at hx, rfl⟩
    · rw [if_neg hx]
      have next : ∀ s' r', Inv e (seen ++ [id]) s' r' → r'.cancelled = false → r'.lists = r.lists →
          ∃ more rest, id :: ids = more ++ rest ∧
            Inv e (seen ++ more) (loop cap e (t + 1) ids (s', r')).1 (loop cap e (t + 1) ids (s', r')).2 ∧
            ((loop cap e (t + 1) ids (s', r')).2.cancelled = false → rest = []) ∧
            ((∀ t, e.cancelled t = false) → (loop cap e (t + 1) ids (s', r')).2.cancelled = false) ∧
            (loop cap e (t + 1) ids (s', r')).2.lists = r.lists := by
        intro s' r' h' hc' hl'
        obtain ⟨more, rest, h1, h2, h3, h4, h5⟩ := ih (t + 1) (seen ++ [id]) s' r' h' hc'
        exact ⟨id :: more, rest, by rw [h1]; rfl, by simpa using h2, h3, h4, h5.trans hl'⟩
      cases hp : e.payload t id with
      | none => exact next _ _ (h.skip id) hc rfl
      | some o =>
        cases o with
        | none => exact next _ _ (h.skip id) hc rfl
        | some p =>
          dsimp only
          by_cases hw : (s.putAll cap e.dst (parts id p)).2 = true
          · rw [if_pos hw]; exact next _ _ (h.wrote hp hw) hc rfl
          · rw [if_neg hw]; exact next _ _ (h.failed hp (by simpa using hw)) hc rfl

/-! ### Restoring what has arrived -/

theorem after_cons {α : Type} (pre suf : Str) (replace : Bool) (one : Str → Bytes → Option α) (db db' : Str → Option α)
    (i : Str × Bytes) (items : List (Str × Bytes)) (hd : i.1 ∉ items.map (·.1))
    (h : ∀ x, db' x = if x = dest pre suf i.1 then
      (if Kept pre suf replace db i then db x else one x i.2) else db x) :
    after pre suf replace one db' items = after pre suf replace one db (i :: items) := by
  have hne : ∀ j ∈ items, dest pre suf j.1 ≠ dest pre suf i.1 := fun j hj he =>
    hd (List.mem_map.2 ⟨j, hj, dest_inj he⟩)
  funext x
  unfold after
  by_cases hx : pre ++ i.1 ++ suf = x
  · rw [List.find?_cons_of_pos (by simpa using hx), List.find?_eq_none.2 (by
      intro j hj
      simp only [decide_eq_true_eq]
      intro hjx
      exact hne j hj (hjx.trans hx.symm))]
    dsimp only
    rw [h, if_pos (show x = dest pre suf i.1 from hx.symm)]
  · rw [List.find?_cons_of_neg (by simpa using hx)]
    have hxx : ¬ x = dest pre suf i.1 := fun h => hx h.symm
    cases hfd : items.find? (fun i => decide (pre ++ i.1 ++ suf = x)) with
    | none => dsimp only; rw [h, if_neg hxx]
    | some j =>
      dsimp only
      have hj := List.mem_of_find?_eq_some hfd
      have hk : Kept pre suf replace db' j = Kept pre suf replace db j := by
        unfold Kept
        have : pre ++ j.1 ++ suf ≠ dest pre suf i.1 := hne j hj
        rw [h, if_neg this]
      rw [hk, h, if_neg hxx]

/-- Restoring starts with the records that are complete. -/
theorem restoreLoop_records {α : Type} (pre suf : Str) (replace : Bool) (one : Str → Bytes → Option α)
    (items : List (Str × Bytes)) (hs : ∀ i ∈ items, Short i) (hd : (items.map (·.1)).Nodup) (fuel : Nat)
    (db : Str → Option α) (res : Result) (rest : Bytes)
    (hone : ∀ i ∈ items, Kept pre suf replace db i = false → (one (pre ++ i.1 ++ suf) i.2).isSome) :
    ∃ res', restoreLoop pre suf replace one (fuel + items.length) db res (records items ++ rest) =
      restoreLoop pre suf replace one fuel (after pre suf replace one db items) res' rest := by
  induction items generalizing db res with
  | nil => exact ⟨res, rfl⟩
  | cons i items ih =>
    rw [List.map_cons, List.nodup_cons] at hd
    have hr : records (i :: items) ++ rest = record i.1 i.2 ++ (records items ++ rest) := by
      simp [records, List.append_assoc]
    rw [hr, List.length_cons, ← Nat.add_assoc, restoreLoop_record _ _ _ _ _ _ _ (hs i (List.mem_cons_self ..))]
    by_cases hk : Kept pre suf replace db i = true
    · rw [if_pos hk]
      obtain ⟨res', h⟩ := ih (fun j hj => hs j (List.mem_cons_of_mem _ hj)) hd.2 db
        { res with skipped := res.skipped + 1 } (fun j hj => hone j (List.mem_cons_of_mem _ hj))
      refine ⟨res', ?_⟩
      rw [h, after_cons pre suf replace one db db i items hd.1]
      intro x
      rw [if_pos hk]; simp
    · rw [if_neg hk]
      have hsome := hone i (List.mem_cons_self ..) (by simpa using hk)
      obtain ⟨l, hl⟩ := Option.isSome_iff_exists.1 hsome
      have hl' : one (dest pre suf i.1) i.2 = some l := hl
      rw [hl']
      dsimp only
      have hne : ∀ j ∈ items, dest pre suf j.1 ≠ dest pre suf i.1 := fun j hj he =>
        hd.1 (List.mem_map.2 ⟨j, hj, dest_inj he⟩)
      obtain ⟨res', h⟩ := ih (fun j hj => hs j (List.mem_cons_of_mem _ hj)) hd.2
        (fun x => if x = dest pre suf i.1 then some l else db x) { res with restored := res.restored + 1 }
        (fun j hj hkj => hone j (List.mem_cons_of_mem _ hj) (by
          rw [← hkj]
          unfold Kept
          have : pre ++ j.1 ++ suf ≠ dest pre suf i.1 := hne j hj
          simp only [if_neg this]))
      refine ⟨res', ?_⟩
      rw [h, after_cons pre suf replace one db _ i items hd.1]
      intro x
      rw [if_neg hk]
      by_cases hx : x = dest pre suf i.1
      · rw [if_pos hx, if_pos hx, hx, hl']
      · rw [if_neg hx, if_neg hx]

/-- A record that is cut off is an error. -/
theorem restoreLoop_cut {α : Type} (pre suf : Str) (replace : Bool) (one : Str → Bytes → Option α) (fuel : Nat)
    (db : Str → Option α) (res : Result) {i : Str × Bytes} (h : Short i) {a c : Bytes} (hc : c ≠ [])
    (ha : record i.1 i.2 = a ++ c) : ∃ e, restoreLoop pre suf replace one fuel db res a = (db, .error e) := by
  cases fuel with
  | zero => exact ⟨.decode, rfl⟩
  | succ fuel =>
    have hv : encUint backupListVersion = [1] := by decide +kernel
    have hb : encBool true = [0xc3] := by decide +kernel
    unfold record at ha
    rw [hv, hb] at ha
    cases a with
    | nil => exact ⟨.decode, rfl⟩
    | cons x a =>
      simp only [List.cons_append, List.nil_append, List.cons.injEq] at ha
      obtain ⟨rfl, ha⟩ := ha
      have hdb : ∀ r, decBool (0xc3 :: r) = some (true, r) := fun r => by
        have := reads_bool true r
        rwa [hb] at this
      rw [restoreLoop, hdb]
      dsimp only
      cases a with
      | nil =>
        refine ⟨.version, ?_⟩
        have : getVersion [] = (versionError, []) := rfl
        rw [this]
        rfl
      | cons y a =>
        simp only [List.cons_append, List.cons.injEq] at ha
        obtain ⟨rfl, ha⟩ := ha
        have hg : getVersion (1 :: a) = (1, a) := by
          have := getVersion_enc (v := 1) (by omega) a
          rwa [show encUint 1 = [1] by decide +kernel] at this
        rw [hg]
        dsimp only
        rw [if_neg (by decide)]
        have hrs := reads_str (lt_of_le_maxU32 h.1)
        have hrb := reads_bin (lt_of_le_maxU32 h.2)
        rcases List.append_eq_append_iff.1 ha with ⟨a', h1, h2⟩ | ⟨c', h1, h2⟩
        · rw [h1, hrs a']
          dsimp only
          rw [prefix_fails hrb mono_decBin h2 hc]
          exact ⟨.decode, rfl⟩
        · by_cases hc' : c' = []
          · subst hc'
            rw [List.append_nil] at h1
            have := hrs []
            rw [List.append_nil, h1] at this
            rw [this]
            dsimp only
            rw [prefix_fails hrb mono_decBin (a := []) (c := encBin i.2) rfl (by
              intro h0
              have := hrb []
              rw [h0, List.nil_append] at this
              simp [decBin, bind_eq, lead] at this)]
            exact ⟨.decode, rfl⟩
          · rw [prefix_fails hrs mono_decStr h1 hc']
            exact ⟨.decode, rfl⟩

/-- The complete records of what has arrived. -/
theorem records_cut (items : List (Str × Bytes)) (a c : Bytes) (h : a ++ c = records items) (hc : c ≠ []) :
    ∃ its i part c', its ++ [i] <+: items ∧ a = records its ++ part ∧ record i.1 i.2 = part ++ c' ∧ c' ≠ [] := by
  induction items generalizing a with
  | nil => simp [records] at h; exact absurd h.2 hc
  | cons i items ih =>
    have hr : records (i :: items) = record i.1 i.2 ++ records items := by simp [records]
    rw [hr] at h
    rcases List.append_eq_append_iff.1 h.symm with ⟨a', h1, h2⟩ | ⟨c', h1, h2⟩
    · obtain ⟨its, j, part, c', h3, h4, h5, h6⟩ := ih a' h2.symm
      refine ⟨i :: its, j, part, c', ?_, ?_, h5, h6⟩
      · exact List.cons_prefix_cons.2 ⟨rfl, h3⟩
      · rw [h1, h4, ← List.append_assoc]; congr 1
    · by_cases hc' : c' = []
      · subst hc'
        obtain ⟨its, j, part, c', h3, h4, h5, h6⟩ := ih [] (by simpa using h2)
        refine ⟨i :: its, j, part, c', List.cons_prefix_cons.2 ⟨rfl, h3⟩, ?_, h5, h6⟩
        rw [List.append_nil] at h1
        have : records (i :: its) ++ part = record i.1 i.2 ++ (records its ++ part) := by
          simp [records, List.append_assoc]
        rw [this, ← h4, ← h1, List.append_nil]
      · exact ⟨[], i, a, c', by simp, by simp [records], h1, hc'⟩

/-! ### What arrives -/

/-- What has arrived is cut off. -/
def Torn (e : Env) (seen : List Str) (r : Report) (g : Bytes) : Prop :=
  ∃ its part, g = records its ++ part ∧ its.map (·.1) <+: r.success ∧ Sound e its ∧ (its.map (·.1)).Sublist seen ∧
    (part = [] ∨ ∃ i c, Sound e [i] ∧ i.1 ∈ seen ∧ c ≠ [] ∧ record i.1 i.2 = part ++ c)

theorem Sound.sub {e : Env} {a b : List (Str × Bytes)} (h : Sound e b) (hab : ∀ i ∈ a, i ∈ b) : Sound e a :=
  fun i hi => h i (hab i hi)

theorem Torn.of_records {e : Env} {seen : List Str} {r : Report} {g c : Bytes} {items : List (Str × Bytes)}
    (h : g ++ c = records items) (hs : Sound e items) (hsub : (items.map (·.1)).Sublist seen)
    (hp : items.map (·.1) <+: r.success ∨ c ≠ [] ∧ items.dropLast.map (·.1) <+: r.success) : Torn e seen r g := by
  by_cases hc : c = []
  · subst hc
    rw [List.append_nil] at h
    refine ⟨items, [], by simpa using h, ?_, hs, hsub, Or.inl rfl⟩
    rcases hp with hp | hp
    · exact hp
    · exact absurd rfl hp.1
  · obtain ⟨its, i, part, c', h1, h2, h3, h4⟩ := records_cut items g c h hc
    have hmem : ∀ x ∈ its ++ [i], x ∈ items := fun x hx => h1.subset hx
    have hpre : its <+: items := (List.prefix_append _ _).trans h1
    have hpre2 : its <+: items.dropLast := by
      obtain ⟨t, ht⟩ := h1
      refine ⟨([i] ++ t).dropLast, ?_⟩
      rw [← ht, List.append_assoc]
      exact (List.dropLast_append_of_ne_nil (l' := its) (l := [i] ++ t) (by simp)).symm
    refine ⟨its, part, h2, ?_, hs.sub fun x hx => hmem x (by simp [hx]), ?_, Or.inr ⟨i, c', ?_, ?_, h4, h3⟩⟩
    · rcases hp with hp | hp
      · exact (hpre.map _).trans hp
      · exact (hpre2.map _).trans hp.2
    · exact (hpre.sublist.map _).trans hsub
    · exact hs.sub fun x hx => hmem x (by simp only [List.mem_append]; exact Or.inr hx)
    · exact hsub.subset (List.mem_map.2 ⟨i, hmem i (by simp), rfl⟩)

/-- The bytes given to the compressor by a job. -/
structure Final (e : Env) (seen : List Str) (s : Sink) (r : Report) : Prop where
  count : r.listsDone = r.success.length
  sub : r.success.Sublist seen
  errs : ∃ errs more, r.errors = errs.map Key.list ++ more ∧ (r.success ++ errs).Perm seen ∧
    (more = [] ∨ more = [Key.finalizing])
  out : (r.cancelled = false ∧ s.broken = false ∧
      ∃ items, s.given = stream items ∧ items.map (·.1) = r.success ∧ Sound e items) ∨
    ((r.cancelled = true ∨ s.broken = true) ∧ ∃ c items, s.given ++ c = records items ∧ Sound e items ∧
      (items.map (·.1)).Sublist seen ∧
      (items.map (·.1) <+: r.success ∨ c ≠ [] ∧ items.dropLast.map (·.1) <+: r.success))

theorem cut_end {a c b : Bytes} {x : UInt8} (h : a ++ c = b ++ [x]) (hc : c ≠ []) : a ++ c.dropLast = b := by
  have := congrArg List.dropLast h
  rwa [List.dropLast_append_of_ne_nil hc, List.dropLast_concat] at this

theorem finish_final {cap : Nat} {e : Env} {seen : List Str} {s : Sink} {r : Report} (h : Inv e seen s r) :
    Final e seen (finish cap e (s, r)).1 (finish cap e (s, r)).2 := by
  obtain ⟨errs, he, hperm⟩ := h.errs
  have hbad : s.broken = true → ∃ c items, s.given ++ c = records items ∧ Sound e items ∧
      (items.map (·.1)).Sublist seen ∧
      (items.map (·.1) <+: r.success ∨ c ≠ [] ∧ items.dropLast.map (·.1) <+: r.success) := by
    intro hb
    obtain ⟨items, j, c, h1, h2, h3, h4, h5, -⟩ := h.bad hb
    exact ⟨c, items ++ [j], h2, h4, h5, Or.inr ⟨h1, by simpa using h3⟩⟩
  unfold finish
  dsimp only
  by_cases hc : r.cancelled = true
  · rw [if_pos hc]
    refine ⟨h.count, h.sub, ⟨errs, [], by simp [he], hperm, Or.inl rfl⟩, Or.inr ⟨Or.inl hc, ?_⟩⟩
    cases hb : s.broken with
    | true => exact hbad hb
    | false =>
      obtain ⟨items, h1, h2, h3⟩ := h.good hb
      exact ⟨s.buf, items, h1, h3, by rw [h2]; exact h.sub, Or.inl (by rw [h2]; exact List.prefix_refl _)⟩
  · rw [if_neg hc]
    have hc' : r.cancelled = false := by simpa using hc
    have hrep : ∀ ok : Bool, (if ok = true then r else { r with errors := r.errors ++ [.finalizing] }).success = r.success ∧
        (if ok = true then r else { r with errors := r.errors ++ [.finalizing] }).listsDone = r.listsDone ∧
        (if ok = true then r else { r with errors := r.errors ++ [.finalizing] }).cancelled = r.cancelled := by
      intro ok; cases ok <;> exact ⟨rfl, rfl, rfl⟩
    have hr := hrep (s.put cap e.dst (encBool false)).2
    refine ⟨by rw [hr.1, hr.2.1]; exact h.count, by rw [hr.1]; exact h.sub, ?_, ?_⟩
    · rw [hr.1]
      cases (s.put cap e.dst (encBool false)).2 with
      | true => exact ⟨errs, [], by simp [he], hperm, Or.inl rfl⟩
      | false => exact ⟨errs, [.finalizing], by simp [he], hperm, Or.inr rfl⟩
    · rw [hr.1, hr.2.2]
      cases hb : s.broken with
      | true =>
        have h1 := put_broken (cap := cap) (d := e.dst) (p := encBool false) hb
        have h2 := flush_broken (d := e.dst) h1.1
        refine Or.inr ⟨Or.inr h2.1, ?_⟩
        rw [h2.2, h1.2]
        exact hbad hb
      | false =>
        obtain ⟨items, h1, h2, h3⟩ := h.good hb
        have hcut : ∀ g c : Bytes, c ≠ [] → g ++ c = s.given ++ s.buf ++ encBool false →
            ∃ c items, g ++ c = records items ∧ Sound e items ∧ (items.map (·.1)).Sublist seen ∧
              (items.map (·.1) <+: r.success ∨ c ≠ [] ∧ items.dropLast.map (·.1) <+: r.success) := by
          intro g c h4 h5
          rw [h1] at h5
          exact ⟨c.dropLast, items, cut_end h5 h4, h3, by rw [h2]; exact h.sub, Or.inl (by rw [h2]; exact List.prefix_refl _)⟩
        by_cases hp : (s.put cap e.dst (encBool false)).2 = true
        · obtain ⟨h4, h5⟩ := put_ok hp hb
          by_cases hf : ((s.put cap e.dst (encBool false)).1.flush e.dst).2 = true
          · obtain ⟨h6, h7, -⟩ := flush_ok hf h4
            refine Or.inl ⟨hc', h6, items, ?_, h2, h3⟩
            rw [h7, h5, h1]
            rfl
          · obtain ⟨h6, c, h7, h8⟩ := flush_fails (by simpa using hf) h4
            exact Or.inr ⟨Or.inr h6, hcut _ c h7 (by rw [h8, h5])⟩
        · obtain ⟨h4, c, h5, h6⟩ := put_fails (by simpa using hp) hb
          have h7 := flush_broken (d := e.dst) h4
          refine Or.inr ⟨Or.inr h7.1, ?_⟩
          rw [h7.2]
          exact hcut _ c h5 h6

theorem Torn.take {e : Env} {seen : List Str} {s : Sink} {r : Report} (h : Final e seen s r) (k : Nat)
    (hk : s.broken = true ∨ r.cancelled = true ∨ k < s.given.length) : Torn e seen r (s.given.take k) := by
  rcases h.out with ⟨h1, h2, items, h3, h4, h5⟩ | ⟨-, c, items, h1, h2, h3, h4⟩
  · have hk' : k < s.given.length := by
      rcases hk with hk | hk | hk
      · rw [h2] at hk; simp at hk
      · rw [h1] at hk; simp at hk
      · exact hk
    have hdrop : s.given.drop k ≠ [] := by
      intro h0
      have := congrArg List.length h0
      rw [List.length_drop, List.length_nil] at this
      omega
    have heq : s.given.take k ++ s.given.drop k = records items ++ [0xc2] := by
      rw [List.take_append_drop, h3]
      rfl
    exact Torn.of_records (cut_end heq hdrop) h5 (by rw [h4]; exact h.sub) (Or.inl (by rw [h4]; exact List.prefix_refl _))
  · refine Torn.of_records (c := s.given.drop k ++ c) (by rw [← List.append_assoc, List.take_append_drop]; exact h1) h2 h3 ?_
    rcases h4 with h4 | h4
    · exact Or.inl h4
    · exact Or.inr ⟨by simp [h4.1], h4.2⟩

theorem Torn.nil (e : Env) (seen : List Str) (r : Report) : Torn e seen r [] :=
  ⟨[], [], rfl, List.nil_prefix, fun i hi => by simp at hi, List.nil_sublist _, Or.inl rfl⟩

/-- Restoring what is cut off: the complete records, then an error. -/
theorem Torn.restore {e : Env} {seen : List Str} {r : Report} {g : Bytes} (h : Torn e seen r g) (hd : seen.Nodup)
    (hshort : ∀ t id p, id ∈ seen → e.payload t id = some (some p) → Short (id, p)) :
    ∃ items, items.map (·.1) <+: r.success ∧ Sound e items ∧
      ∀ {α : Type} (pre suf : Str) (replace : Bool) (one : Str → Bytes → Option α) (db : Str → Option α),
        (∀ i ∈ items, Kept pre suf replace db i = false → (one (pre ++ i.1 ++ suf) i.2).isSome) →
        ∃ err, restoreSet pre suf replace one db g = (after pre suf replace one db items, .error err) := by
  obtain ⟨its, part, h1, h2, h3, h4, h5⟩ := h
  refine ⟨its, h2, h3, ?_⟩
  intro α pre suf replace one db hone
  have hs : ∀ i ∈ its, Short i := by
    intro i hi
    obtain ⟨t, ht⟩ := h3 i hi
    exact hshort t i.1 i.2 (h4.subset (List.mem_map.2 ⟨i, hi, rfl⟩)) ht
  have hlen : its.length ≤ (records its).length := by
    have := stream_length its
    unfold stream at this
    rw [List.length_append] at this
    unfold records
    have h0 : (encBool false).length = 1 := rfl
    omega
  unfold restoreSet
  rw [h1]
  obtain ⟨fuel, hf⟩ : ∃ fuel, (records its ++ part).length + 1 = fuel + 1 + its.length :=
    ⟨(records its ++ part).length - its.length, by rw [List.length_append]; omega⟩
  rw [hf]
  obtain ⟨res', hr⟩ := restoreLoop_records pre suf replace one its hs (hd.sublist h4) (fuel + 1) db {} part hone
  rw [hr]
  rcases h5 with rfl | ⟨i, c, hi, himem, hc, hrec⟩
  · exact ⟨.decode, rfl⟩
  · obtain ⟨t, ht⟩ := hi i (by simp)
    exact restoreLoop_cut pre suf replace one _ _ _ (hshort t i.1 i.2 himem ht) hc hrec

/-! ### Everything fits into the buffer -/

theorem put_fits {cap : Nat} {d : Dst} {s : Sink} {p : Bytes} (h : s.buf.length + p.length ≤ cap) :
    s.put cap d p = ({ s with buf := s.buf ++ p }, true) := by
  unfold Sink.put; rw [if_pos h]

theorem putAll_fits {cap : Nat} {d : Dst} (ps : List Bytes) {s : Sink} (h : s.buf.length + ps.flatten.length ≤ cap) :
    s.putAll cap d ps = ({ s with buf := s.buf ++ ps.flatten }, true) := by
  induction ps generalizing s with
  | nil => simp [Sink.putAll]
  | cons p ps ih =>
    rw [List.flatten_cons, List.length_append] at h
    rw [Sink.putAll, put_fits (by omega)]
    dsimp only
    rw [if_pos rfl, ih (by dsimp only; rw [List.length_append]; omega)]
    simp [List.append_assoc]

theorem loop_fits {cap : Nat} {e : Env} {pay : Nat → Str → Bytes} (hp : ∀ t id, e.payload t id = some (some (pay t id)))
    (ids more : List Str) (t : Nat) (s : Sink) (r : Report) (hc : ∀ u, t ≤ u → u < t + ids.length → e.cancelled u = false)
    (items : List (Str × Bytes)) (hi : items = ids.mapIdx (fun i id => (id, pay (t + i) id)))
    (hf : s.buf.length + (records items).length ≤ cap) :
    loop cap e t (ids ++ more) (s, r) = loop cap e (t + ids.length) more ({ s with buf := s.buf ++ records items },
      { r with success := r.success ++ ids, listsDone := r.listsDone + ids.length }) := by
  induction ids generalizing t s r items with
  | nil => subst hi; simp [records]
  | cons id ids ih =>
    rw [List.mapIdx_cons] at hi
    subst hi
    rw [records, List.flatMap_cons, List.length_append] at hf
    rw [List.cons_append, loop, if_neg (by rw [hc t (by omega) (by simp)]; simp), hp]
    dsimp only
    have hfit : s.buf.length + (parts id (pay t id)).flatten.length ≤ cap := by
      rw [parts_flatten]
      simp only [Nat.add_zero] at hf
      omega
    rw [putAll_fits _ hfit]
    dsimp only
    rw [if_pos rfl, ih (t + 1) _ _ (fun u h1 h2 => hc u (by omega) (by simp; omega)) _ rfl (by
      dsimp only
      rw [List.length_append, parts_flatten]
      simp only [Nat.add_zero, Nat.add_assoc, Nat.add_comm 1, records] at hf ⊢
      omega)]
    rw [parts_flatten]
    simp [records, List.append_assoc, Nat.add_assoc, Nat.add_comm 1]

end RankDB.BackupJob

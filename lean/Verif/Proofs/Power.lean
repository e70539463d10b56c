import Verif.Model.Power
import Verif.Spec.Power
import Verif.Props.Onward
import Verif.Proofs.Cost
/-
Lemmas about what survives when the process or the machine stops.
-/
namespace RankDB.Power
open Disk Spec Spec.History

theorem writes_append (d : Store) (a b : List Write) : writes d (a ++ b) = writes (writes d a) b := List.foldl_append

/-- The stores differ at most in the blob with the key. -/
def AgreeOff (k : Str × Option Nat) (d d' : Store) : Prop :=
  (∀ p, (p, none) ≠ k → d.heads p = d'.heads p) ∧ ∀ p i, (p, some i) ≠ k → d.elems p i = d'.elems p i

theorem agreeOff_write {k : Str × Option Nat} {d d' : Store} (h : AgreeOff k d d') (w : Write) :
    AgreeOff k (write d w) (write d' w) := by
  cases w <;> refine ⟨fun p hp => ?_, fun p i hp => ?_⟩ <;> simp only [write] <;>
    first | exact h.1 p hp | exact h.2 p i hp | (split <;> first | rfl | exact h.1 p hp | exact h.2 p i hp)

theorem agreeOff_skip {d d' : Store} (w : Write) (h : AgreeOff (Write.key w) d d') : AgreeOff (Write.key w) d (write d' w) := by
  cases w <;> refine ⟨fun p hp => ?_, fun p i hp => ?_⟩ <;> simp only [write] <;>
    first
      | exact h.1 p hp
      | exact h.2 p i hp
      | (rw [if_neg (by rintro rfl; exact hp rfl)]; exact h.1 p hp)
      | (rw [if_neg (by rintro ⟨rfl, rfl⟩; exact hp rfl)]; exact h.2 p i hp)

theorem agreeOff_last {d d' : Store} (w : Write) (h : AgreeOff (Write.key w) d d') : write d w = write d' w := by
  obtain ⟨h1, h2⟩ := h
  cases w <;> simp only [write, Store.mk.injEq] <;> refine ⟨?_, ?_⟩ <;> funext p <;>
    first
      | (split
         · rfl
         · rename_i hp; exact h1 p (by intro e; cases e; exact hp rfl))
      | exact h1 p (by intro e; cases e)
      | (funext i
         first
           | (split
              · rfl
              · rename_i hp; exact h2 p i (by intro e; cases e; exact hp ⟨rfl, rfl⟩))
           | exact h2 p i (by intro e; cases e))

theorem agreeOff_filter (k : Str × Option Nat) : ∀ (q : List Write) {d d' : Store}, AgreeOff k d d' →
    AgreeOff k (writes d (q.filter fun v => decide (Write.key v ≠ k))) (writes d' q)
  | [], _, _, h => h
  | v :: q, d, d', h => by
    by_cases hv : Write.key v = k
    · rw [List.filter_cons_of_neg (by simpa using hv)]
      subst hv
      exact agreeOff_filter _ q (agreeOff_skip v h)
    · rw [List.filter_cons_of_pos (by simpa using hv)]
      exact agreeOff_filter k q (agreeOff_write h v)

/-- Writes that are overwritten later can be left out. -/
theorem overwrite (d : Store) (q : List Write) (w : Write) :
    writes d ((q.filter fun v => decide (Write.key v ≠ Write.key w)) ++ [w]) = writes d (q ++ [w]) := by
  rw [writes_append, writes_append]
  exact agreeOff_last w (agreeOff_filter _ q ⟨fun _ _ => rfl, fun _ _ _ => rfl⟩)

/-- The machine after some writes: what survives a failure is the effect of the first of them, and the process sees all. -/
structure Behind (d : Store) (ws : List Write) (m : Machine) : Prop where
  lost : ∀ n, ∃ k, k ≤ ws.length ∧ powerFailure n m = crash k d ws
  seen : writes (killed m) m.queue = writes d ws

theorem killed_eq (m : Machine) : killed m = powerFailure m.cache.length m := by
  unfold killed powerFailure; rw [List.take_length]

theorem crash_more (d : Store) {k : Nat} {ws : List Write} (w : Write) (h : k ≤ ws.length) : crash k d (ws ++ [w]) = crash k d ws := by
  unfold crash; rw [List.take_append_of_le_length h]

theorem crash_all (d : Store) (ws : List Write) : crash ws.length d ws = writes d ws := by
  unfold crash; rw [List.take_length]

theorem behind_commit {drv : Driver} {d : Store} {ws : List Write} {w : Write} {m : Machine} (h : ∀ n, ∃ k, k ≤ ws.length ∧ powerFailure n m = crash k d ws)
    {t : List Write} (ht : writes (killed m) t = writes d (ws ++ [w])) :
    (∀ n, ∃ k, k ≤ (ws ++ [w]).length ∧ powerFailure n (commit drv m t) = crash k d (ws ++ [w])) ∧
    killed (commit drv m t) = writes d (ws ++ [w]) := by
  unfold commit
  split
  · have : writes m.disk (m.cache.flatten ++ t) = writes d (ws ++ [w]) := by rw [writes_append]; exact ht
    refine ⟨fun n => ⟨_, Nat.le_refl _, ?_⟩, ?_⟩
    · rw [crash_all]
      simp only [powerFailure, List.take_nil, List.flatten_nil]
      exact this
    · exact this
  · have hk : killed { m with cache := m.cache ++ [t] } = writes d (ws ++ [w]) := by
      simp only [killed, List.flatten_append, List.flatten_cons, List.flatten_nil, List.append_nil]
      rw [writes_append]; exact ht
    refine ⟨fun n => ?_, hk⟩
    by_cases hn : n ≤ m.cache.length
    · obtain ⟨k, h1, h2⟩ := h n
      refine ⟨k, by rw [List.length_append]; omega, ?_⟩
      rw [crash_more d w h1, ← h2]
      simp only [powerFailure, List.take_append_of_le_length hn]
    · refine ⟨_, Nat.le_refl _, ?_⟩
      rw [crash_all, ← hk]
      simp only [powerFailure, killed]
      rw [List.take_of_length_le (by rw [List.length_append, List.length_singleton]; omega)]

theorem behind_put {drv : Driver} {d : Store} {ws : List Write} {w : Write} {m : Machine} (h : Behind d ws m)
    (hd : Write.deletes w = false) (hq : ∀ b, drv = .bolt b → m.queue = []) :
    Behind d (ws ++ [w]) (put drv m w) ∧ ∀ b, drv = .bolt b → (put drv m w).queue = [] := by
  have hqueue : ∀ (drv : Driver) (t : List Write), (commit drv m t).queue = m.queue := fun drv t => by unfold commit; split <;> rfl
  cases drv with
  | bolt b =>
    have hq := hq b rfl
    have hk : killed m = writes d ws := by have := h.seen; rw [hq] at this; exact this
    obtain ⟨h1, h2⟩ := behind_commit (drv := .bolt b) (w := w) (t := [w]) h.lost (by rw [hk, writes_append])
    have hq' : (put (.bolt b) m w).queue = [] := (hqueue _ _).trans hq
    refine ⟨⟨h1, ?_⟩, fun _ _ => hq'⟩
    rw [hq']
    exact h2
  | badger b =>
    have ht : writes (killed m) ((m.queue.filter fun v => decide (Write.key v ≠ Write.key w)) ++ [w]) = writes d (ws ++ [w]) := by
      rw [overwrite, writes_append, h.seen, writes_append]
    refine ⟨?_, nofun⟩
    simp only [put, hd]
    rw [if_neg (by simp)]
    split
    · obtain ⟨h1, h2⟩ := behind_commit (drv := .badger b) (w := w) h.lost ht
      exact ⟨h1, h2⟩
    · refine ⟨fun n => ?_, ht⟩
      obtain ⟨k, h1, h2⟩ := h.lost n
      exact ⟨k, by rw [List.length_append]; omega, by rw [crash_more d w h1]; exact h2⟩

theorem behind_run {drv : Driver} {d : Store} : ∀ {rest ws : List Write} {m : Machine}, Behind d ws m →
    (∀ w ∈ rest, Write.deletes w = false) → (∀ b, drv = .bolt b → m.queue = []) →
    Behind d (ws ++ rest) (run drv m rest) ∧ ∀ b, drv = .bolt b → (run drv m rest).queue = []
  | [], ws, m, h, _, hq => by rw [List.append_nil]; exact ⟨h, hq⟩
  | w :: rest, ws, m, h, hd, hq => by
    obtain ⟨h1, h2⟩ := behind_put h (hd w List.mem_cons_self) hq
    have := behind_run h1 (fun v hv => hd v (List.mem_cons_of_mem _ hv)) h2
    rw [List.append_assoc, List.singleton_append] at this
    exact this

theorem behind_start (d : Store) : Behind d [] (start d) := by
  refine ⟨fun n => ⟨0, Nat.le_refl _, ?_⟩, rfl⟩
  unfold powerFailure start
  simp [crash]

theorem behind {drv : Driver} {d : Store} {ws : List Write} (hd : ∀ w ∈ ws, Write.deletes w = false) :
    Behind d ws (run drv (start d) ws) ∧ ∀ b, drv = .bolt b → (run drv (start d) ws).queue = [] :=
  behind_run (ws := []) (behind_start d) hd fun _ _ => rfl

/-! ### Histories -/

theorem noDeletes_replaceAt (p : Str) (ps : List Nat) (segs : List Seg) (sch : Sched) :
    ∀ w ∈ sch.order (replaceAt p ps segs), Write.deletes w = false := by
  intro w hw
  have hw := (sch.perm _).mem_iff.1 hw
  unfold replaceAt at hw
  obtain ⟨i, -, hi⟩ := List.mem_filterMap.1 hw
  obtain ⟨s, -, rfl⟩ := Option.map_eq_some_iff.1 hi
  rfl

theorem noDeletes_save (ent : Entry) (st : ListState) : ∀ w ∈ saveSegments ent st, Write.deletes w = false := by
  intro w hw
  simp only [saveSegments, List.mem_cons, List.not_mem_nil, or_false] at hw
  rcases hw with rfl | rfl <;> rfl

theorem noDeletes_insertChunks (now : Nat) (sch : Sched) (ent : Entry) : ∀ (cs : List (List Element)) (st : ListState),
    ∀ w ∈ insertChunks now sch ent st cs, Write.deletes w = false
  | [], st => noDeletes_save ent st
  | c :: cs, st => by
    intro w hw
    unfold insertChunks at hw
    rcases List.mem_append.1 hw with hw | hw
    · unfold insertChunk at hw
      exact (List.mem_append.1 hw).elim (noDeletes_replaceAt _ _ _ _ w) (noDeletes_replaceAt _ _ _ _ w)
    · exact noDeletes_insertChunks now sch ent cs _ w hw

theorem noDeletes (r : Served) (ent : Entry) (st : ListState) : ∀ w ∈ r.writes ent st, Write.deletes w = false := by
  intro w hw
  unfold Served.writes at hw
  cases hr : r.req with
  | insert l =>
    simp only [hr, Disk.insert] at hw
    split at hw
    · cases hw
    · exact noDeletes_insertChunks _ _ _ _ _ w hw
  | update es =>
    simp only [hr, Disk.updateElements] at hw
    exact (List.mem_append.1 hw).elim (noDeletes_replaceAt _ _ _ _ w) fun hw =>
      (List.mem_append.1 hw).elim (noDeletes_replaceAt _ _ _ _ w) (noDeletes_save _ _ w)
  | delete ids =>
    simp only [hr, Disk.deleteElements] at hw
    exact (List.mem_append.1 hw).elim (noDeletes_replaceAt _ _ _ _ w) fun hw =>
      (List.mem_append.1 hw).elim (noDeletes_replaceAt _ _ _ _ w) (noDeletes_save _ _ w)

theorem noDeletes_written (ent : Entry) : ∀ (rs : List Served) (st : ListState), ∀ w ∈ written ent st rs, Write.deletes w = false
  | [], _, _, hw => nomatch hw
  | r :: rs, st, w, hw => by
    unfold written at hw
    exact (List.mem_append.1 hw).elim (noDeletes r ent st w) (noDeletes_written ent rs _ w)

theorem served_done {d : Store} {ent : Entry} {st : ListState} (hne : ent.scores ≠ ent.index) (h : reload d ent = some st)
    (hok : ListOK st) {r : Served} (hr : r.Sound st) :
    reload (writes d (r.writes ent st)) ent = some (r.apply st) ∧ ListOK (r.apply st) := by
  obtain ⟨req, now, sch⟩ := r
  cases req with
  | insert l =>
    obtain ⟨h1, h2⟩ := hr
    cases hi : Lists.insert now sch st l with
    | none =>
      have hw : Disk.insert now sch ent st l = [] := by
        unfold Lists.insert at hi
        unfold Disk.insert
        cases hc : Lists.chunks (Lists.insertLimit st) l.length l with
        | none => rfl
        | some cs => simp [hc] at hi
      simp only [Served.writes, Served.apply, hw, hi]
      exact ⟨h, hok⟩
    | some st' =>
      obtain ⟨h3, h4, -⟩ := Props.C67_insert_durable now sch d ent st st' l hne h hok h1 h2 hi
      simp only [Served.writes, Served.apply, hi]
      exact ⟨h3, h4⟩
  | update es =>
    obtain ⟨h1, h2, h3⟩ := hr
    exact ⟨(Props.C67_update_durable now sch d ent st es hne h hok h1 h2 h3).1,
      (Lists.updateElements_full hok h1 h2 h3).1⟩
  | delete ids =>
    exact ⟨(Props.C67_delete_durable now sch d ent st ids hne h hok hr).1, (Lists.deleteElements_spec hok hr).1⟩

theorem served_torn {d : Store} {ent : Entry} {st : ListState} (hne : ent.scores ≠ ent.index) (h : reload d ent = some st)
    (hok : ListOK st) {r : Served} (hr : r.Sound st) (k : Nat) :
    ∃ st1, reload (crash k d (r.writes ent st)) ent = some st1 ∧ Ranked st1.content ∧
      st1.content.filter (fun e => decide (e.id ∉ r.named)) = st.content.filter (fun e => decide (e.id ∉ r.named)) ∧
      ∀ e ∈ st1.content, e ∈ st.content ∨ e ∈ (r.apply st).content := by
  obtain ⟨req, now, sch⟩ := r
  cases req with
  | insert l =>
    obtain ⟨h1, h2⟩ := hr
    obtain ⟨st1, a, b, c, e, f⟩ := Props.C112_insert now sch d ent st l k hne h hok h1 h2
    refine ⟨st1, a, b, ?_, ?_⟩
    · have hnd : ∀ {m : List Element}, DistinctIDs m → DistinctIDs (m.filter fun e => decide (e.id ∉ l.map (·.id))) :=
        fun hm => hm.sublist (List.filter_sublist.map _)
      refine ranked_perm_eq (hnd c) (List.Pairwise.filter _ b) (List.Pairwise.filter _ (ranked_of_strict hok.scores.strict)) ?_
      refine (List.perm_ext_iff_of_nodup (hnd c).nodup (hnd hok.scores.distinct).nodup).2 fun x => ?_
      rw [List.mem_filter, List.mem_filter]
      refine and_congr_left fun hx => ⟨fun hm => (f x hm).elim id fun hl => ?_, e x⟩
      exact absurd (List.mem_map.2 ⟨x, hl, rfl⟩) (by simpa using hx)
    · cases hi : Lists.insert now sch st l with
      | none =>
        have hw : Disk.insert now sch ent st l = [] := by
          unfold Lists.insert at hi
          unfold Disk.insert
          cases hc : Lists.chunks (Lists.insertLimit st) l.length l with
          | none => rfl
          | some cs => simp [hc] at hi
        rw [hw] at a
        simp only [crash, List.take_nil] at a
        cases h.symm.trans a
        exact fun x hx => .inl hx
      | some st' =>
        simp only [Served.apply, hi]
        exact fun x hx => (f x hx).imp id fun hl =>
          (Lists.insert_spec hok h1 h2 hi).2.1.mem_iff.2 (List.mem_append_right _ hl)
  | update es =>
    obtain ⟨h1, h2, h3⟩ := hr
    obtain ⟨st1, a, b, c, f⟩ := Props.C112_update_partial now sch d ent st es k hne h hok h1 h2 h3
    refine ⟨st1, a, b, c, fun e he => (f e he).imp id fun ⟨y, hy, hey⟩ => ?_⟩
    refine (Lists.updateElements_full (now := now) (sch := sch) hok h1 h2 h3).2.1.mem_iff.2 ?_
    unfold upsert
    exact List.mem_append_left _ (List.mem_map.2 ⟨y, hy, hey.symm⟩)
  | delete ids =>
    obtain ⟨st1, a, b, c, e, -⟩ := Props.C112_delete now sch d ent st ids k hne h hok hr
    exact ⟨st1, a, b, c, fun x hx => .inl (e x hx)⟩

/-- The first writes of a history are those of the first requests, and some of the next. -/
theorem history_crash {ent : Entry} (hne : ent.scores ≠ ent.index) : ∀ {rs : List Served} {d : Store} {st : ListState} (k : Nat),
    reload d ent = some st → ListOK st → Sound st rs →
    (∃ st1 a r b, rs = a ++ r :: b ∧ reload (crash k d (written ent st rs)) ent = some st1 ∧ Ranked st1.content ∧
      st1.content.filter (fun e => decide (e.id ∉ r.named)) = (after st a).content.filter (fun e => decide (e.id ∉ r.named)) ∧
      ∀ e ∈ st1.content, e ∈ (after st a).content ∨ e ∈ (after st (a ++ [r])).content) ∨
    reload (crash k d (written ent st rs)) ent = some (after st rs)
  | [], d, st, k, h, _, _ => .inr (by
      show reload (writes d (List.take k [])) ent = some st
      rw [List.take_nil]; exact h)
  | r :: rs, d, st, k, h, hok, hs => by
    obtain ⟨h1, h2⟩ := served_done hne h hok hs.1
    by_cases hle : k ≤ (r.writes ent st).length
    · obtain ⟨st1, a, b, c, e⟩ := served_torn hne h hok hs.1 k
      refine .inl ⟨st1, [], r, rs, rfl, ?_, b, c, e⟩
      unfold written crash
      rw [List.take_append_of_le_length hle]
      exact a
    · have hc : crash k d (written ent st (r :: rs)) =
          crash (k - (r.writes ent st).length) (writes d (r.writes ent st)) (written ent (r.apply st) rs) := by
        show writes d ((r.writes ent st ++ written ent (r.apply st) rs).take k) = _
        rw [List.take_append, List.take_of_length_le (by omega), writes_append]
        rfl
      rw [hc]
      rcases history_crash hne (k - (r.writes ent st).length) h1 h2 hs.2 with ⟨st1, a, q, b, e1, e2⟩ | h3
      · exact .inl ⟨st1, r :: a, q, b, by rw [e1]; rfl, e2⟩
      · exact .inr h3

theorem history_done {ent : Entry} (hne : ent.scores ≠ ent.index) : ∀ {rs : List Served} {d : Store} {st : ListState},
    reload d ent = some st → ListOK st → Sound st rs →
    reload (writes d (written ent st rs)) ent = some (after st rs) ∧ ListOK (after st rs)
  | [], _, _, h, hok, _ => ⟨h, hok⟩
  | r :: rs, d, st, h, hok, hs => by
    obtain ⟨h1, h2⟩ := served_done hne h hok hs.1
    have := history_done hne (rs := rs) h1 h2 hs.2
    rw [← writes_append] at this
    exact this

/-! ### Drivers -/

theorem killed_of_empty {d : Store} {ws : List Write} {m : Machine} (h : Behind d ws m) (hq : m.queue = []) : killed m = writes d ws := by
  have := h.seen
  rw [hq] at this
  exact this

/-- With synced writes nothing waits for the operating system. -/
theorem synced_cache {drv : Driver} (hs : syncs drv = true) (d : Store) (ws : List Write) : (run drv (start d) ws).cache = [] := by
  have hcommit : ∀ m t, (commit drv m t).cache = [] := fun m t => by unfold commit; rw [if_pos hs]
  have hput : ∀ (m : Machine) (w : Write), m.cache = [] → (put drv m w).cache = [] := by
    intro m w hm
    unfold put
    cases drv with
    | bolt b => exact hcommit _ _
    | badger b =>
      simp only []
      split
      · exact hcommit _ _
      · split
        · exact hcommit _ _
        · exact hm
  have : ∀ (ws : List Write) (m : Machine), m.cache = [] → (run drv m ws).cache = [] := by
    intro ws
    induction ws with
    | nil => exact fun _ h => h
    | cons w ws ih => exact fun m h => ih _ (hput m w h)
  exact this ws _ rfl

/-- Without synced writes nothing is safe on the disk. -/
theorem unsynced_disk {drv : Driver} (hs : syncs drv = false) (d : Store) (ws : List Write) : (run drv (start d) ws).disk = d := by
  have hcommit : ∀ m t, (commit drv m t).disk = m.disk := fun m t => by unfold commit; rw [if_neg (by simp [hs])]
  have hput : ∀ (m : Machine) (w : Write), (put drv m w).disk = m.disk := by
    intro m w
    unfold put
    cases drv with
    | bolt b => exact hcommit _ _
    | badger b =>
      simp only []
      split
      · exact hcommit _ _
      · split
        · exact hcommit _ _
        · rfl
  have : ∀ (ws : List Write) (m : Machine), (run drv m ws).disk = m.disk := by
    intro ws
    induction ws with
    | nil => exact fun _ => rfl
    | cons w ws ih => exact fun m => (ih _).trans (hput m w)
  exact this ws _

/-- The blobs that requests to a list write. -/
def keysOf (ent : Entry) (st : ListState) : List (Str × Option Nat) :=
  (ent.scores, none) :: (ent.index, none) :: ((st.scores.segs.map (·.id)).map (fun i => (ent.scores, some i)) ++
    (st.index.segs.map (·.id)).map fun i => (ent.index, some i))

theorem key_allowed {ent : Entry} {st : ListState} {w : Write} (h : Allowed ent st w) : Write.key w ∈ keysOf ent st := by
  unfold keysOf
  rcases h with ⟨g, hg, rfl⟩ | ⟨g, hg, rfl⟩ | rfl | rfl
  · exact .tail _ (.tail _ (List.mem_append_left _ (List.mem_map.2 ⟨g.id, List.mem_map.2 ⟨g, hg, rfl⟩, rfl⟩)))
  · exact .tail _ (.tail _ (List.mem_append_right _ (List.mem_map.2 ⟨g.id, List.mem_map.2 ⟨g, hg, rfl⟩, rfl⟩)))
  · exact .head _
  · exact .tail _ (.head _)

theorem keysOf_same {ent : Entry} {st st' : ListState} (h1 : SameRanges st'.scores.segs st.scores.segs)
    (h2 : SameRanges st'.index.segs st.index.segs) : keysOf ent st' = keysOf ent st := by
  unfold keysOf; rw [h1.ids, h2.ids]

theorem keys_insertChunks (now : Nat) (sch : Sched) (ent : Entry) : ∀ (cs : List (List Element)) (st : ListState),
    (∀ w ∈ insertChunks now sch ent st cs, Write.key w ∈ keysOf ent st) ∧
    keysOf ent (cs.foldl (Lists.insertChunk now sch) st) = keysOf ent st
  | [], st => ⟨fun w hw => key_allowed (allowed_save ent st w hw), rfl⟩
  | c :: cs, st => by
    have hstep := insertChunk_step now sch ent st c
    have hsame := keysOf_same (ent := ent) hstep.scores hstep.index
    obtain ⟨h1, h2⟩ := keys_insertChunks now sch ent cs (Lists.insertChunk now sch st c)
    refine ⟨fun w hw => ?_, h2.trans hsame⟩
    unfold insertChunks at hw
    rw [← hsame]
    exact (List.mem_append.1 hw).elim (fun hw => key_allowed (hstep.allowed w hw)) (h1 w)

theorem keys_served {ent : Entry} {st : ListState} (hok : ListOK st) {r : Served} (hr : r.Sound st) :
    (∀ w ∈ r.writes ent st, Write.key w ∈ keysOf ent st) ∧ keysOf ent (r.apply st) = keysOf ent st := by
  obtain ⟨req, now, sch⟩ := r
  cases req with
  | insert l =>
    simp only [Served.writes, Served.apply, Disk.insert, Lists.insert]
    cases hc : Lists.chunks (Lists.insertLimit st) l.length l with
    | none => exact ⟨nofun, rfl⟩
    | some cs => exact keys_insertChunks now sch ent cs st
  | update es =>
    obtain ⟨h1, h2, h3⟩ := hr
    obtain ⟨ws, hws, hstep⟩ := updateElements_step (now := now) (sch := sch) (ent := ent) hok h1 h2 h3
    have hsame := keysOf_same (ent := ent) hstep.scores hstep.index
    refine ⟨fun w hw => ?_, hsame⟩
    simp only [Served.writes] at hw
    rw [hws] at hw
    rw [← hsame]
    exact key_allowed ((List.mem_append.1 hw).elim (hstep.allowed w) (allowed_save _ _ w))
  | delete ids =>
    obtain ⟨ws, hws, hstep⟩ := deleteElements_step now sch ent st ids
    have hsame := keysOf_same (ent := ent) hstep.scores hstep.index
    refine ⟨fun w hw => ?_, hsame⟩
    simp only [Served.writes] at hw
    rw [hws] at hw
    rw [← hsame]
    exact key_allowed ((List.mem_append.1 hw).elim (hstep.allowed w) (allowed_save _ _ w))

theorem keys_written {ent : Entry} (hne : ent.scores ≠ ent.index) : ∀ {rs : List Served} {d : Store} {st : ListState},
    reload d ent = some st → ListOK st → Sound st rs → ∀ w ∈ written ent st rs, Write.key w ∈ keysOf ent st
  | [], _, _, _, _, _, _, hw => nomatch hw
  | r :: rs, d, st, h, hok, hs, w, hw => by
    obtain ⟨h1, h2⟩ := served_done hne h hok hs.1
    obtain ⟨h3, h4⟩ := keys_served (ent := ent) hok hs.1
    unfold written at hw
    refine (List.mem_append.1 hw).elim (h3 w) fun hw => ?_
    rw [← h4]
    exact keys_written hne h1 h2 hs.2 w hw

theorem length_keys {α : Type} [DecidableEq α] {l K : List α} (h : l.Nodup) (hs : ∀ x ∈ l, x ∈ K) : l.length ≤ K.length :=
  Cost.length_le_of_rel (R := Eq) h (fun x hx => ⟨x, hs x hx, rfl⟩) fun _ _ _ h1 h2 => h1.trans h2.symm

/-- Badger keeps fewer than a hundred blobs in its queue. -/
theorem queued (b : Bool) {d : Store} {K : List (Str × Option Nat)} (hK : K.length < 100) : ∀ {ws : List Write} {m : Machine},
    m.disk = d → m.cache = [] → (m.queue.map Write.key).Nodup → (∀ w ∈ m.queue, Write.key w ∈ K) →
    (∀ w ∈ ws, Write.deletes w = false ∧ Write.key w ∈ K) → killed (run (.badger b) m ws) = d
  | [], m, h1, h2, _, _, _ => by
    show writes m.disk m.cache.flatten = d
    rw [h1, h2]; rfl
  | w :: ws, m, h1, h2, h3, h4, h5 => by
    obtain ⟨hdel, hw⟩ := h5 w List.mem_cons_self
    have hnd : (((m.queue.filter fun v => decide (Write.key v ≠ Write.key w)) ++ [w]).map Write.key).Nodup := by
      rw [List.map_append, List.nodup_append]
      refine ⟨h3.sublist (List.filter_sublist.map _), by simp, ?_⟩
      intro a ha c hc
      obtain ⟨x, hx, rfl⟩ := List.mem_map.1 ha
      simp only [List.map_cons, List.map_nil, List.mem_cons, List.not_mem_nil, or_false] at hc
      subst hc
      simpa using (List.mem_filter.1 hx).2
    have hin : ∀ x ∈ (m.queue.filter fun v => decide (Write.key v ≠ Write.key w)) ++ [w], Write.key x ∈ K := by
      intro x hx
      rcases List.mem_append.1 hx with hx | hx
      · exact h4 x (List.mem_filter.1 hx).1
      · cases List.mem_singleton.1 hx; exact hw
    have hlen := length_keys hnd fun x hx => by
      obtain ⟨y, hy, rfl⟩ := List.mem_map.1 hx
      exact hin y hy
    simp only [List.length_map, List.length_append, List.length_singleton] at hlen
    have hp : put (.badger b) m w = { m with queue := (m.queue.filter fun v => decide (Write.key v ≠ Write.key w)) ++ [w] } := by
      simp only [put, hdel]
      rw [if_neg (by simp), if_neg (by omega)]
    show killed (run (.badger b) (put (.badger b) m w) ws) = d
    rw [hp]
    exact queued b hK h1 h2 hnd hin fun v hv => h5 v (List.mem_cons_of_mem _ hv)

/-! ### Deletions of blobs overtake writes -/

theorem killed_commit (drv : Driver) (m : Machine) (t : List Write) : killed (commit drv m t) = writes (killed m) t := by
  unfold commit killed
  split
  · rw [writes_append]; rfl
  · simp only [List.flatten_append, List.flatten_cons, List.flatten_nil, List.append_nil]
    rw [writes_append]

/-- With Badger only the deletions survive while the queue is not full. -/
theorem overtaken (b : Bool) : ∀ {ws : List Write} {m : Machine},
    m.queue.length + (ws.filter fun w => !(Write.deletes w)).length < 100 →
    killed (run (.badger b) m ws) = writes (killed m) (ws.filter Write.deletes)
  | [], m, _ => rfl
  | w :: ws, m, h => by
    have hl := List.length_filter_le (fun v => decide (Write.key v ≠ Write.key w)) m.queue
    show killed (run (.badger b) (put (.badger b) m w) ws) = _
    cases hd : Write.deletes w with
    | true =>
      rw [List.filter_cons_of_neg (by simp [hd])] at h
      rw [List.filter_cons_of_pos hd]
      have hp : put (.badger b) m w =
          commit (.badger b) { m with queue := m.queue.filter fun v => decide (Write.key v ≠ Write.key w) } [w] := by
        simp only [put, hd]
        rw [if_pos trivial]
      have hq : ∀ m' : Machine, (commit (.badger b) m' [w]).queue = m'.queue := fun m' => by unfold commit; split <;> rfl
      rw [hp, overtaken b (by rw [hq]; show (m.queue.filter _).length + _ < 100; omega), killed_commit]
      rfl
    | false =>
      rw [List.filter_cons_of_pos (by simp [hd]), List.length_cons] at h
      rw [List.filter_cons_of_neg (by simp [hd])]
      have hp : put (.badger b) m w = { m with queue := (m.queue.filter fun v => decide (Write.key v ≠ Write.key w)) ++ [w] } := by
        simp only [put, hd]
        rw [if_neg (by simp), if_neg (by omega)]
      rw [hp, overtaken b (by simp only [List.length_append, List.length_singleton]; omega)]
      rfl

/-- Deletions delete. -/
theorem deleted_head (p : Str) : ∀ {ws : List Write} {d : Store}, (∀ w ∈ ws, Write.deletes w = true) →
    (d.heads p = none ∨ Write.delHead p ∈ ws) → (writes d ws).heads p = none
  | [], _, _, h => h.elim id nofun
  | w :: ws, d, hd, h => by
    refine deleted_head p (ws := ws) (d := write d w) (fun v hv => hd v (List.mem_cons_of_mem _ hv)) ?_
    have hw := hd w List.mem_cons_self
    rcases h with h | h
    · left
      cases w with
      | head => cases hw
      | elems => cases hw
      | delHead q => simp only [write]; split <;> first | rfl | exact h
      | delElems => exact h
    · rcases List.mem_cons.1 h with h | h
      · left; subst h; simp [write]
      · exact .inr h

theorem reload_none {d : Store} {ent : Entry} (h : d.heads ent.scores = none) : reload d ent = none := by
  unfold reload loadSegs
  rw [h]

theorem noDelHead_splitLoop (p q : Str) {now splitSize mergeSize : Nat} {merge isIndex : Bool} {u : Nat} :
    ∀ {segs done : List Seg} {nid skip : Nat},
    Write.delHead q ∉ (Disk.splitLoop p now splitSize mergeSize merge isIndex u nid skip done segs).1
  | [], _, _, _ => by simp [Disk.splitLoop]
  | s :: ss, done, nid, skip + 1 => by
    simp only [Disk.splitLoop]
    exact noDelHead_splitLoop p q
  | s :: ss, done, nid, 0 => by
    have ih := fun done nid skip => noDelHead_splitLoop p q (now := now) (splitSize := splitSize) (mergeSize := mergeSize)
      (merge := merge) (isIndex := isIndex) (u := u) (segs := ss) (done := done) (nid := nid) (skip := skip)
    unfold Disk.splitLoop
    split
    · split
      · split
        · exact ih _ _ _
        · simp only [List.mem_append, List.mem_cons, List.not_mem_nil, or_false, not_or]
          exact ⟨⟨nofun, nofun⟩, ih _ _ _⟩
      · exact ih _ _ _
    · split
      · exact ih _ _ _
      · simp only [List.mem_append, not_or]
        refine ⟨?_, ih _ _ _⟩
        split <;> simp

/-- Splitting and merging deletes no table. -/
theorem noDelHead_split (now : Nat) (merge : Bool) (sch : Sched) (ent : Entry) (st : ListState) (q : Str) :
    Write.delHead q ∉ Disk.split now merge sch ent st := by
  unfold Disk.split Disk.splitScores Disk.splitIndex
  simp only [List.mem_append, not_or]
  refine ⟨noDelHead_splitLoop _ _, ⟨fun h => ?_, noDelHead_splitLoop _ _⟩, ?_⟩
  · obtain ⟨id, l, h⟩ := (Cost.updateIndex_writes _ _ _ _ _).2 _ h
    nomatch h
  · split <;> simp [saveSegments]

/-- Deletions of segments do not change tables. -/
theorem kept_heads : ∀ {ws : List Write} {d : Store}, (∀ w ∈ ws, Write.deletes w = true) → (∀ q, Write.delHead q ∉ ws) →
    (writes d ws).heads = d.heads
  | [], _, _, _ => rfl
  | w :: ws, d, hd, hq => by
    show (writes (write d w) ws).heads = _
    rw [kept_heads (fun v hv => hd v (List.mem_cons_of_mem _ hv)) fun q h => hq q (List.mem_cons_of_mem _ h)]
    have hw := hd w List.mem_cons_self
    cases w with
    | head => cases hw
    | elems => cases hw
    | delHead q => exact absurd List.mem_cons_self (hq q)
    | delElems => rfl

/-- Deletions leave elements or not. -/
theorem left_elems {p : Str} {i : Nat} {l : List Element} : ∀ {ws : List Write} {d : Store}, (∀ w ∈ ws, Write.deletes w = true) →
    (writes d ws).elems p i = some l → d.elems p i = some l ∧ Write.delElems p i ∉ ws
  | [], _, _, h => ⟨h, nofun⟩
  | w :: ws, d, hd, h => by
    obtain ⟨h1, h2⟩ := left_elems (ws := ws) (d := write d w) (fun v hv => hd v (List.mem_cons_of_mem _ hv)) h
    have hw := hd w List.mem_cons_self
    cases w with
    | head => cases hw
    | elems => cases hw
    | delHead q => exact ⟨h1, fun h => by simp at h; exact h2 h⟩
    | delElems q j =>
      simp only [write] at h1
      split at h1
      · nomatch h1
      · rename_i hne
        refine ⟨h1, fun h => ?_⟩
        rcases List.mem_cons.1 h with h | h
        · simp only [Write.delElems.injEq] at h; exact hne h
        · exact h2 h

/-- Elements of different segments have different IDs. -/
theorem other_segment {segs : List Seg} (h : DistinctIDs (allElems segs)) {g s : Seg} (hg : g ∈ segs) (hs : s ∈ segs)
    (hne : g ≠ s) {x e : Element} (hx : x ∈ g.elems) (he : e ∈ s.elems) : x.id ≠ e.id := by
  induction segs with
  | nil => nomatch hg
  | cons a segs ih =>
    unfold DistinctIDs at h
    have hsplit : allElems (a :: segs) = a.elems ++ allElems segs := rfl
    rw [hsplit, List.map_append, List.nodup_append] at h
    have hm : ∀ {b : Seg} {y : Element}, b ∈ segs → y ∈ b.elems → y.id ∈ (allElems segs).map (·.id) := fun hb hy =>
      List.mem_map_of_mem (mem_allElems.2 ⟨_, hb, hy⟩)
    rcases List.mem_cons.1 hg with hg1 | hg1 <;> rcases List.mem_cons.1 hs with hs1 | hs1
    · exact absurd (hg1.trans hs1.symm) hne
    · exact h.2.2 _ (List.mem_map_of_mem (hg1 ▸ hx)) _ (hm hs1 he)
    · exact fun heq => h.2.2 _ (List.mem_map_of_mem (hs1 ▸ he)) _ (hm hg1 hx) heq.symm
    · exact ih h.2.1 hg1 hs1

end RankDB.Power

import Verif.Spec.Startup
import Verif.Props.Stored
import Verif.Props.Saver
/-
C80: starting the server brings back the catalogue that was saved last.
-/
namespace RankDB.Props
open Stored Startup Spec

/-- Catalogues that can be in memory. -/
def KeptLists (ls : List ListRec) : Prop := StorableLists ls

theorem kept_loaded {ls : List ListRec} (h : KeptLists ls) : KeptLists (loaded ls) := by
  refine ⟨?_, ?_⟩
  · intro l hl
    obtain ⟨x, hx, rfl⟩ := List.mem_map.1 hl
    obtain ⟨h1, h2, h3, h4, h5, h6, h7, h8, h9⟩ := h.fields x hx
    exact ⟨h1, h2, h3, h4, h5, h6, h7, h8, h9⟩
  · unfold loaded
    rw [List.map_map]
    exact h.ids

theorem kept_nil : KeptLists [] := ⟨by simp, by simp⟩

theorem parse_saved (c : Compression) (z : Bool) (old ls : List ListRec) (h : KeptLists ls) :
    parse c old (saveLists c z ls) = (loaded ls, .ok) := by
  unfold parse
  rw [C35_roundtrip c z ls old h]
  rfl

/-- The lists after a start, with the catalogues that were saved and backed up last. -/
def found (backups p b : Bool) (saved backed : Option (List ListRec)) : Option (List ListRec) :=
  match p, saved with
  | true, some ls => some (loaded ls)
  | _, _ => if backups then (if b then some ((backed.map loaded).getD []) else none) else if p then some [] else none

/-- What a start finds. -/
theorem start_lists (c : Startup.Config) (w : World) (p b : Bool) (h : w.lists = none) (saved backed : Option (List ListRec))
    (h1 : w.primary = saved.map (saveLists c.lib c.compress)) (h2 : w.backup = backed.map (saveLists c.lib c.compress))
    (k1 : ∀ ls, saved = some ls → KeptLists ls) (k2 : ∀ ls, backed = some ls → KeptLists ls) :
    (step c w (.start p b)).lists = found c.backups p b saved backed := by
  simp only [step]
  rw [h]
  dsimp only
  rw [h1, h2]
  unfold startServer load
  cases p <;> cases saved <;> cases backed <;> cases b <;> cases hb : c.backups <;>
    simp_all [Startup.read, readAndParse, parse_saved, found]

theorem due_backups {c : Startup.Config} {s : Saver.State} (h : c.backups = false) : Saver.due c.saver s = false := by
  unfold Saver.due
  unfold Config.backups at h
  rw [h]; rfl

theorem tick_primary (c : Startup.Config) (w : World) (b p : Bool) (ls : List ListRec) (h : w.lists = some ls) :
    (step c w (.tick b p)).primary = (if p then some (saveLists c.lib c.compress ls) else w.primary) ∧
    (step c w (.tick b p)).backup = (if Saver.due c.saver w.saver && b then some (saveLists c.lib c.compress ls) else w.backup) ∧
    (step c w (.tick b p)).lists = w.lists := by
  have := C60_written c.saver w.saver (saveLists c.lib c.compress ls) b p rfl
  simp only [step]
  rw [h]
  exact ⟨this.2, this.1, rfl⟩

theorem shutdown_primary (c : Startup.Config) (w : World) (p : Bool) (ls : List ListRec) (h : w.lists = some ls) :
    (step c w (.shutdown p)).primary = (if p then some (saveLists c.lib c.compress ls) else w.primary) ∧
    (step c w (.shutdown p)).backup = w.backup ∧ (step c w (.shutdown p)).lists = none := by
  simp only [step]
  rw [h]
  dsimp only
  rw [Saver.step_shutdown _ _ _ _ rfl]
  cases p <;> exact ⟨rfl, rfl, rfl⟩

/-- What is stored, whatever happened. -/
structure Stores (c : Startup.Config) (w : World) (saved backed : Option (List ListRec)) : Prop where
  primary : w.primary = saved.map (saveLists c.lib c.compress)
  backup : w.backup = backed.map (saveLists c.lib c.compress)
  kept : ∀ ls, w.lists = some ls → KeptLists ls
  keptSaved : ∀ ls, saved = some ls → KeptLists ls
  keptBacked : ∀ ls, backed = some ls → KeptLists ls

/-- One event: what is stored afterwards. -/
theorem stores_step {c : Startup.Config} {w : World} {saved backed : Option (List ListRec)} (h : Stores c w saved backed) (e : Event)
    (hf : ∀ ls, e = .change ls → KeptLists ls) :
    Stores c (step c w e)
      (nextSaved w saved e)
      (nextBackup c w backed e) := by
  obtain ⟨h1, h2, h3, h4, h5⟩ := h
  cases e with
  | change ls =>
    refine ⟨h1, h2, fun l hl => ?_, h4, h5⟩
    have : w.lists.map (fun _ => ls) = some l := hl
    cases hw : w.lists with
    | none => rw [hw] at this; cases this
    | some x => rw [hw] at this; cases this; exact hf _ rfl
  | tick b p =>
    cases hw : w.lists with
    | none =>
      have : step c w (.tick b p) = w := by simp only [step]; rw [hw]
      rw [this]
      cases p <;> simp only [nextSaved, nextBackup, hw, Option.none_or, ite_self] <;> exact ⟨h1, h2, h3, h4, h5⟩
    | some ls =>
      obtain ⟨t1, t2, t3⟩ := tick_primary c w b p ls hw
      have hk := h3 ls hw
      refine ⟨?_, ?_, ?_, ?_, ?_⟩
      · rw [t1]; cases p <;> simp [h1, nextSaved, hw]
      · rw [t2]
        simp only [nextBackup]
        split <;> simp [h2, hw]
      · rw [t3]; exact h3
      · cases p
        · exact h4
        · intro l hl; rw [nextSaved, hw] at hl; cases hl; exact hk
      · simp only [nextBackup]
        split
        · intro l hl; rw [hw] at hl; cases hl; exact hk
        · exact h5
  | shutdown p =>
    cases hw : w.lists with
    | none =>
      have : step c w (.shutdown p) = w := by simp only [step]; rw [hw]
      rw [this]
      cases p <;> simp only [nextSaved, nextBackup, hw, Option.none_or] <;> exact ⟨h1, h2, h3, h4, h5⟩
    | some ls =>
      obtain ⟨t1, t2, t3⟩ := shutdown_primary c w p ls hw
      have hk := h3 ls hw
      refine ⟨?_, by rw [t2]; exact h2, by rw [t3]; simp, ?_, h5⟩
      · rw [t1]; cases p <;> simp [h1, nextSaved, hw]
      · cases p
        · exact h4
        · intro l hl; rw [nextSaved, hw] at hl; cases hl; exact hk
  | kill => exact ⟨h1, h2, by simp [step], h4, h5⟩
  | start p b =>
    cases hw : w.lists with
    | some ls =>
      have : step c w (.start p b) = w := by simp only [step]; rw [hw]
      rw [this]
      exact ⟨h1, h2, h3, h4, h5⟩
    | none =>
      have hs := start_lists c w p b hw saved backed h1 h2 h4 h5
      refine ⟨?_, ?_, ?_, h4, h5⟩
      · simp only [step]; rw [hw]; exact h1
      · simp only [step]; rw [hw]; exact h2
      · intro ls hl
        rw [hs] at hl
        unfold found at hl
        split at hl
        · cases hl; exact kept_loaded (h4 _ rfl)
        · split at hl
          · split at hl
            · cases hl
              cases backed with
              | none => exact kept_nil
              | some x => exact kept_loaded (h5 x rfl)
            · cases hl
          · split at hl
            · cases hl; exact kept_nil
            · cases hl

/-- The conditions under which a start never falls back on a backup: there are none, or the catalogue can be read and
written. -/
def Reliable (c : Startup.Config) (es : List Event) : Prop := c.backups = false ∨ (Readable es ∧ Written es)

theorem follows_run (c : Startup.Config) (es : List Event) (w : World) (s : Remembered) (hf : Fitting es) (hr : Reliable c es)
    (backed : Option (List ListRec)) (h : Stores c w s.saved backed) (hl : w.lists = s.lists)
    (hb : c.backups = true → s.saved = none → backed = none) :
    (run c w es).lists = (s.run es).lists ∧
      (run c w es).primary = (s.run es).saved.map (saveLists c.lib c.compress) := by
  induction es generalizing w s backed with
  | nil => exact ⟨hl, h.primary⟩
  | cons e es ih =>
    have hf' : Fitting es := fun ls hm => hf ls (List.mem_cons_of_mem _ hm)
    have hr' : Reliable c es := by
      rcases hr with h | ⟨h1, h2⟩
      · exact .inl h
      · exact .inr ⟨fun p b hm => h1 p b (List.mem_cons_of_mem _ hm), fun p b hm => h2 p b (List.mem_cons_of_mem _ hm)⟩
    have hst := stores_step h e fun ls he => by
      have := hf ls (he ▸ List.mem_cons_self)
      exact ⟨this.1, this.2⟩
    show (run c (step c w e) es).lists = ((s.step e).run es).lists ∧ _ = ((s.step e).run es).saved.map _
    cases e with
    | change ls => exact ih _ _ hf' hr' backed hst (by show w.lists.map _ = s.lists.map _; rw [hl]) hb
    | kill => exact ih _ _ hf' hr' backed hst rfl hb
    | tick b p =>
      have e1 : (s.step (.tick b p)).saved = nextSaved w s.saved (.tick b p) := by
        simp only [nextSaved, hl]; cases p <;> rfl
      have e2 : (s.step (.tick b p)).lists = s.lists := by cases p <;> rfl
      refine ih _ (s.step (.tick b p)) hf' hr' _ (by rw [e1]; exact hst) ?_ ?_
      · rw [e2, ← hl]
        cases hw : w.lists with
        | none =>
          have : step c w (.tick b p) = w := by simp only [step]; rw [hw]
          rw [this, hw]
        | some ls => rw [(tick_primary c w b p ls hw).2.2, hw]
      · intro hc hs
        simp only [nextBackup]
        rcases hr with hr | ⟨-, hr⟩
        · rw [hr] at hc; cases hc
        · have hp := hr b p List.mem_cons_self
          cases p with
          | true =>
            have : s.lists.or s.saved = none := hs
            rw [Option.or_eq_none_iff] at this
            rw [hl, this.1, Option.none_or, ite_self]
            exact hb hc this.2
          | false =>
            have : b = false := by cases b <;> simp_all
            rw [this, Bool.and_false, if_neg (by simp)]
            exact hb hc hs
    | shutdown p =>
      have e1 : (s.step (.shutdown p)).saved = nextSaved w s.saved (.shutdown p) := by
        simp only [nextSaved, hl]; cases p <;> rfl
      refine ih _ (s.step (.shutdown p)) hf' hr' _ (by rw [e1]; exact hst) ?_ ?_
      · show _ = none
        cases hw : w.lists with
        | none =>
          have : step c w (.shutdown p) = w := by simp only [step]; rw [hw]
          rw [this, hw]
        | some ls => rw [(shutdown_primary c w p ls hw).2.2]
      · intro hc hs
        apply hb hc
        cases p with
        | false => exact hs
        | true =>
          have : s.lists.or s.saved = none := hs
          rw [Option.or_eq_none_iff] at this
          exact this.2
    | start p b =>
      have e1 : (s.step (.start p b)).saved = s.saved := by
        simp only [Remembered.step]
        split <;> rfl
      refine ih _ (s.step (.start p b)) hf' hr' backed (by rw [e1]; exact hst) ?_ (by rw [e1]; exact hb)
      cases hw : w.lists with
      | some ls =>
        have : step c w (.start p b) = w := by simp only [step]; rw [hw]
        rw [this]
        simp only [Remembered.step]
        rw [← hl, hw]
        dsimp only
        rw [← hl, hw]
      | none =>
        rw [start_lists c w p b hw s.saved backed h.primary h.backup h.keptSaved h.keptBacked]
        simp only [Remembered.step]
        rw [← hl, hw]
        dsimp only
        unfold found
        rcases hr with hr | ⟨hr, -⟩
        · rw [hr]
          cases p <;> cases s.saved <;> rfl
        · obtain ⟨rfl, rfl⟩ := hr p b List.mem_cons_self
          cases hs : s.saved with
          | some ls => rfl
          | none =>
            cases hc : c.backups with
            | false => rfl
            | true =>
              rw [hb hc hs]
              rfl

/-- If there are no backups, or the storage can be read and written, every start brings back exactly the catalogue that
was saved last, whatever happened before. Without backups a start that cannot read the catalogue fails and changes
nothing. -/
theorem C80_start_partial (c : Startup.Config) (es : List Event) (hf : Fitting es) (hr : Reliable c es) :
    (run c {} es).lists = (Remembered.run {} es).lists ∧
      (run c {} es).primary = (Remembered.run {} es).saved.map (saveLists c.lib c.compress) :=
  follows_run c es {} {} hf hr none ⟨rfl, rfl, by simp, by simp, by simp⟩ rfl fun _ _ => rfl

theorem stores_run (c : Startup.Config) (es : List Event) (w : World) (hf : Fitting es) (saved backed : Option (List ListRec))
    (h : Stores c w saved backed) : Stores c (run c w es) (lastSaved c w saved es) (lastBackup c w backed es) := by
  induction es generalizing w saved backed with
  | nil => exact h
  | cons e es ih =>
    exact ih _ (fun ls hm => hf ls (List.mem_cons_of_mem _ hm)) _ _ (stores_step h e fun ls he => by
      have := hf ls (he ▸ List.mem_cons_self)
      exact ⟨this.1, this.2⟩)

/-- Whatever happened, a start that can read the catalogue brings back the one that was saved last, also if backups or
earlier reads and writes failed. -/
theorem C80_readable_start (c : Startup.Config) (es : List Event) (hf : Fitting es) (b : Bool) (ls : List ListRec)
    (hstop : (run c {} es).lists = none) (hs : lastSaved c {} none es = some ls) :
    (run c {} (es ++ [.start true b])).lists = some (loaded ls) := by
  have h := stores_run c es {} hf none none ⟨rfl, rfl, by simp, by simp, by simp⟩
  have e : run c {} (es ++ [.start true b]) = step c (run c {} es) (.start true b) := by unfold run; rw [List.foldl_append]; rfl
  rw [e, start_lists c _ true b hstop _ _ h.primary h.backup h.keptSaved h.keptBacked, hs]
  rfl

/-- Whatever happened, a start brings back the catalogue that was saved last, or that of the last backup, or there are no
lists, or the server does not start. Nothing else is ever loaded. -/
theorem C80_worst (c : Startup.Config) (es : List Event) (hf : Fitting es) (p b : Bool) (hstop : (run c {} es).lists = none) :
    (run c {} (es ++ [.start p b])).lists ∈
      [(lastSaved c {} none es).map loaded, (lastBackup c {} none es).map loaded, some [], none] := by
  have h := stores_run c es {} hf none none ⟨rfl, rfl, by simp, by simp, by simp⟩
  have e : run c {} (es ++ [.start p b]) = step c (run c {} es) (.start p b) := by unfold run; rw [List.foldl_append]; rfl
  rw [e, start_lists c _ p b hstop _ _ h.primary h.backup h.keptSaved h.keptBacked]
  cases lastSaved c {} none es <;> cases lastBackup c {} none es <;> cases c.backups <;> cases b <;> cases p <;> simp [found]

/-- A catalogue that was cut off, with or without compression, is never taken for a shorter one or for a new
installation: without backups the server does not start, or all lists are there (if only the end of the compressed
stream is missing); what is stored stays as it is. -/
theorem C80_cut_off (c : Startup.Config) (hc : c.backups = false) (w : World) (ls : List ListRec) (n : Nat) (b : Bool) (h : KeptLists ls)
    (hstop : w.lists = none) (hw : w.primary = some ((saveLists c.lib c.compress ls).take n)) :
    ((step c w (.start true b)).lists = none ∨ (step c w (.start true b)).lists = some (loaded ls)) ∧
    (c.compress = false → n < (saveLists c.lib c.compress ls).length → (step c w (.start true b)).lists = none) ∧
    (step c w (.start true b)).primary = w.primary := by
  have key : (step c w (.start true b)).lists =
      (match loadLists c.lib [] ((saveLists c.lib c.compress ls).take n) with
        | (ls, none) => some ls
        | (_, some _) => none) := by
    simp only [step]
    rw [hstop, hw, hc]
    simp only [startServer, load, Startup.read, if_true, readAndParse, parse, Bool.false_eq_true, if_false]
    generalize loadLists c.lib [] _ = r
    obtain ⟨x, _ | e⟩ := r <;> rfl
  have hfail : ∀ e, (loadLists c.lib [] ((saveLists c.lib c.compress ls).take n)).2 = some e →
      (step c w (.start true b)).lists = none := by
    intro e he
    rw [key]
    generalize loadLists c.lib [] _ = r at he
    obtain ⟨x, y⟩ := r
    cases he; rfl
  refine ⟨?_, ?_, by simp only [step]; rw [hstop]⟩
  · cases hz : c.compress with
    | false =>
      by_cases hn : n < (saveLists c.lib false ls).length
      · obtain ⟨e, he⟩ := C35_truncated c.lib ls [] h n hn
        exact .inl (hfail e (by rw [hz]; exact he))
      · rw [key, hz, List.take_of_length_le (by omega), C35_roundtrip c.lib false ls [] h]
        exact .inr rfl
    | true =>
      rcases C35_truncated_compressed c.lib ls [] h n with ⟨e, he⟩ | he
      · exact .inl (hfail e (by rw [hz]; exact he))
      · rw [key, hz, he, C35_roundtrip c.lib true ls [] h]
        exact .inr rfl
  · intro hz hn
    rw [hz] at hn
    obtain ⟨e, he⟩ := C35_truncated c.lib ls [] h n hn
    exact hfail e (by rw [hz]; exact he)

/-- The claim is false with backups: any catalogue that was saved by a shutdown is lost, without any failed write, if one
read fails at the next start and no backup was made yet. The server starts without lists, and the next save replaces the
catalogue. -/
theorem C80_forgets (c : Startup.Config) (hc : c.backups = true) (ls : List ListRec) (h : KeptLists ls) :
    let es := [.start true true, .change ls, .shutdown true]
    (run c {} (es ++ [.start true true])).lists = some (loaded ls) ∧
    (run c {} (es ++ [.start false true])).lists = some [] ∧
    (run c {} (es ++ [.start false true, .shutdown true, .start true true])).lists = some [] := by
  have e0 : ∀ z, parse c.lib z (saveLists c.lib c.compress []) = ([], .ok) := fun z => parse_saved c.lib c.compress z [] kept_nil
  have e1 := parse_saved c.lib c.compress [] ls h
  refine ⟨?_, ?_, ?_⟩ <;>
    simp [run, step, startServer, load, readAndParse, Startup.read, hc, Saver.step, Saver.saveLists, World.saver, e0, e1]

/-- With a backup, the lists that were created after it are lost in the same way. -/
theorem C80_stale (c : Startup.Config) (hc : c.backups = true) (h1 : c.saver.every = 1) (a b : List ListRec) (ha : KeptLists a) (hb : KeptLists b) :
    let es := [.start true true, .change a, .tick true true, .tick true true, .change b, .shutdown true]
    (run c {} (es ++ [.start true true])).lists = some (loaded b) ∧
    (run c {} (es ++ [.start false true])).lists = some (loaded a) ∧
    (run c {} (es ++ [.start false true, .shutdown true, .start true true])).lists = some (loaded (loaded a)) := by
  have ea := fun z => parse_saved c.lib c.compress z a ha
  have eb := fun z => parse_saved c.lib c.compress z b hb
  have ea' := fun z => parse_saved c.lib c.compress z (loaded a) (kept_loaded ha)
  have hh : c.saver.hasBackup = true := by unfold Config.backups at hc; simp_all
  refine ⟨?_, ?_, ?_⟩ <;>
    simp [run, step, startServer, load, readAndParse, Startup.read, hc, Saver.step, Saver.saveLists, Saver.due, World.saver, ea, eb, ea', h1, hh]

theorem never_backed (c : Startup.Config) (es : List Event) (w : World) (k : Nat) (hk : w.lists.isSome → w.last ≤ k)
    (h : ShortRuns c.saver.every k es) (hb : w.backup = none) : (run c w es).backup = none := by
  induction es generalizing w k with
  | nil => exact hb
  | cons e es ih =>
    cases e with
    | change ls => exact ih _ k (by simpa [step] using hk) h hb
    | kill => exact ih _ 0 (by simp [step]) h hb
    | shutdown p =>
      cases hw : w.lists with
      | none =>
        have : step c w (.shutdown p) = w := by simp only [step]; rw [hw]
        exact ih _ 0 (by rw [this, hw]; simp) h (by rw [this]; exact hb)
      | some ls =>
        obtain ⟨-, s2, s3⟩ := shutdown_primary c w p ls hw
        exact ih _ 0 (by rw [s3]; simp) h (by rw [s2]; exact hb)
    | tick b p =>
      obtain ⟨h1, h2⟩ := h
      cases hw : w.lists with
      | none =>
        have : step c w (.tick b p) = w := by simp only [step]; rw [hw]
        exact ih _ (k + 1) (by rw [this, hw]; simp) h2 (by rw [this]; exact hb)
      | some ls =>
        have hk' := hk (by rw [hw]; rfl)
        have hd : Saver.due c.saver w.saver = false := by
          unfold Saver.due
          have : decide (w.saver.last ≥ c.saver.every) = false := by
            simp only [World.saver]; exact decide_eq_false (by omega)
          rw [this, Bool.and_false]
        refine ih _ (k + 1) (fun _ => ?_) h2 ?_
        · simp only [step]
          rw [hw]
          dsimp only
          rw [Saver.step_tick _ _ _ _ _ rfl, hd]
          show w.last + 1 ≤ k + 1
          omega
        · rw [(tick_primary c w b p ls hw).2.1, hd]
          exact hb
    | start p b =>
      cases hw : w.lists with
      | some ls =>
        have : step c w (.start p b) = w := by simp only [step]; rw [hw]
        exact ih _ k (by rw [this]; exact hk) h (by rw [this]; exact hb)
      | none =>
        refine ih _ k (fun _ => ?_) h ?_
        · simp only [step]; rw [hw]; exact Nat.zero_le _
        · simp only [step]; rw [hw]; exact hb

/-- A server that is never up long enough for one more save than the interval never gets a backup, however often it saves
in total. -/
theorem C80_never_backed (c : Startup.Config) (es : List Event) (h : ShortRuns c.saver.every 0 es) : (run c {} es).backup = none :=
  never_backed c es {} 0 (by simp) h rfl

/-! ### An example -/

/-- Two catalogues. -/
def exLists (k : UInt8) : List ListRec :=
  [⟨[97, k], [1], some [([107], [118])], 100, 10, true, [115], [105]⟩, ⟨[98], [2], none, 2000, 500, false, [116], []⟩]

theorem exLists_kept (k : UInt8) : KeptLists (exLists k) := by
  refine ⟨?_, ?_⟩
  · intro l hl
    simp only [exLists, List.mem_cons, List.not_mem_nil, or_false] at hl
    rcases hl with rfl | rfl
    · constructor <;> simp [maxU32, ListRec.entries]
    · exact ⟨by decide, by decide, by decide, by simp [ListRec.entries], by simp [ListRec.entries], by decide, by decide,
        by decide, by decide⟩
  · simp [exLists]

/-- Backups with every second save. -/
def exConfig : Startup.Config := { lib := noCompression, compress := true, saver := { hasBackup := true, every := 2 } }

/-- A history with saves, a kill and failed writes. -/
def exStarts : List Event :=
  [.start true true, .change (exLists 1), .tick true true, .tick false true, .change (exLists 2), .tick true true, .tick false false,
   .kill, .start true true, .change (exLists 3), .tick true true, .change (exLists 4), .kill, .start true true]

/-- The conditions of `C80_start_partial` hold with backups, and the start brings back the third catalogue; there was
also a backup. -/
example : Fitting exStarts ∧ Reliable exConfig exStarts ∧
    (run exConfig {} exStarts).lists = some (loaded (exLists 3)) ∧ (run exConfig {} exStarts).backup.isSome := by
  refine ⟨?_, .inr ⟨?_, ?_⟩, by decide +kernel, by decide +kernel⟩
  · intro ls h
    simp only [exStarts, List.mem_cons, Event.change.injEq, List.not_mem_nil, reduceCtorEq, or_false, false_or] at h
    rcases h with h | h | h | h <;> subst h <;> exact ⟨(exLists_kept _).fields, (exLists_kept _).ids⟩
  · intro p b h
    simp only [exStarts, List.mem_cons, Event.start.injEq, List.not_mem_nil, reduceCtorEq, or_false, false_or] at h
    rcases h with h | h | h <;> exact h
  · intro b p h hb
    simp only [exStarts, List.mem_cons, Event.tick.injEq, List.not_mem_nil, reduceCtorEq, or_false, false_or] at h
    grind

/-- The conditions of `C80_forgets` and `C80_stale`. -/
example : exConfig.backups = true ∧ KeptLists (exLists 1) ∧ loaded (exLists 1) ≠ [] ∧
    ({ exConfig with saver := { hasBackup := true, every := 1 } } : Startup.Config).backups = true :=
  ⟨rfl, exLists_kept 1, by decide, rfl⟩

/-- A catalogue that was cut off. -/
example : let c : Startup.Config := { lib := noCompression, compress := false, saver := { hasBackup := false, every := 0 } }
    c.backups = false ∧ 20 < (saveLists c.lib c.compress (exLists 1)).length ∧
      (step c { primary := some ((saveLists c.lib c.compress (exLists 1)).take 20) } (.start true true)).lists = none ∧
      (step c { primary := some (saveLists c.lib c.compress (exLists 1)) } (.start true true)).lists = some (loaded (exLists 1)) := by
  decide +kernel

/-- Short runs: two saves between two stops, many times; the catalogue is saved and there is no backup. -/
example : ShortRuns exConfig.saver.every 0 [.start true true, .change (exLists 1), .tick true true, .tick true true, .shutdown true,
      .start true true, .tick true true, .tick true true, .kill, .start true true] ∧
    (run exConfig {} [.start true true, .change (exLists 1), .tick true true, .tick true true, .shutdown true,
      .start true true, .tick true true, .tick true true, .kill, .start true true]).primary.isSome := by
  refine ⟨?_, by decide +kernel⟩
  simp [ShortRuns, exConfig]

end RankDB.Props

import Verif.Spec.Bytes
import Verif.Props.Stored
import Verif.Props.Keys
import Verif.Props.Verify
/-
Lemmas about the server down to bytes: what was written is what is read.
-/
namespace RankDB.Files
open Wire Stored Server Disk Spec Props

theorem segOf_metaOf {p : Str} {g : Seg} : segOf (metaOf p g) = { g with elems := [] } := by
  simp [segOf, metaOf]

theorem segsOf_tableOf {p : Str} {s : Segs} : segsOf (tableOf p s) = head s := by
  unfold segsOf tableOf head
  simp only [List.map_map]
  congr 1

theorem tableOf_wf {p : Str} {s : Segs} (hp : p.length < 2 ^ 32) (h : HeadFits s) : (tableOf p s).WF := by
  have hu : maxU32 = 2 ^ 32 - 1 := rfl
  have hv : maxU64 = 2 ^ 64 - 1 := rfl
  obtain ⟨h1, h2, h3⟩ := h
  refine ⟨?_, ?_, ?_, ?_⟩
  · show p.length ≤ _; omega
  · show (s.segs.map (metaOf p)).length ≤ _; rw [List.length_map]; omega
  · intro m hm
    obtain ⟨g, hg, rfl⟩ := List.mem_map.1 hm
    obtain ⟨⟨-, g1⟩, g2, g3, g4, g5, g6, g7⟩ := h3 g hg
    constructor <;> simp only [metaOf] <;> omega
  · show s.nextID ≤ _; omega

theorem read_table {p : Str} {s : Segs} (hp : p.length < 2 ^ 32) (h : HeadFits s) (hh : head s = s) :
    (match loadTable (tableBlob (tableOf p s)) with
      | .ok t => some (segsOf t)
      | .error _ => none) = some s := by
  rw [C34_roundtrip _ (tableOf_wf hp h)]
  dsimp only
  rw [segsOf_tableOf, hh]

theorem read_elements {l : List Element} (h : ElemsFit l) :
    (match loadElements (elementsBlob l) with
      | .ok l => some l
      | .error _ => none) = some l := by
  have hu : maxU32 = 2 ^ 32 - 1 := rfl
  have hv : maxU64 = 2 ^ 64 - 1 := rfl
  rw [C33_roundtrip l ⟨by have := h.count; omega, fun e he => ?_, fun e he => ?_⟩]
  · obtain ⟨⟨a, b, c, d⟩, -, -⟩ := h.fine e he
    constructor <;> omega
  · have := (h.fine e he).payload; omega

theorem dash_key (p : Str) (i : Nat) : (45 : UInt8) ∈ Keys.storageKey p i := by simp [Keys.storageKey]

theorem key_ne {n p : Str} {i : Nat} (h : 45 ∉ n) : n ≠ Keys.storageKey p i := fun e => h (e ▸ dash_key p i)

theorem key_ne_lists {p : Str} {i : Nat} : Keys.storageKey p i ≠ Keys.listStorageKey := fun e => by
  have := dash_key p i
  rw [e] at this
  revert this
  decide

/-- The blob under which a write goes. -/
def keyOf : Write → Str
  | .head p _ | .delHead p => p
  | .elems p i _ | .delElems p i => Keys.storageKey p i

theorem writeBytes_lists {b : Blobs} {w : Write} (h : GoodName w.parent) : writeBytes b w Keys.listStorageKey = b Keys.listStorageKey := by
  cases w <;> simp only [writeBytes, Blobs.set] <;> rw [if_neg]
  · exact fun e => h.other e.symm
  · exact fun e => key_ne_lists e.symm
  · exact fun e => h.other e.symm
  · exact fun e => key_ne_lists e.symm

/-- One write: what is read under other keys is as before, and what was written is what is read. -/
theorem write_agree {b : Blobs} {d : Store} {w : Write} {n : Str} (hn : GoodName n) (hp : GoodName w.parent) (hw : WriteFits w)
    (h : Agree (decoded b) d n) : Agree (decoded (writeBytes b w)) (write d w) n := by
  obtain ⟨h1, h2⟩ := h
  simp only [decoded] at h1 h2
  cases w with
  | head p s =>
    refine ⟨?_, fun j => ?_⟩
    · simp only [decoded, readTable, writeBytes, Blobs.set, Disk.write]
      by_cases he : n = p
      · subst he
        rw [if_pos rfl, if_pos rfl]
        exact congrArg (Option.map head) (read_table hp.length hw.1 hw.2)
      · rw [if_neg he, if_neg he]
        exact h1
    · simp only [decoded, readElements, writeBytes, Blobs.set, Disk.write]
      rw [if_neg (fun e => key_ne hp.dash e.symm)]
      exact h2 j
  | delHead p =>
    refine ⟨?_, fun j => ?_⟩
    · simp only [decoded, readTable, writeBytes, Blobs.set, Disk.write]
      by_cases he : n = p
      · rw [if_pos he, if_pos he]
      · rw [if_neg he, if_neg he]
        exact h1
    · simp only [decoded, readElements, writeBytes, Blobs.set, Disk.write]
      rw [if_neg (fun e => key_ne hp.dash e.symm)]
      exact h2 j
  | elems p i l =>
    refine ⟨?_, fun j => ?_⟩
    · simp only [decoded, readTable, writeBytes, Blobs.set, Disk.write]
      rw [if_neg (key_ne hn.dash)]
      exact h1
    · simp only [decoded, readElements, writeBytes, Blobs.set, Disk.write]
      by_cases he : n = p ∧ j = i
      · obtain ⟨rfl, rfl⟩ := he
        rw [if_pos rfl, if_pos ⟨rfl, rfl⟩]
        exact read_elements hw.2
      · rw [if_neg (fun e => he (C42_storage_key _ _ _ _ e)), if_neg he]
        exact h2 j
  | delElems p i =>
    refine ⟨?_, fun j => ?_⟩
    · simp only [decoded, readTable, writeBytes, Blobs.set, Disk.write]
      rw [if_neg (key_ne hn.dash)]
      exact h1
    · simp only [decoded, readElements, writeBytes, Blobs.set, Disk.write]
      by_cases he : n = p ∧ j = i
      · obtain ⟨rfl, rfl⟩ := he
        rw [if_pos rfl, if_pos ⟨rfl, rfl⟩]
      · rw [if_neg (fun e => he (C42_storage_key _ _ _ _ e)), if_neg he]
        exact h2 j

theorem save_agree {b : Blobs} {v : Option Bytes} {d : Store} {n : Str} (hn : GoodName n)
    (h : Agree (decoded b) d n) : Agree (decoded (b.set Keys.listStorageKey v)) d n := by
  obtain ⟨h1, h2⟩ := h
  refine ⟨?_, fun j => ?_⟩
  · simp only [decoded, readTable, Blobs.set]
    rw [if_neg hn.other]
    exact h1
  · simp only [decoded, readElements, Blobs.set]
    rw [if_neg key_ne_lists]
    exact h2 j

/-- An entry of the catalogue that fits its stored form. -/
structure EntryFits (l : Listing) : Prop where
  scores : GoodName l.ent.scores
  index : GoodName l.ent.index
  stored : (recOf l).WF

theorem listingOf_stored {l : Listing} : listingOf { recOf l with metadata := some ((recOf l).metadata.getD []) } = withMetadata l := by
  simp [listingOf, recOf, withMetadata]

/-- The bytes that are stored under "lists" stand for this saved catalogue. -/
def FileIs (c : Setup) (b : Option Bytes) (file : List Listing) : Prop :=
  match b with
  | none => file = []
  | some x => loadLists c.lib [] x = ((file.map recOf).map fun l => { l with metadata := some (l.metadata.getD []) }, none)

theorem saved_is {c : Setup} {lists : List Listing} (h : ∀ l ∈ lists, EntryFits l) (hid : (lists.map (·.id)).Nodup) :
    FileIs c (some (saveLists c.lib c.compress (lists.map recOf))) lists := by
  unfold FileIs
  refine C35_roundtrip c.lib c.compress (lists.map recOf) [] ⟨?_, ?_⟩
  · intro r hr
    obtain ⟨l, hl, rfl⟩ := List.mem_map.1 hr
    exact (h l hl).stored
  · rw [List.map_map]
    exact hid

/-- The bytes stand for the server. -/
structure Represents (c : Setup) (F : Files) (db : Db) : Prop where
  lists : F.lists = db.lists
  blobs : ∀ n, GoodName n → Agree (decoded F.blobs) db.store n
  file : FileIs c (F.blobs Keys.listStorageKey) db.file

theorem represents_apply {c : Setup} {F : Files} {db : Db} {e : Effect} (h : Represents c F db)
    (hw : ∀ w, e = .blob w → WriteFits w ∧ GoodName w.parent) (hl : ∀ l ∈ db.lists, EntryFits l)
    (hid : (db.lists.map (·.id)).Nodup) : Represents c (apply c F e) (Server.apply db e) := by
  obtain ⟨h1, h2, h3⟩ := h
  cases e with
  | blob w =>
    obtain ⟨w1, w2⟩ := hw w rfl
    refine ⟨h1, fun n hn => write_agree hn w2 w1 (h2 n hn), ?_⟩
    show FileIs c (writeBytes F.blobs w Keys.listStorageKey) db.file
    rw [writeBytes_lists w2]
    exact h3
  | put l => exact ⟨by show _ :: List.filter _ _ = _ :: List.filter _ _; rw [h1], h2, h3⟩
  | drop i => exact ⟨by show List.filter _ _ = List.filter _ _; rw [h1], h2, h3⟩
  | save =>
    refine ⟨h1, fun n hn => save_agree hn (h2 n hn), ?_⟩
    have he : (apply c F .save).blobs Keys.listStorageKey = some (saveLists c.lib c.compress (db.lists.map recOf)) := by
      simp only [apply, Blobs.set]
      rw [if_pos trivial, h1]
    rw [he]
    exact saved_is hl hid

theorem represents_applyAll {c : Setup} {es : List Effect} {F : Files} {db : Db} (h : Represents c F db)
    (hw : ∀ w, Effect.blob w ∈ es → WriteFits w ∧ GoodName w.parent) (hp : ∀ l, Effect.put l ∈ es → EntryFits l)
    (hl : ∀ l ∈ db.lists, EntryFits l) (hid : (db.lists.map (·.id)).Nodup) :
    Represents c (applyAll c F es) (Server.applyAll db es) := by
  induction es generalizing F db with
  | nil => exact h
  | cons e es ih =>
    refine ih (F := apply c F e) (db := Server.apply db e)
      (represents_apply h (fun w he => hw w (he ▸ List.mem_cons_self)) hl hid) (fun w hm => hw w (List.mem_cons_of_mem _ hm))
      (fun l hm => hp l (List.mem_cons_of_mem _ hm)) ?_ ?_
    · intro l hm
      rcases applyAll_lists (es := [e]) db hm with h' | h'
      · exact hl l h'
      · exact hp l (by rw [List.mem_singleton.1 h']; exact List.mem_cons_self)
    · exact applyAll_ids (es := [e]) db hid

/-- All entries fit. -/
structure AllFit (db : Db) : Prop where
  bounds : InBounds db
  lists : ∀ l ∈ db.lists, EntryFits l
  file : ∀ l ∈ db.file, EntryFits l

theorem noLists_fit : AllFit noLists := ⟨noLists_inBounds, by simp [noLists], by simp [noLists]⟩

theorem handle_entries {env : Env} {db : Db} {r : Request} (h : AllFit db) (ha : Asks env db r) :
    ∀ l, Effect.put l ∈ (handle env db r).2 → EntryFits l := by
  intro l hl
  obtain ⟨n1, n2⟩ := ha.names
  have hu : maxU32 = 2 ^ 32 - 1 := rfl
  rcases Props.handle_put hl with ⟨p, -, rfl, hr⟩ | ⟨x, hx, ent, rfl, e1, e2, e3, e4⟩
  · have hd : Describable p := by
      have := ha.described
      rcases hr with ⟨b, rfl⟩ | ⟨o, rfl⟩ <;> exact this
    obtain ⟨d1, d2, d3, d4, d5, d6, d7⟩ := hd
    have l1 := n1.length
    have l2 := n2.length
    refine ⟨n1, n2, ?_⟩
    constructor
    · show p.id.length ≤ _; omega
    · show p.set.length ≤ _; omega
    · show (p.metadata.getD []).length ≤ _; omega
    · intro kv hkv
      have := d4 kv hkv
      omega
    · exact d5
    · show -2 ^ 63 ≤ (p.splitSize : Int) ∧ (p.splitSize : Int) < 2 ^ 63; omega
    · show -2 ^ 63 ≤ (p.mergeSize : Int) ∧ (p.mergeSize : Int) < 2 ^ 63; omega
    · show env.scores.length ≤ _; omega
    · show env.index.length ≤ _; omega
  · obtain ⟨x1, x2, x3⟩ := h.lists x hx
    have hs : GoodName ent.scores := by
      rcases e3 with e3 | e3 <;> rw [e3]
      · exact x1
      · exact n1
    have hi : GoodName ent.index := by rw [e4]; exact n2
    obtain ⟨y1, y2, y3, y4, y5, y6, y7, y8, y9⟩ := x3
    have l1 := hs.length
    have l2 := hi.length
    refine ⟨hs, hi, ⟨y1, y2, y3, y4, y5, ?_, ?_, ?_, ?_⟩⟩
    · show -2 ^ 63 ≤ (ent.splitSize : Int) ∧ (ent.splitSize : Int) < 2 ^ 63; rw [e2]; exact y6
    · show -2 ^ 63 ≤ (ent.mergeSize : Int) ∧ (ent.mergeSize : Int) < 2 ^ 63; rw [e1]; exact y7
    · show ent.scores.length ≤ _; omega
    · show ent.index.length ≤ _; omega

theorem handle_names {env : Env} {db : Db} {r : Request} (hg : Good db) (h : AllFit db) (ha : Asks env db r) :
    ∀ w, Effect.blob w ∈ (handle env db r).2 → GoodName w.parent := by
  intro w hw
  rcases handle_own hg ha.fits _ hw with e | e | ⟨x, hx, -, hn⟩
  · rw [e]; exact ha.names.1
  · rw [e]; exact ha.names.2
  · simp only [Spec.names, List.mem_cons, List.not_mem_nil, or_false] at hn
    rcases hn with e | e <;> rw [e]
    · exact (h.lists x hx).scores
    · exact (h.lists x hx).index

theorem fit_effects {env : Env} {db : Db} {r : Request} (hg : Good db) (h : AllFit db) (ha : Asks env db r) {es : List Effect}
    (hes : ∀ e ∈ es, e ∈ (handle env db r).2) : AllFit (Server.applyAll db es) := by
  have h1 := applyAll_entries (P := EntryFits) (es := es) h.lists h.file fun l hl => handle_entries h ha l (hes _ hl)
  exact ⟨inBounds_effects hg h.bounds ha.fits ha.allowed ha.room hes, h1.1, h1.2⟩

theorem represents_effects {c : Setup} {env : Env} {F : Files} {db : Db} {r : Request} (hg : Good db) (h : AllFit db)
    (hr : Represents c F db) (ha : Asks env db r) {es : List Effect} (hes : ∀ e ∈ es, e ∈ (handle env db r).2) :
    Represents c (applyAll c F es) (Server.applyAll db es) :=
  represents_applyAll hr
    (fun w hw => ⟨handle_fits hg h.bounds.store ha.fits ha.allowed ha.room w (hes _ hw), handle_names hg h ha w (hes _ hw)⟩)
    (fun l hl => handle_entries h ha l (hes _ hl)) h.lists hg.ids

theorem represents_same {c : Setup} {F : Files} {db : Db} (hr : Represents c F db) (h : ∀ l ∈ db.lists, EntryFits l) (id : Str) :
    SameFor F.db db id := by
  refine ⟨by show byID F.lists id = _; rw [hr.lists], fun l hl n hn => hr.blobs n ?_⟩
  have hm := (byID_mem hl).1
  simp only [Spec.names, List.mem_cons, List.not_mem_nil, or_false] at hn
  rcases hn with e | e <;> rw [e]
  · exact (h l hm).scores
  · exact (h l hm).index

theorem represents_handle {c : Setup} {env : Env} {F : Files} {db : Db} {r : Request} (hr : Represents c F db)
    (h : ∀ l ∈ db.lists, EntryFits l) : handle env F.db r = handle env db r :=
  handle_congr fun id _ => represents_same hr h id

theorem represents_ask {c : Setup} {sch : Sched} {F : Files} {db : Db} {q : Query} (hr : Represents c F db)
    (h : ∀ l ∈ db.lists, EntryFits l) : ask sch F.db q = ask sch db q := by
  cases hq : Query.list? q with
  | some id => exact ask_congr hq (represents_same hr h id)
  | none =>
    cases q with
    | page =>
      simp only [ask, catalogue]
      rw [show F.db.lists = db.lists from hr.lists]
    | _ => cases hq

theorem represents_start {c : Setup} {F : Files} {db : Db} (hr : Represents c F db) :
    ∃ G, start c F = some G ∧ Represents c G (started db) := by
  have hf := hr.file
  unfold start
  unfold FileIs at hf
  cases hb : F.blobs Keys.listStorageKey with
  | none =>
    rw [hb] at hf
    dsimp only at hf
    refine ⟨_, rfl, ⟨?_, hr.blobs, ?_⟩⟩
    · show [] = db.file.map withMetadata; rw [hf]; rfl
    · show FileIs c (F.blobs Keys.listStorageKey) db.file; exact hr.file
  | some x =>
    rw [hb] at hf
    dsimp only at hf ⊢
    rw [hf]
    refine ⟨_, rfl, ⟨?_, hr.blobs, hr.file⟩⟩
    show List.map listingOf (List.map _ (List.map recOf db.file)) = db.file.map withMetadata
    rw [List.map_map, List.map_map]
    apply List.map_congr_left
    intro l _
    exact listingOf_stored

theorem withMetadata_fits {l : Listing} (h : EntryFits l) : EntryFits (withMetadata l) := by
  obtain ⟨h1, h2, y1, y2, y3, y4, y5, y6, y7, y8, y9⟩ := h
  exact ⟨h1, h2, y1, y2, y3, y4, y5, y6, y7, y8, y9⟩

theorem started_fit {db : Db} (h : AllFit db) : AllFit (started db) := by
  refine ⟨⟨h.bounds.store, ?_, h.bounds.file⟩, ?_, h.file⟩
  · intro l hl
    obtain ⟨x, hx, rfl⟩ := List.mem_map.1 hl
    exact h.bounds.file x hx
  · intro l hl
    obtain ⟨x, hx, rfl⟩ := List.mem_map.1 hl
    exact withMetadata_fits (h.file x hx)

end RankDB.Files

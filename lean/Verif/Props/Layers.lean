import Verif.Proofs.Layers
import Verif.Props.MaxSize
/-
Property C82: the configured storage, with all its layers.
-/
namespace RankDB
namespace Layers
open Wire Spec.Layers
open MaxSize (Store Err)

theorem plain_distinct : Distinct PlainKey := by
  intro s k s' k' hk hk' h
  exact Keys.split_last h hk.1 hk'.1

theorem plain_part {s k : Str} (h : PlainKey s k) (i : Nat) : (47 : UInt8) ∉ MaxSize.partKey k i := by
  unfold MaxSize.partKey
  split
  · exact h.1
  · intro hm
    rcases List.mem_append.1 hm with hm | hm
    · exact h.1 hm
    · rcases List.mem_cons.1 hm with hm | hm
      · revert hm; decide
      · exact Keys.not_mem_of_range (Keys.itoa_range _) (by decide) hm

/-- Blobs that a storage refuses as too big. -/
def TooBig : Storage → Bytes → Prop
  | .memory, b => 2 ^ 20 < b.length
  | .aerospike writeBlock, b => 65534 * ((if writeBlock = 0 then 2 ^ 20 else writeBlock) - 1024) < b.length + 3
  | _, _ => False

theorem keeps_aero {writeBlock : Nat} (h : BlockOK (.aerospike writeBlock)) :
    Keeps ⟨false, true⟩ PlainKey (newBlobstore (.aerospike writeBlock))
      (SizeInv ((if writeBlock = 0 then 2 ^ 20 else writeBlock) - 1024) (L := aerospike) fun st m => st = m)
      (TooBig (.aerospike writeBlock)) := by
  have hmax : 1024 ≤ (if writeBlock = 0 then 2 ^ 20 else writeBlock) - 1024 ∧
      (if writeBlock = 0 then 2 ^ 20 else writeBlock) - 1024 ≤ 2 ^ 20 := by
    have h : writeBlock = 0 ∨ (2048 ≤ writeBlock ∧ writeBlock ≤ 2 ^ 20 + 1024) := h
    split <;> omega
  have := keeps_maxSize (sim_aero fun _ _ => True) (fun _ ⟨_, hc⟩ => size_aero hc) (by omega) (fun b hb hx => by omega)
    Props.C38_keys (fun s k (hk : PlainKey s k) => hk.2) (fun _ _ _ _ => trivial) (max := (if writeBlock = 0 then 2 ^ 20 else writeBlock) - 1024)
  have e : (fun b => 65535 ≤ MaxSize.total ((if writeBlock = 0 then 2 ^ 20 else writeBlock) - 1024) b) = TooBig (.aerospike writeBlock) := by
    funext b
    rw [MaxSize.total_tight (by omega)]
    rfl
  rw [e] at this
  exact this

theorem keeps_configured {storage : Storage} (h : BlockOK storage) (retries : Bool) :
    ∃ I, Keeps (kindOf storage) PlainKey (configured storage retries) I (TooBig storage) := by
  have hnew : ∃ I, Keeps (kindOf storage) PlainKey (newBlobstore storage) I (TooBig storage) := by
    cases storage with
    | badger =>
      refine ⟨_, sim_keeps (sim_badger plain_distinct) ?_⟩
      rintro st s k b r st' - ⟨f, hf, hc⟩
      refine ⟨fun hr => ?_, False.elim⟩
      rw [hr] at hc
      have hc := congrArg Prod.fst hc
      simp only [badgerCall] at hc
      split at hc <;> cases hc
    | bolt => exact ⟨_, sim_keeps (sim_bolt _) (fun _ ⟨_, hc⟩ => size_bolt hc)⟩
    | memory => exact ⟨_, sim_keeps (sim_memory plain_distinct) (fun _ hc => size_memory hc)⟩
    | aerospike writeBlock => exact ⟨_, keeps_aero h⟩
  obtain ⟨I, hI⟩ := hnew
  cases retries
  · exact ⟨I, hI⟩
  · exact ⟨I, keeps_retry hI⟩

end Layers

namespace Props
open RankDB.Layers Spec.Layers Wire
open MaxSize (Store Err)

/-- Every configured storage, with or without retries, every history of calls and restarts on a new storage, with any
failures: reads are answered with what was acknowledged. -/
theorem C82_stack (storage : Storage) (retries : Bool) (hb : BlockOK storage) (h : List Event)
    (st : (configured storage retries).State) (hh : Hist (configured storage retries) (configured storage retries).init h st)
    (hu : Uses PlainKey h) : Consistent (kindOf storage) h := by
  obtain ⟨I, hI⟩ := keeps_configured hb retries
  exact hI.consistent hh hu

/-- DynamoDB, which the server cannot be configured to use but the package offers: a read gives a failure, that there
is no blob, or a blob that was written with this key before. Not more, see `C82_dynamo_stale`. -/
theorem C82_dynamo (tables : Str → Bool) (h : List Event) (st : (dynamo tables).State)
    (hh : Hist (dynamo tables) (dynamo tables).init h st) (before behind : List Event) (s k : Str) (r : Ret)
    (he : h = before ++ .call (.get s k) r :: behind) :
    r = .err .store ∨ r = .err .notFound ∨ ∃ b r', r = .blob b ∧ .call (.set s k b) r' ∈ before := by
  have key : ∀ (h : List Event) (st0 st : (dynamo tables).State) (past : List Event), Hist (dynamo tables) st0 h st →
      (∀ m ∈ st0.1 :: st0.2, ∀ s k b, (m s).bind (· k) = some b → ∃ r', .call (.set s k b) r' ∈ past) →
      ∀ before behind s k r, h = before ++ .call (.get s k) r :: behind →
      r = .err .store ∨ r = .err .notFound ∨ ∃ b r', r = .blob b ∧ .call (.set s k b) r' ∈ past ++ before := by
    intro h st0 st past hh
    induction hh generalizing past with
    | nil => intro _ before behind s k r he; cases before <;> cases he
    | @call s0 c r0 s1 es s' hc _ ih =>
      intro hinv before behind s k r he
      cases before with
      | nil =>
        cases he
        obtain ⟨-, fate, m, hm, hg⟩ := hc
        rcases dynamo_get hg with h1 | h1 | ⟨b, h1, h2⟩
        · exact .inl h1
        · exact .inr (.inl h1)
        · obtain ⟨r', hr'⟩ := hinv m hm s k b h2
          exact .inr (.inr ⟨b, r', h1, by simp [hr']⟩)
      | cons e before =>
        cases he
        have hinv1 : ∀ m ∈ s1.1 :: s1.2, ∀ s k b, (m s).bind (· k) = some b → ∃ r', .call (.set s k b) r' ∈ past ++ [.call c r0] := by
          intro m hm s k b hb
          cases c with
          | get s' k' =>
            obtain ⟨rfl, -⟩ := hc
            obtain ⟨r', hr'⟩ := hinv m hm s k b hb
            exact ⟨r', by simp [hr']⟩
          | set s' k' v =>
            obtain ⟨h2, fate, h1⟩ := hc
            rcases List.mem_cons.1 hm with rfl | hm
            · rcases dynamo_blob h1 hb with h3 | h3
              · obtain ⟨r', hr'⟩ := hinv s0.1 (by simp) s k b h3
                exact ⟨r', by simp [hr']⟩
              · exact ⟨r0, by simp [h3]⟩
            · rw [h2] at hm
              obtain ⟨r', hr'⟩ := hinv m hm s k b hb
              exact ⟨r', by simp [hr']⟩
          | delete s' k' =>
            obtain ⟨h2, fate, h1⟩ := hc
            rcases List.mem_cons.1 hm with rfl | hm
            · rcases dynamo_blob h1 hb with h3 | h3
              · obtain ⟨r', hr'⟩ := hinv s0.1 (by simp) s k b h3
                exact ⟨r', by simp [hr']⟩
              · cases h3
            · rw [h2] at hm
              obtain ⟨r', hr'⟩ := hinv m hm s k b hb
              exact ⟨r', by simp [hr']⟩
        have := ih (past ++ [.call c r0]) hinv1 before behind s k r rfl
        simpa using this
    | @restart s0 s1 es s' hr _ ih =>
      intro hinv before behind s k r he
      cases before with
      | nil => cases he
      | cons e before =>
        cases he
        cases hr
        have := ih (past ++ [.restart]) (fun m hm s k b hb => by
          obtain ⟨r', hr'⟩ := hinv m hm s k b hb
          exact ⟨r', by simp [hr']⟩) before behind s k r rfl
        simpa using this
  have := key h _ st [] hh (fun m hm s k b hb => by
    rcases List.mem_cons.1 hm with rfl | hm
    · simp only [dynamo] at hb
      split at hb <;> cases hb
    · cases hm) before behind s k r he
  simpa using this

/-- The driver for DynamoDB can read a value that was overwritten, although the new one was acknowledged: it does not
ask for consistent reads. -/
theorem C82_dynamo_stale : ∃ h : List Event, ∃ st, Hist (dynamo fun _ => true) (dynamo fun _ => true).init h st ∧
    ¬Consistent ⟨false, false⟩ h := by
  let t (v : Bytes) : Buckets := fun x => if x = [97] then some fun y => if y = [98, 99] then some v else none else some fun _ => none
  let t2 : Buckets := fun x => if x = [97] then some fun y => if y = [98, 99] then some [2] else if y = [98, 99] then some [1] else none
    else t [1] x
  let e : Buckets := fun _ => some fun _ => none
  refine ⟨[.call (.set [97] [98, 99] [1]) .done, .call (.set [97] [98, 99] [2]) .done, .call (.get [97] [98, 99]) (.blob [1])],
    (t2, [t [1], e]), ?_, ?_⟩
  · refine .call (s1 := (t [1], [e])) ⟨rfl, .ok, rfl⟩ (.call (s1 := (t2, [t [1], e])) ⟨rfl, .ok, rfl⟩ (.call ⟨rfl, .ok, t [1], by simp, rfl⟩ .nil))
  · intro hc
    have := hc [.call (.set [97] [98, 99] [1]) .done, .call (.set [97] [98, 99] [2]) .done] [97] [98, 99] (.blob [1]) [] rfl
    have hk : known ⟨false, false⟩ [.call (.set [97] [98, 99] [1]) .done, .call (.set [97] [98, 99] [2]) .done] [97] [98, 99] =
      some [some [2]] := by decide
    rw [hk] at this
    rcases this with ⟨b, h1, h2⟩ | ⟨h1, -⟩ | h1
    · cases h1
      simp at h2
    · cases h1
    · cases h1

/-- What this means for a value that was acknowledged: as long as the key is not written or deleted, reads return the
value or report a failure; never another value, and never that there is none. Restarts in between do no harm, unless the
storage is volatile. -/
theorem C82_acknowledged (kind : Kind) (h : List Event) (hc : Consistent kind h) (s k : Str) (b : Bytes)
    (before between behind : List Event) (r : Ret)
    (hh : h = before ++ .call (.set s k b) .done :: (between ++ .call (.get s k) r :: behind))
    (hset : ∀ b' r', .call (.set s k b') r' ∉ between) (hdel : ∀ r', .call (.delete s k) r' ∉ between)
    (hvol : kind.volatile = true → .restart ∉ between) : r = .blob b ∨ r = .err .store := by
  have key : ∀ (es : List Event) (v : Known), (v = some [some b]) →
      (∀ b' r', .call (.set s k b') r' ∉ es) → (∀ r', .call (.delete s k) r' ∉ es) → (kind.volatile = true → .restart ∉ es) →
      (∀ es1 r' es2, es = es1 ++ .call (.get s k) r' :: es2 → Answers (es1.foldl (after kind s k) v) r') →
      es.foldl (after kind s k) v = some [some b] := by
    intro es
    induction es with
    | nil => intro v hv _ _ _ _; exact hv
    | cons e es ih =>
      intro v hv h1 h2 h3 h4
      refine ih _ ?_ (fun b' r' hm => h1 b' r' (List.mem_cons_of_mem _ hm)) (fun r' hm => h2 r' (List.mem_cons_of_mem _ hm))
        (fun hv hm => h3 hv (List.mem_cons_of_mem _ hm)) (fun es1 r' es2 he => h4 (e :: es1) r' es2 (by rw [he]; rfl))
      subst hv
      cases e with
      | restart =>
        simp only [after]
        rw [if_neg (fun hv => h3 hv List.mem_cons_self)]
      | call c r' =>
        simp only [after]
        split
        · rename_i he
          obtain ⟨rfl, rfl⟩ := he
          cases c with
          | set s k b' => exact absurd List.mem_cons_self (h1 b' r')
          | delete s k => exact absurd List.mem_cons_self (h2 r')
          | get s k =>
            have ha := h4 [] r' es rfl
            rcases ha with ⟨x, rfl, hx⟩ | ⟨rfl, hx⟩ | rfl
            · simp only [List.mem_cons, Option.some.injEq, List.not_mem_nil, or_false] at hx
              subst hx; rfl
            · simp at hx
            · rfl
        · rfl
  have hsplit : ∀ es1 r' es2, between ++ .call (.get s k) r :: behind = es1 ++ .call (.get s k) r' :: es2 →
      Answers (es1.foldl (after kind s k) (some [some b])) r' := by
    intro es1 r' es2 he
    have := hc (before ++ .call (.set s k b) .done :: es1) s k r' es2 (by rw [hh, he]; simp)
    unfold known at this
    rw [List.foldl_append, List.foldl_cons] at this
    have hset : ∀ v, after kind s k v (.call (.set s k b) .done) = some [some b] := by
      intro v; simp [after, Call.inSet, Call.key]
    rw [hset] at this
    exact this
  have hlast := hsplit between r behind rfl
  rw [key between _ rfl hset hdel hvol (fun es1 r' es2 he => hsplit es1 r' (es2 ++ .call (.get s k) r :: behind) (by rw [he]; simp))] at hlast
  rcases hlast with ⟨x, rfl, hx⟩ | ⟨rfl, hx⟩ | rfl
  · simp only [List.mem_cons, Option.some.injEq, List.not_mem_nil, or_false] at hx
    exact .inl (by rw [hx])
  · simp at hx
  · exact .inr rfl

/-- All keys of segment tables, segments and list files are plain, and long enough for every storage. -/
theorem C82_keys_used (set : Str) (rnd : List UInt8) (t id : Nat) :
    (PlainKey set (Keys.randString rnd t) ∧ 2 ≤ (Keys.randString rnd t).length) ∧
      (PlainKey set (Keys.storageKey (Keys.randString rnd t) id) ∧ 2 ≤ (Keys.storageKey (Keys.randString rnd t) id).length) ∧
      (PlainKey set Keys.listStorageKey ∧ 2 ≤ Keys.listStorageKey.length) ∧
      (PlainKey set Keys.backupListStorageKey ∧ 2 ≤ Keys.backupListStorageKey.length) := by
  have h := C38_keys_used rnd t id
  have h1 : (47 : UInt8) ∉ Keys.randString rnd t := by
    intro hm
    have := C42_generated_ids rnd t 47 hm
    revert this
    unfold Keys.Alnum
    decide
  have hl : 2 ≤ (Keys.randString rnd t).length := by
    simp only [Keys.randString, List.length_map, List.length_append, Keys.timeDigits_length]; omega
  refine ⟨⟨⟨h1, h.1⟩, hl⟩, ⟨⟨?_, h.2.1⟩, ?_⟩, ⟨⟨by decide, h.2.2⟩, by decide⟩, ⟨⟨by decide, by decide⟩, by decide⟩⟩
  · unfold Keys.storageKey
    intro hm
    rcases List.mem_append.1 hm with hm | hm
    · exact h1 hm
    · rcases List.mem_cons.1 hm with hm | hm
      · revert hm; decide
      · exact Keys.not_mem_of_range (Keys.pad6_range id) (by decide) hm
  · simp only [Keys.storageKey, List.length_append]; omega

/-- A write is refused as too big depending on the size of the blob alone: above 1 MiB in memory, above 65534 write
blocks (less 1024 bytes each) in Aerospike, never in the others. -/
theorem C82_too_big (storage : Storage) (retries : Bool) (hb : BlockOK storage) (s k : Str) (hk : PlainKey s k) (b : Bytes) (r : Ret)
    (st st' : (configured storage retries).State) (hc : (configured storage retries).call st (.set s k b) r st') :
    r = .err .tooBig ↔
      match storage with
      | .memory => 2 ^ 20 < b.length
      | .aerospike writeBlock => 65534 * ((if writeBlock = 0 then 2 ^ 20 else writeBlock) - 1024) < b.length + 3
      | _ => False := by
  obtain ⟨I, hI⟩ := keeps_configured hb retries
  have := hI.size hk hc
  cases storage <;> exact this

/-! ### What the configuration does not give -/

/-- The memory storage also refuses keys of less than two bytes, as a failure that is retried for nothing. -/
theorem C82_short_key (st st' : memory.State) (s k : Str) (b : Bytes) (r : Ret) (hk : k.length < 2)
    (hc : Attempts memory (.set s k b) st r st') : (r = .err .store ∨ r = .err .tooBig) ∧ st' = st := by
  have one : ∀ (m m' : Str → Option Bytes) r, (r, m') = memCall m (.set s k b) → (r = .err .store ∨ r = .err .tooBig) ∧ m' = m := by
    intro m m' r h
    simp only [memCall] at h
    split at h
    · simp only [Prod.mk.injEq] at h; exact ⟨.inr h.1, h.2⟩
    · simp only [Prod.mk.injEq] at h; exact ⟨.inl h.1, h.2⟩
  induction hc with
  | last h => exact one _ _ _ h
  | again h _ _ ih =>
    have := one _ _ _ h
    exact ⟨ih.1, ih.2.trans this.2⟩

/-- In memory, a key with a slash is the same key as one in another set. -/
theorem C82_slash_collision : ∃ h : List Event, ∃ st, Hist memory memory.init h st ∧ ¬Consistent ⟨true, false⟩ h := by
  refine ⟨[.call (.set [97] [98, 47, 99, 99] [1]) .done, .call (.get [97, 47, 98] [99, 99]) (.blob [1])], _,
    .call rfl (.call rfl .nil), ?_⟩
  intro hc
  have := hc [.call (.set [97] [98, 47, 99, 99] [1]) .done] [97, 47, 98] [99, 99] (.blob [1]) [] rfl
  have hk : known ⟨true, false⟩ [.call (.set [97] [98, 47, 99, 99] [1]) .done] [97, 47, 98] [99, 99] = some [none] := by decide
  rw [hk] at this
  rcases this with ⟨b, -, hx⟩ | ⟨hx, -⟩ | hx
  · simp at hx
  · cases hx
  · cases hx

/-- In memory, acknowledged values are gone after a restart. -/
theorem C82_volatile (retries : Bool) : ∃ st, Hist (configured .memory retries) (configured .memory retries).init
    [.call (.set [97] [98, 99] [1]) .done, .restart, .call (.get [97] [98, 99]) (.err .notFound)] st := by
  have h1 : ((.done, (memCall (fun _ => none) (.set [97] [98, 99] [1])).2) : Ret × (Str → Option Bytes)) =
      memCall (fun _ => none) (.set [97] [98, 99] [1]) := rfl
  have h2 : ((.err .notFound, fun _ => none) : Ret × (Str → Option Bytes)) = memCall (fun _ => none) (.get [97] [98, 99]) := rfl
  cases retries
  · exact ⟨_, .call h1 (.restart rfl (.call h2 .nil))⟩
  · exact ⟨_, .call (.last h1) (.restart rfl (.call (.last h2) .nil))⟩

/-- In Aerospike an acknowledged deletion may not have happened, and retries do not help: the failed reading of the
header is below them. So `torn` in `C82_stack` is needed. -/
theorem C82_delete_ignored : ∃ h : List Event, ∃ st, Hist (configured (.aerospike 0) true) (configured (.aerospike 0) true).init h st ∧
    ¬Consistent ⟨false, false⟩ h := by
  let c1 : Call := .set [97] [98, 99] [1]
  let h1 : List Event := [.call c1 .done, .call (.delete [97] [98, 99]) .done]
  let m1 : Store := Store.put (fun _ _ => none) [97] [98, 99] (some [0, 1])
  refine ⟨h1 ++ [.call (.get [97] [98, 99]) (.blob [1])], (m1, MaxSize.setCount (fun _ => 0) (MaxSize.mapKey [97] [98, 99]) 0), ?_, ?_⟩
  · refine .call (s1 := (m1, MaxSize.setCount (fun _ => 0) (MaxSize.mapKey [97] [98, 99]) 0)) (.last ?_)
      (.call (s1 := (m1, MaxSize.setCount (fun _ => 0) (MaxSize.mapKey [97] [98, 99]) 0)) (.last ?_) (.call (.last ?_) .nil))
    · exact ⟨none, .call (s1 := m1) (r := .done) ⟨.ok, rfl⟩ .ret, rfl, rfl⟩
    · exact ⟨none, false, .call (s1 := m1) (r := .err .store) ⟨.failed, rfl⟩ .ret, rfl, rfl⟩
    · refine ⟨some 0, .ok [1], .call (s1 := m1) (r := .blob [0, 1]) ⟨.ok, rfl⟩ .ret, rfl, ?_⟩
      funext x
      simp only [MaxSize.setCount]
      split <;> rfl
  · intro hc
    have := hc h1 [97] [98, 99] (.blob [1]) [] rfl
    have hk : known ⟨false, false⟩ h1 [97] [98, 99] = some [none] := by decide
    rw [hk] at this
    rcases this with ⟨b, -, hx⟩ | ⟨hx, -⟩ | hx
    · simp at hx
    · cases hx
    · cases hx

/-- With write blocks above 1 MiB + 1024 bytes, all blobs above 1 MiB are refused: the parts are then too big for
the driver. So `BlockOK` in `C82_too_big` is needed. -/
theorem C82_block_size (writeBlock : Nat) (hw : 2 ^ 20 + 1024 < writeBlock) (s k : Str) (b : Bytes) (hb : 2 ^ 20 < b.length)
    (r : Ret) (st st' : (newBlobstore (.aerospike writeBlock)).State)
    (hc : (newBlobstore (.aerospike writeBlock)).call st (.set s k b) r st') : r = .err .tooBig := by
  obtain ⟨x, h1, rfl, -⟩ := hc
  rw [if_neg (by omega)] at h1
  generalize hmax : writeBlock - 1024 = max at h1
  have key : ∀ (old : Nat) (a a' : aerospike.State), Runs aerospike (setP max old s k b) a x a' → x = some .tooBig := by
    intro old a a' h1
    unfold setP at h1
    split at h1
    · cases h1; rfl
    · obtain ⟨st1, h2⟩ := deleteExtra_runs h1
      have hp := MaxSize.total_pos (show 0 < max by omega) b
      generalize hc : MaxSize.total max b = c at h2
      rw [hc] at hp
      cases c with
      | zero => omega
      | succ c =>
        cases h2 with
        | call h3 h4 =>
          obtain ⟨fate, h3⟩ := h3
          have hr := (size_aero h3).2 (by simp only [List.length_take, List.length_append]; omega)
          rw [hr] at h4
          cases h4; rfl
  rw [key _ _ _ h1]

/-! ### Non-vacuity -/

/-- Bolt with a write that failed late, a restart and a retried read. -/
def exBolt : List Event :=
  [.call (.set [97] [98, 99] [1]) .done, .call (.set [97] [98, 99] [2]) (.err .store), .restart,
    .call (.get [97] [98, 99]) (.blob [2])]

example : ∃ st, Hist (configured .bolt true) (configured .bolt true).init exBolt st := by
  refine ⟨_, .call (s1 := (boltCall .ok (fun _ => none) (.set [97] [98, 99] [1])).2) (.last ⟨.ok, rfl⟩)
    (.call (s1 := (boltCall .late (boltCall .ok (fun _ => none) (.set [97] [98, 99] [1])).2 (.set [97] [98, 99] [2])).2)
      (.last ⟨.late, rfl⟩) (.restart rfl (.call (.again (e := .store) ⟨.failed, rfl⟩ rfl (.last ⟨.ok, rfl⟩)) .nil)))⟩

example : Uses PlainKey exBolt := by
  intro c r h
  simp only [exBolt, List.mem_cons, Event.call.injEq, List.not_mem_nil, or_false, reduceCtorEq, false_or] at h
  rcases h with ⟨rfl, -⟩ | ⟨rfl, -⟩ | ⟨rfl, -⟩ <;> exact ⟨by decide, by decide⟩

example : known (kindOf .bolt) (exBolt.take 3) [97] [98, 99] = some [some [2], some [1]] := by decide

example : BlockOK (.aerospike 0) ∧ BlockOK (.aerospike (2 ^ 20)) ∧ ¬BlockOK (.aerospike 1024) := by
  refine ⟨.inl rfl, .inr (by decide), ?_⟩
  rintro (h | h) <;> revert h <;> decide

end Props
end RankDB

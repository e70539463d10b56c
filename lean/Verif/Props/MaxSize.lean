import Verif.Proofs.MaxSize
/-
Property C38: the store with a size limit.
-/
namespace RankDB
namespace Props
open RankDB.MaxSize Spec.MaxSize Keys Wire

/-- Every history of calls on a new store, with any failures of the store below and any restarts: a `Get` answers
with the last blob set for its key, or that there is none, unless the last call that changed the key or the `Get`
itself failed in the store below. No key may be the key of a further part of another one. -/
theorem C38_map_partial (max : Nat) (hm : 1024 ≤ max) (K : Str → Prop) (hK : Separate K) (ops : List Op)
    (ho : ∀ o ∈ ops, ∀ k, opKey o = some k → K k) (before behind : List (Op × Res)) (f : Nat → Bool) (s k : Str)
    (r : Except Err Bytes) (hrun : run max empty ops = before ++ (.get f s k, .blob r) :: behind) :
    Answers (last before s k) r := by
  have hlen : ∀ st os, (run max st os).map (·.1) = os := by
    intro st os
    induction os generalizing st with
    | nil => rfl
    | cons o os ih => simp only [run, List.map_cons, ih]
  have e := hlen empty ops
  rw [hrun, List.map_append, List.map_cons] at e
  rw [← e, run_append] at hrun
  have hl : (run max empty (before.map (·.1))).length = before.length := by
    have := congrArg List.length (hlen empty (before.map (·.1)))
    simpa using this
  obtain ⟨h1, h2⟩ := List.append_inj hrun hl
  simp only [run, List.cons.injEq, Prod.mk.injEq, true_and, step, Res.blob.injEq] at h2
  have hk : K k := ho (.get f s k) (by rw [← e]; simp) k rfl
  have := run_rep hK (max := max) (s := s) hk (before.map (·.1)) empty (.is none)
    (fun o h => ho o (by rw [← e]; simp only [List.mem_append]; exact Or.inl h)) rfl
  rw [h1] at this
  rw [← h2.1]
  exact get_rep (by omega) this f

/-- Keys without `+`, such as all keys used by the database, do not interfere. -/
theorem C38_keys : Separate (fun k => (43 : UInt8) ∉ k) := by
  intro k k' n hk hk' h
  exact hk (by rw [h]; simp)

/-- All keys of segment tables, segments and list files are without `+`. -/
theorem C38_keys_used (rnd : List UInt8) (t id : Nat) :
    (43 : UInt8) ∉ randString rnd t ∧ (43 : UInt8) ∉ storageKey (randString rnd t) id ∧
      (43 : UInt8) ∉ listStorageKey := by
  have h1 : (43 : UInt8) ∉ randString rnd t := by
    intro h
    have := C42_generated_ids rnd t 43 h
    revert this
    unfold Alnum
    decide
  refine ⟨h1, ?_, by decide⟩
  unfold storageKey
  intro h
  rcases List.mem_append.1 h with h | h
  · exact h1 h
  · rcases List.mem_cons.1 h with h | h
    · revert h; decide
    · exact not_mem_of_range (pad6_range id) (by decide) h

/-- No blob above the limit is ever stored: every history, every failure. -/
theorem C38_part_size (max : Nat) (ops : List Op) (s k : Str) (b : Bytes)
    (h : (final max empty ops).store s k = some b) : b.length ≤ max := by
  have : ∀ st, Small max st.store → Small max (final max st ops).store := by
    clear h
    induction ops with
    | nil => exact fun st h => h
    | cons o os ih => exact fun st h => ih _ (small_step st o h)
  exact this empty (by intro s k b h; simp [empty] at h) s k b h

/-- A blob is rejected as too big exactly when more than 65534 parts were needed for it with its header, and then
nothing changes. -/
theorem C38_too_big (max : Nat) (hm : 0 < max) (g f : Nat → Bool) (late : Bool) (st : State) (s k : Str) (b : Bytes) :
    ((MaxSize.set max g f late st s k b).2 = .error .tooBig ↔ 65534 * max < b.length + 3) ∧
      ((MaxSize.set max g f late st s k b).2 = .error .tooBig → (MaxSize.set max g f late st s k b).1 = st) := by
  refine ⟨?_, set_tooBig⟩
  rw [← total_tight hm b]
  unfold MaxSize.set
  split
  · simp [*]
  · dsimp only
    rename_i h
    split <;> simp [h]

/-- Every blob within the limit is accepted when the store below does not fail. -/
theorem C38_accepted (max : Nat) (hm : 0 < max) (g f : Nat → Bool) (late : Bool) (hf : ∀ i, f i = true) (st : State) (s k : Str)
    (b : Bytes) (h : b.length + 3 ≤ 65534 * max) : (MaxSize.set max g f late st s k b).2 = .ok () := by
  have : ¬65535 ≤ total max b := by
    rw [total_tight hm b]
    omega
  unfold MaxSize.set
  rw [if_neg this]
  dsimp only
  rw [if_pos (setParts_ok hf _ _ _ _ _ _)]

/-- Blobs of different sets or keys do not share an entry of the cache of part counts, if sets have no slash. -/
theorem mapKey_inj {s k s' k' : Str} (hs : (47 : UInt8) ∉ s) (hs' : (47 : UInt8) ∉ s')
    (h : mapKey s k = mapKey s' k') : s = s' ∧ k = k' := by
  unfold mapKey at h
  induction s generalizing s' with
  | nil =>
    cases s' with
    | nil => simpa using h
    | cons c s' =>
      rw [List.nil_append, List.cons_append, List.cons.injEq] at h
      exact absurd (h.1 ▸ List.mem_cons_self ..) hs'
  | cons c s ih =>
    cases s' with
    | nil =>
      rw [List.nil_append, List.cons_append, List.cons.injEq] at h
      exact absurd (h.1 ▸ List.mem_cons_self ..) hs
    | cons c' s' =>
      rw [List.cons_append, List.cons_append, List.cons.injEq] at h
      obtain ⟨h1, h2⟩ := ih (fun hm => hs (List.mem_cons_of_mem _ hm)) (fun hm => hs' (List.mem_cons_of_mem _ hm)) h.2
      exact ⟨by rw [h.1, h1], h2⟩

/-- Without failures and restarts nothing is left over: everything stored is one of the parts of a blob that is
set at the end. The names of the sets are without `/`. -/
theorem C38_no_leftover (max : Nat) (hm : 1024 ≤ max) (P : Str → Str → Prop) (hK : Separate (fun k => ∃ s, P s k))
    (hset : ∀ s k, P s k → (47 : UInt8) ∉ s)
    (ops : List Op) (ho : ∀ o ∈ ops, Clean P o) (s key : Str) (x : Bytes)
    (hx : (final max empty ops).store s key = some x) :
    ∃ k b i, last (run max empty ops) s k = .is (some b) ∧ i < total max b ∧ key = partKey k i := by
  have hinj : ∀ s k s' k', P s k → P s' k' → mapKey s k = mapKey s' k' → s = s' ∧ k = k' :=
    fun s k s' k' h h' => mapKey_inj (hset s k h) (hset s' k' h')
  have main : ∀ (os : List Op) (st : State) (h : List (Op × Res)), (∀ o ∈ os, Clean P o) →
      (∀ s k, P s k → Exact max st s k (last h s k)) →
      (∀ s k, P s k → Exact max (final max st os) s k (last (h ++ run max st os) s k)) := by
    intro os
    induction os with
    | nil => intro st h _ hr; simpa [run, final] using hr
    | cons o os ih =>
      intro st h ho hr
      have := ih (step max st o).1 (h ++ [(o, (step max st o).2)]) (fun o' h' => ho o' (List.mem_cons_of_mem _ h'))
        (fun s k hk => by
          have := exact_step hK hinj (show 3 ≤ max by omega) (ho o (List.mem_cons_self ..)) hk (hr s k hk)
          simpa [last] using this)
      intro s k hk
      have := this s k hk
      rw [List.append_assoc] at this
      exact this
  have hother : ∀ (os : List Op) (st : State), (∀ o ∈ os, Clean P o) → (∀ k' i, P s k' → key ≠ partKey k' i) →
      st.store s key = none → (final max st os).store s key = none := by
    intro os
    induction os with
    | nil => exact fun st _ _ h => h
    | cons o os ih =>
      intro st ho hk h
      exact ih _ (fun o' h' => ho o' (List.mem_cons_of_mem _ h')) hk
        (other_step (ho o (List.mem_cons_self ..)) hk h)
  by_cases hp : ∃ k i, P s k ∧ key = partKey k i
  · obtain ⟨k, i, hk, rfl⟩ := hp
    have hex := main ops empty [] ho (fun s k _ => ⟨by simp [last], rfl, fun i _ => rfl, rfl⟩) s k hk
    rw [List.nil_append] at hex
    obtain ⟨h1, h2, h3, _⟩ := hex
    generalize hv : last (run max empty ops) s k = v at *
    cases v with
    | unknown => exact absurd rfl h1
    | is b =>
      have hi : i < count max (.is b) := by
        apply Decidable.byContradiction
        intro hn
        rw [h3 i (by omega)] at hx
        simp at hx
      cases b with
      | none => simp [count] at hi
      | some b => exact ⟨k, b, i, hv, hi, rfl⟩
  · have := hother ops empty ho (fun k' i hk' h => hp ⟨k', i, hk', h⟩) rfl
    rw [this] at hx
    simp at hx

/-! ### Where the property fails -/

/-- A blob of 1025 bytes, two parts with a limit of 1024. -/
def twoParts (c : UInt8) : Bytes := List.replicate 1025 c

/-- No operation on the store below fails. -/
def fine : Nat → Bool := fun _ => true

/-- The answer of a `Get` after calls. -/
def answer (ops : List Op) (s k : Str) : Except Err Bytes := (MaxSize.get fine (final 1024 empty ops) s k).2

instance {α : Type} [DecidableEq α] : DecidableEq (Except Err α) := fun a b =>
  match a, b with
  | .ok x, .ok y => if h : x = y then isTrue (by rw [h]) else isFalse (by simpa using h)
  | .error x, .error y => if h : x = y then isTrue (by rw [h]) else isFalse (by simpa using h)
  | .ok _, .error _ => isFalse (by simp)
  | .error _, .ok _ => isFalse (by simp)

/-- Keys can interfere: setting `k` to a blob of two parts overwrites the key `k+0`. -/
theorem C38_interference : answer [.set fine fine false [] [107, 43, 48] [1, 2]] [] [107, 43, 48] = .ok [1, 2] ∧
    answer [.set fine fine false [] [107, 43, 48] [1, 2], .set fine fine false [] [107] (twoParts 7)] [] [107, 43, 48] ≠
      .ok [1, 2] := by
  decide +kernel

/-- A `Set` that fails at the second part leaves a blob that was never set: the new first part and the old second
part, and reading it reports no error. -/
theorem C38_torn : ∃ b, answer [.set fine fine false [] [107] (twoParts 7), .set fine (fun i => i == 0) false [] [107] (twoParts 8)]
      [] [107] = .ok b ∧ b ≠ twoParts 7 ∧ b ≠ twoParts 8 ∧
    (MaxSize.set 1024 fine (fun i => i == 0) false (final 1024 empty [.set fine fine false [] [107] (twoParts 7)]) [] [107]
      (twoParts 8)).2 = .error .store :=
  ⟨List.replicate 1023 8 ++ [7, 7], by decide +kernel, by decide +kernel, by decide +kernel, by decide +kernel⟩

/-- A `Delete` whose reading of the header fails reports success, and the blob is still there. -/
theorem C38_delete_ignored :
    (MaxSize.delete (fun _ => false) false (final 1024 empty [.set fine fine false [] [107] [1, 2]]) [] [107]).2 = .ok () ∧
    answer [.set fine fine false [] [107] [1, 2], .delete (fun _ => false) false [] [107]] [] [107] = .ok [1, 2] :=
  ⟨by decide +kernel, by decide +kernel⟩

/-- After a restart a smaller blob leaves the old second part behind, and deleting the blob does not remove it. -/
theorem C38_leftover_after_restart :
    (final 1024 empty [.set fine fine false [] [107] (twoParts 7), .restart, .set fine fine false [] [107] [1],
      .delete fine false [] [107]]).store [] [107, 43, 48] ≠ none := by
  decide +kernel

/-- Non-vacuity of `C38_map_partial` and `C38_no_leftover`: two keys without `+`, one blob of two parts replaced by
a smaller one, another one deleted and one set again. -/
example : answer [.set fine fine false [] [107] (twoParts 7), .set fine fine false [] [108] (twoParts 9),
      .set fine fine false [] [107] [5], .delete fine false [] [108]] [] [107] = .ok [5] ∧
    answer [.set fine fine false [] [107] (twoParts 7), .set fine fine false [] [108] (twoParts 9)] [] [107] = .ok (twoParts 7) ∧
    answer [.set fine fine false [] [107] (twoParts 7), .set fine fine false [] [108] (twoParts 9),
      .set fine fine false [] [107] [5], .delete fine false [] [108]] [] [108] = .error .notFound ∧
    (43 : UInt8) ∉ ([107] : Str) := by
  decide +kernel

example : ∀ o ∈ [Op.set fine fine false [] [107] (twoParts 7), .set fine fine false [] [107] [5], .delete fine false [] [107]],
    Clean (fun s k => s = [] ∧ k = [107]) o := by
  intro o ho
  simp only [List.mem_cons, List.not_mem_nil, or_false] at ho
  rcases ho with rfl | rfl | rfl
  · exact ⟨fun _ => rfl, fun _ => rfl, rfl, rfl⟩
  · exact ⟨fun _ => rfl, fun _ => rfl, rfl, rfl⟩
  · exact ⟨fun _ => rfl, rfl, rfl⟩

end Props
end RankDB

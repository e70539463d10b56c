import Verif.Proofs.MaxConc
import Verif.Props.MaxSize
/-
Property C98: calls at the same time on the store with a size limit.
-/
namespace RankDB
namespace Props
open RankDB.MaxSize (State Res Op Err mapKey run final empty)
open RankDB.MaxSteps (Call Event Label Conc Prog Fate Thread execs start free)
open Spec.MaxSteps Wire
open Spec.MaxSize (Separate Answers)

private theorem good {P : Str → Str → Prop} (hK : Separate (fun k => ∃ s, P s k))
    (hset : ∀ s k, P s k → (47 : UInt8) ∉ s) : MaxSteps.Good P :=
  ⟨hK, fun s k s' k' h h' => mapKey_inj (hset s k h) (hset s' k' h')⟩

/-- Any number of calls at the same time, interleaved in any way, with any failures of the store below and the process
ending at any point: there is a history of calls, one after the other in the order in which they return, with the same
results. A call that was running when the process ended counts as a call some of whose operations failed. When no call
is running, the state is also the same. -/
theorem C98_serial (max : Nat) (P : Str → Str → Prop) (hK : Separate (fun k => ∃ s, P s k))
    (hset : ∀ s k, P s k → (47 : UInt8) ∉ s) (st : State) (ls : List Label) (hls : Calls P ls) (σ : Conc)
    (hx : execs max (start st) ls = some σ) :
    ∃ ops : List Op, Serial σ.log (run max st ops) ∧ (Quiet σ → final max st ops = σ.st) := by
  obtain ⟨ops, h1, -, h2⟩ := MaxSteps.inv_execs (good hK hset) ls hls (MaxSteps.inv_start max P st) hx
  refine ⟨ops, h1, fun hq => ?_⟩
  refine MaxSteps.same_of (fun s k hk => h2.idle s k hk ?_) h2.rest
  rw [MaxSteps.free_iff]
  intro i t ht hr
  rw [hq t (List.mem_of_getElem? ht)] at hr
  cases hr

/-- What calls to `Get` answer on a new store: what the last call for the key that has returned before determines, unless the store
below failed in one of the two, or the last one was running when the process ended. -/
theorem C98_answers (max : Nat) (hm : 1024 ≤ max) (P : Str → Str → Prop) (hK : Separate (fun k => ∃ s, P s k))
    (hset : ∀ s k, P s k → (47 : UInt8) ∉ s) (ls : List Label) (hls : Calls P ls) (σ : Conc)
    (hx : execs max (start empty) ls = some σ) (before behind : List Event) (s k : Str) (r : Except Err Bytes) (clean : Bool)
    (hlog : σ.log = before ++ .returned (.get s k) (.blob r) clean :: behind) :
    Answers (lastEvent before s k) r := by
  obtain ⟨ops, h1, hk, -⟩ := MaxSteps.inv_execs (good hK hset) ls hls (MaxSteps.inv_start max P empty) hx
  rw [hlog] at h1
  obtain ⟨os1, ⟨o, r'⟩, os2, he, hs, ⟨⟨f, rfl, -⟩, hr⟩, -⟩ := MaxSteps.serial_split h1
  cases hr
  exact MaxSteps.answers_le (MaxSteps.last_le s k hs (Or.inr rfl))
    (C38_map_partial max hm (fun k => ∃ s, P s k) hK ops hk os1 os2 f s k r he)

/-- As long as a call has not returned some call can go on, whatever the schedule so far: the next operation of the
store below may end in any way. -/
theorem C98_no_deadlock (max : Nat) (σ : Conc) (t : Thread) (ht : t ∈ σ.threads) (hover : t.pc ≠ .over) :
    ∃ i : Nat, (MaxSteps.exec max σ (.begin i)).isSome = true ∨ (∀ f, (MaxSteps.exec max σ (.step i f)).isSome = true) ∨
      (MaxSteps.exec max σ (.finish i)).isSome = true := by
  have run : ∀ (i : Nat) (c : Call) (p : Prog) (b : Bool), σ.threads[i]? = some ⟨c, .running p b⟩ →
      (∀ f, (MaxSteps.exec max σ (.step i f)).isSome = true) ∨ (MaxSteps.exec max σ (.finish i)).isSome = true := by
    intro i c p b hi
    cases p with
    | done r => exact Or.inr (by simp [MaxSteps.exec, hi])
    | read => exact Or.inl fun f => by simp [MaxSteps.exec, hi]
    | write => exact Or.inl fun f => by simp [MaxSteps.exec, hi]
    | count => exact Or.inl fun f => by simp [MaxSteps.exec, hi]
    | setCount => exact Or.inl fun f => by simp [MaxSteps.exec, hi]
  by_cases hq : ∃ (i : Nat) (c : Call) (p : Prog) (b : Bool), σ.threads[i]? = some ⟨c, .running p b⟩
  · obtain ⟨i, c, p, b, hi⟩ := hq
    exact ⟨i, Or.inr (run i c p b hi)⟩
  · obtain ⟨i, hl, hi⟩ := List.mem_iff_getElem.1 ht
    have hi' : σ.threads[i]? = some t := by rw [← hi]; exact List.getElem?_eq_getElem hl
    obtain ⟨c, pc⟩ := t
    cases pc with
    | over => exact absurd rfl hover
    | running p b => exact absurd ⟨i, c, p, b, hi'⟩ hq
    | want =>
      have hf : free σ.threads (mapKey c.name c.key) = true := by
        rw [MaxSteps.free_iff]
        intro j u hu hr
        obtain ⟨c', pc'⟩ := u
        cases pc' with
        | running p b => exact absurd ⟨j, c', p, b, hu⟩ hq
        | want => cases hr
        | over => cases hr
      exact ⟨i, Or.inl (by simp [MaxSteps.exec, hi', hf])⟩

/-- Without new calls every schedule ends: there is no infinite one. -/
theorem C98_ends (max : Nat) (σ : Conc) :
    Acc (fun σ' σ => ∃ i f, MaxSteps.exec max σ (.begin i) = some σ' ∨ MaxSteps.exec max σ (.step i f) = some σ' ∨
      MaxSteps.exec max σ (.finish i) = some σ') σ := by
  have sub : ∀ σ' σ, (∃ i f, MaxSteps.exec max σ (.begin i) = some σ' ∨ MaxSteps.exec max σ (.step i f) = some σ' ∨
      MaxSteps.exec max σ (.finish i) = some σ') → MaxSteps.DownList σ'.threads σ.threads := by
    rintro σ' σ ⟨i, f, h | h | h⟩
    · simp only [MaxSteps.exec] at h
      split at h
      · rename_i c hg
        split at h
        · cases h
          exact ⟨i, _, _, hg, rfl, .begin ..⟩
        · cases h
      · cases h
    · simp only [MaxSteps.exec] at h
      split at h
      · cases h
      · rename_i c p b hnd hg
        cases h
        refine ⟨i, _, _, hg, rfl, ?_⟩
        cases p with
        | done r => exact absurd rfl (hnd r)
        | read => exact .read ..
        | write => exact .write ..
        | count => exact .count ..
        | setCount => exact .setCount ..
      · cases h
    · simp only [MaxSteps.exec] at h
      split at h
      · rename_i c r b hg
        cases h
        exact ⟨i, _, _, hg, rfl, .finish ..⟩
      · cases h
  have acc : Acc (InvImage MaxSteps.DownList Conc.threads) σ :=
    InvImage.accessible Conc.threads (MaxSteps.downList_acc σ.threads)
  exact Subrelation.accessible (fun {a b} h => sub a b h) acc

/-! ### Examples -/

/-- Blobs returned by the calls to `Get`, in order. -/
def blobs (o : Option Conc) : List (Option Bytes) :=
  match o with
  | none => []
  | some σ => σ.log.filterMap fun
    | .returned _ (.blob (.ok b)) _ => some (some b)
    | .returned _ (.blob (.error _)) _ => some none
    | _ => none

/-- Two blobs of two parts each are set at the same time, and read at the same time. -/
def both : List Label :=
  [.call (.set [] [107] (twoParts 7)), .call (.set [] [108] (twoParts 9)), .begin 0, .begin 1,
    .step 0 .ok, .step 1 .ok, .step 0 .ok, .step 1 .ok, .step 1 .ok, .step 0 .ok, .step 0 .ok, .step 1 .ok, .finish 1, .finish 0,
    .call (.get [] [107]), .call (.get [] [108]), .call (.delete [] [107]), .begin 2, .begin 3, .step 2 .ok, .step 3 .ok, .step 3 .ok, .step 2 .ok,
    .step 2 .ok, .step 3 .ok, .finish 2, .begin 4, .step 4 .ok, .step 4 .ok, .step 4 .ok, .finish 3]

/-- Non-vacuity of `C98_serial` and `C98_answers`. -/
example : Calls (fun s k => s = [] ∧ (k = [107] ∨ k = [108])) both ∧
    Separate (fun k => ∃ s : Str, s = [] ∧ (k = [107] ∨ k = [108])) := by
  constructor
  · intro c hc
    simp only [both, List.mem_cons, List.not_mem_nil, or_false, reduceCtorEq, false_or, Label.call.injEq] at hc
    rcases hc with rfl | rfl | rfl | rfl | rfl <;> decide
  · intro k k' n hk hk' h
    have h43 : (43 : UInt8) ∉ k := by
      obtain ⟨-, -, rfl | rfl⟩ := hk <;> decide
    exact h43 (by rw [h]; simp)

example : blobs (execs 1024 (start empty) both) = [some (twoParts 7), some (twoParts 9)] := by
  decide +kernel

/-- A call with the same key has to wait: the first call is still running. -/
example : (execs 1024 (start empty) [.call (.set [] [107] (twoParts 7)), .call (.get [] [107]), .begin 0, .step 0 .ok, .begin 1]).isNone =
      true ∧
    (execs 1024 (start empty) [.call (.set [] [107] (twoParts 7)), .call (.get [] [108]), .begin 0, .step 0 .ok, .begin 1]).isNone =
      false := by
  decide +kernel

/-- A process that ends between the parts of a blob leaves a blob that reads without error after the start, and is
neither the old one nor the new one. -/
theorem C98_torn : ∃ (ls : List Label) (b : Bytes),
    Calls (fun s k => s = [] ∧ k = [107]) ls ∧ blobs (execs 1024 (start empty) ls) = [some b] ∧
      (∀ s k b', Label.call (.set s k b') ∈ ls → b' ≠ b) ∧ ∀ t f, Label.step t f ∈ ls → f = .ok := by
  refine ⟨[.call (.set [] [107] (twoParts 7)), .begin 0, .step 0 .ok, .step 0 .ok, .step 0 .ok, .step 0 .ok, .finish 0,
    .call (.set [] [107] (twoParts 8)), .begin 1, .step 1 .ok, .step 1 .ok, .crash,
    .call (.get [] [107]), .begin 0, .step 0 .ok, .step 0 .ok, .step 0 .ok, .finish 0],
    List.replicate 1023 8 ++ [7, 7], ?_, ?_, ?_, ?_⟩
  · intro c hc
    simp only [List.mem_cons, List.not_mem_nil, or_false, reduceCtorEq, false_or, Label.call.injEq] at hc
    rcases hc with rfl | rfl | rfl <;> decide
  · decide +kernel
  · intro s k b' hb
    simp only [List.mem_cons, List.not_mem_nil, or_false, reduceCtorEq, false_or, Label.call.injEq, Call.set.injEq] at hb
    rcases hb with ⟨-, -, rfl⟩ | ⟨-, -, rfl⟩ <;> decide +kernel
  · intro t f hf
    simp only [List.mem_cons, List.not_mem_nil, or_false, reduceCtorEq, false_or, Label.step.injEq] at hf
    grind

end Props
end RankDB

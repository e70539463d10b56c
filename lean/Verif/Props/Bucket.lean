import Verif.Model.Bucket
/-
Property C49: the token bucket, for every number of goroutines and every interleaving.
-/
namespace RankDB
namespace Bucket

theorem fill_spec (n : Nat) (c : Chan) (h : c.buf + n ≤ c.cap) : fill n c = some ⟨c.cap, c.buf + n⟩ := by
  induction n generalizing c with
  | zero => rfl
  | succ n ih =>
    unfold fill Chan.send
    rw [if_pos (by omega), Option.bind_some, ih _ (by simp; omega)]
    simp; omega

theorem newBucket_eq (n : Nat) : newBucket n = some ⟨n, n⟩ := by
  unfold newBucket
  rw [fill_spec _ _ (by simp)]
  simp

/-- Tokens are conserved; a goroutine in `Release` has a token. -/
structure Inv (tokens : Nat) (s : State) : Prop where
  cap : s.chan.cap = tokens
  total : s.chan.buf + inUse s = tokens
  releasing : ∀ t ∈ s.threads, t.phase = .releasing → 0 < t.held

theorem inUse_split (c : Chan) (pre post : List Thread) (t : Thread) :
    inUse ⟨c, pre ++ t :: post⟩ = (pre.map (·.held)).sum + t.held + (post.map (·.held)).sum := by
  simp only [inUse, List.map_append, List.map_cons, List.sum_append, List.sum_cons]
  omega

theorem inv_of_reachable {tokens k : Nat} {s : State} (h : Reachable tokens k s) : Inv tokens s := by
  induction h with
  | init c h =>
    rw [newBucket_eq] at h
    injection h with h
    subst h
    refine ⟨rfl, ?_, ?_⟩
    · simp [inUse]
    · intro t ht
      have := (List.mem_replicate.1 ht).2
      subst this
      simp
  | step h hs ih =>
    obtain ⟨pre, post, c, c', t, t', hst⟩ := hs
    obtain ⟨hc, ht, hr⟩ := ih
    rw [inUse_split] at ht
    have hr' : ∀ x ∈ pre ++ post, x.phase = .releasing → 0 < x.held := fun x hx => hr x (by
      simp only [List.mem_append, List.mem_cons] at hx ⊢
      rcases hx with hx | hx
      · exact Or.inl hx
      · exact Or.inr (Or.inr hx))
    have hrel : (t'.phase = .releasing → 0 < t'.held) → ∀ x ∈ pre ++ t' :: post, x.phase = .releasing → 0 < x.held := by
      intro ht' x hx
      simp only [List.mem_append, List.mem_cons] at hx
      rcases hx with hx | rfl | hx
      · exact hr' x (by simp [hx])
      · exact ht'
      · exact hr' x (by simp [hx])
    simp only at hc ht
    cases hst with
    | wantGet _ => exact ⟨hc, by rw [inUse_split]; exact ht, hrel (by simp)⟩
    | get _ _ hr =>
      unfold Chan.recv at hr
      split at hr
      · injection hr with hr
        subst hr
        refine ⟨hc, ?_, hrel (by simp)⟩
        rw [inUse_split]
        simp only at ht ⊢
        omega
      · simp at hr
    | wantRelease _ => exact ⟨hc, by rw [inUse_split]; exact ht, hrel (by simp)⟩
    | release _ _ hs =>
      unfold Chan.send at hs
      split at hs
      · injection hs with hs
        subst hs
        refine ⟨hc, ?_, hrel (by simp)⟩
        rw [inUse_split]
        simp only at ht ⊢
        omega
      · simp at hs

end Bucket

namespace Props
open Bucket

/-- Creating a bucket does not block and puts all tokens in. -/
theorem C49_new (tokens : Nat) : newBucket tokens = some ⟨tokens, tokens⟩ := newBucket_eq tokens

/-- At any time at most `tokens` tokens are in use, and all others are in the bucket. -/
theorem C49_bounded (tokens k : Nat) (s : State) (h : Reachable tokens k s) :
    inUse s ≤ tokens ∧ s.chan.buf = tokens - inUse s := by
  have := (inv_of_reachable h).total
  omega

/-- At most `tokens` goroutines have a token. -/
theorem C49_holders (tokens k : Nat) (s : State) (h : Reachable tokens k s) :
    (s.threads.filter fun t => decide (0 < t.held)).length ≤ tokens := by
  have h1 := (C49_bounded tokens k s h).1
  have h2 : ∀ l : List Thread, (l.filter fun t => decide (0 < t.held)).length ≤ (l.map (·.held)).sum := by
    intro l
    induction l with
    | nil => simp
    | cons t l ih =>
      rw [List.filter_cons, List.map_cons, List.sum_cons]
      split
      · rename_i hp
        have : 0 < t.held := by simpa using hp
        simp only [List.length_cons]; omega
      · omega
  exact Nat.le_trans (h2 _) h1

/-- A goroutine waiting in `Get` can proceed whenever a token is free, and only then. -/
theorem C49_get_proceeds (tokens k : Nat) (c : Chan) (pre post : List Thread) (held : Nat)
    (h : Reachable tokens k ⟨c, pre ++ ⟨.getting, held⟩ :: post⟩) :
    (∃ c', Step ⟨c, pre ++ ⟨.getting, held⟩ :: post⟩ ⟨c', pre ++ ⟨.idle, held + 1⟩ :: post⟩) ↔
      inUse ⟨c, pre ++ ⟨.getting, held⟩ :: post⟩ < tokens := by
  have hb := (C49_bounded _ _ _ h)
  constructor
  · rintro ⟨c', hst⟩
    have h2 := C49_bounded _ _ _ (h.step hst)
    rw [inUse_split] at h2 ⊢
    simp only at h2 ⊢
    omega
  · intro hlt
    refine ⟨⟨c.cap, c.buf - 1⟩, Step.mk _ _ _ _ _ _ (.get _ _ _ ?_)⟩
    unfold Chan.recv
    rw [if_pos]
    have := hb.2
    simp only at this
    omega

/-- `Release` never blocks. -/
theorem C49_release_proceeds (tokens k : Nat) (c : Chan) (pre post : List Thread) (held : Nat)
    (h : Reachable tokens k ⟨c, pre ++ ⟨.releasing, held⟩ :: post⟩) :
    ∃ c', Step ⟨c, pre ++ ⟨.releasing, held⟩ :: post⟩ ⟨c', pre ++ ⟨.idle, held - 1⟩ :: post⟩ := by
  have hi := inv_of_reachable h
  have hpos : 0 < held := hi.releasing ⟨.releasing, held⟩ (by simp) rfl
  obtain ⟨m, rfl⟩ : ∃ m, held = m + 1 := ⟨held - 1, by omega⟩
  have ht := hi.total
  have hc := hi.cap
  rw [inUse_split] at ht
  simp only at ht hc
  refine ⟨⟨c.cap, c.buf + 1⟩, Step.mk _ _ _ _ _ _ (.release _ _ _ ?_)⟩
  unfold Chan.send
  rw [if_pos (by omega)]

/-- Non-vacuity: with one token, one goroutine has it and the other waits. -/
example : Reachable 1 2 ⟨⟨1, 0⟩, [⟨.idle, 1⟩, ⟨.getting, 0⟩]⟩ :=
  .step (.step (.step (.init _ (newBucket_eq 1)) (.mk [] [⟨.idle, 0⟩] _ _ _ _ (.wantGet _ _)))
    (.mk [] [⟨.idle, 0⟩] _ _ _ _ (.get _ ⟨1, 0⟩ _ rfl))) (.mk [⟨.idle, 1⟩] [] _ _ _ _ (.wantGet _ _))

end Props
end RankDB

import Verif.Spec.Loader
/-
Invariants of the loading of a segment.
-/
namespace RankDB.Loader
open RankDB.Spec.Loader

/-- The steps of `exec`, one constructor for each way it succeeds. -/
inductive Step (cached : Bool) (σ : State) : Label → State → Prop
  | call (w : Bool) : Step cached σ (.call w) { σ with calls := σ.calls ++ [⟨w, .want⟩] }
  | acquire {t : Nat} {w : Bool} (hp : σ.calls[t]? = some ⟨w, .want⟩) (hf : σ.free w = true) :
      Step cached σ (.acquire t) (σ.set t w .locked)
  | hit {t : Nat} {w : Bool} {v : List Element} (hp : σ.calls[t]? = some ⟨w, .locked⟩)
      (hc : (if cached then σ.cache else none) = some v) : Step cached σ (.look t) (σ.set t w (.use v))
  | miss {t : Nat} {w : Bool} (hp : σ.calls[t]? = some ⟨w, .locked⟩) : Step cached σ (.look t) (σ.set t w .missed)
  | join {t : Nat} {w : Bool} {c : Nat} (hp : σ.calls[t]? = some ⟨w, .missed⟩) (hl : σ.loading = some c) :
      Step cached σ (.enter t) (σ.set t w (.waiting c))
  | begin {t : Nat} {w : Bool} (hp : σ.calls[t]? = some ⟨w, .missed⟩) (hl : σ.loading = none) :
      Step cached σ (.enter t) { σ.set t w (.loading σ.next) with loading := some σ.next, next := σ.next + 1 }
  | stored {t : Nat} {w : Bool} {c : Nat} (hp : σ.calls[t]? = some ⟨w, .loading c⟩) :
      Step cached σ (.fetch t .stored) { σ.set t w (.fetched c) with res := fun d => if d = c then σ.stored else σ.res d }
  | error {t : Nat} {w : Bool} {c : Nat} (hp : σ.calls[t]? = some ⟨w, .loading c⟩) :
      Step cached σ (.fetch t .error) { σ.set t w (.fetched c) with res := fun d => if d = c then .error (.call t) else σ.res d }
  | panic {t : Nat} {w : Bool} {c : Nat} (hp : σ.calls[t]? = some ⟨w, .loading c⟩) :
      Step cached σ (.fetch t .panic) (σ.set t w (.panicked c))
  | close {t : Nat} {w : Bool} {c : Nat} (hp : σ.calls[t]? = some ⟨w, .fetched c⟩) :
      Step cached σ (.close t) { σ.set t w (.got (σ.res c)) with loading := none, closed := fun d => if d = c then true else σ.closed d }
  | die {t : Nat} {w : Bool} {c : Nat} (hp : σ.calls[t]? = some ⟨w, .panicked c⟩) :
      Step cached σ (.close t) { σ.set t w .dead with loading := none, closed := fun d => if d = c then true else σ.closed d }
  | wake {t : Nat} {w : Bool} {c : Nat} (hp : σ.calls[t]? = some ⟨w, .waiting c⟩) (hc : σ.closed c = true) :
      Step cached σ (.wake t) (σ.set t w (.got (σ.res c)))
  | deliver {t : Nat} {w : Bool} {v : List Element} (hp : σ.calls[t]? = some ⟨w, .got (.ok v)⟩) :
      Step cached σ (.deliver t) { σ.set t w (.use v) with cache := if cached then some v else σ.cache }
  | fail {t : Nat} {w : Bool} {e : Err} (hp : σ.calls[t]? = some ⟨w, .got (.error e)⟩) :
      Step cached σ (.deliver t) (σ.set t w (.done (some e)))
  | leave {t : Nat} {w : Bool} {v : List Element} (hp : σ.calls[t]? = some ⟨w, .use v⟩) :
      Step cached σ (.leave t) (σ.set t w (.done none))
  | saved {t : Nat} {v u : List Element} {b : Bool} (hp : σ.calls[t]? = some ⟨true, .use u⟩) :
      Step cached σ (.save t v true b) { σ.set t true (.done none) with cell := some v, cache := if cached then some v else σ.cache }
  | unsaved {t : Nat} {v u : List Element} {b : Bool} (hp : σ.calls[t]? = some ⟨true, .use u⟩) :
      Step cached σ (.save t v false b) { σ.set t true (.done none) with cache := if cached && b then some v else σ.cache }
  | evict : Step cached σ .evict { σ with cache := none }

theorem exec_step {cached : Bool} {σ σ' : State} {l : Label} (h : exec cached σ l = some σ') : Step cached σ l σ' := by
  cases l with
  | call w => simp only [exec] at h; cases h; exact .call w
  | acquire t =>
    simp only [exec] at h
    split at h
    · rename_i w hp
      split at h
      · cases h; exact .acquire hp (by assumption)
      · cases h
    · cases h
  | look t =>
    simp only [exec] at h
    split at h
    · rename_i w hp
      split at h
      · rename_i v hv; cases h; exact .hit hp hv
      · cases h; exact .miss hp
    · cases h
  | enter t =>
    simp only [exec] at h
    split at h
    · rename_i w hp
      split at h
      · rename_i c hc; cases h; exact .join hp hc
      · rename_i hc; cases h; exact .begin hp hc
    · cases h
  | fetch t o =>
    simp only [exec] at h
    split at h
    · rename_i w c hp
      cases o with
      | stored => cases h; exact .stored hp
      | error => cases h; exact .error hp
      | panic => cases h; exact .panic hp
    · cases h
  | close t =>
    simp only [exec] at h
    split at h
    · rename_i w c hp; cases h; exact .close hp
    · rename_i w c hp; cases h; exact .die hp
    · cases h
  | wake t =>
    simp only [exec] at h
    split at h
    · rename_i w c hp
      split at h
      · cases h; exact .wake hp (by assumption)
      · cases h
    · cases h
  | deliver t =>
    simp only [exec] at h
    split at h
    · rename_i w v hp; cases h; exact .deliver hp
    · rename_i w e hp; cases h; exact .fail hp
    · cases h
  | leave t =>
    simp only [exec] at h
    split at h
    · rename_i w v hp; cases h; exact .leave hp
    · cases h
  | save t v ok b =>
    simp only [exec] at h
    split at h
    · rename_i u hp
      cases ok with
      | true => simp only [if_true] at h; cases h; exact .saved hp
      | false => simp only [Bool.false_eq_true, if_false] at h; cases h; exact .unsaved hp
    · cases h
  | evict => simp only [exec] at h; cases h; exact .evict

theorem get_set {l : List Call} {t : Nat} {y : Call} {u : Nat} {x : Call} (h : (l.set t y)[u]? = some x) :
    (u = t ∧ x = y) ∨ (u ≠ t ∧ l[u]? = some x) := by
  by_cases hu : u = t
  · subst hu
    have hlt : u < (l.set u y).length := (List.getElem?_eq_some_iff.1 h).1
    rw [List.length_set] at hlt
    rw [List.getElem?_set_self hlt] at h
    exact .inl ⟨rfl, (Option.some.inj h).symm⟩
  · rw [List.getElem?_set_ne (fun h => hu h.symm)] at h
    exact .inr ⟨hu, h⟩

theorem set_get {l : List Call} {t : Nat} {x : Call} (h : l[t]? = some x) (y : Call) (u : Nat) :
    (l.set t y)[u]? = if u = t then some y else l[u]? := by
  by_cases hu : u = t
  · subst hu
    rw [List.getElem?_set_self (List.getElem?_eq_some_iff.1 h).1, if_pos rfl]
  · rw [List.getElem?_set_ne (fun h => hu h.symm), if_neg hu]

theorem get_append {l : List Call} {y : Call} {u : Nat} {x : Call} (h : (l ++ [y])[u]? = some x) : x = y ∨ l[u]? = some x := by
  by_cases hu : u < l.length
  · rw [List.getElem?_append_left hu] at h; exact .inr h
  · rw [List.getElem?_append_right (by omega)] at h
    exact .inl (List.mem_singleton.1 (List.mem_of_getElem? h))

structure Sound (σ : State) : Prop where
  excl : ∀ (t u : Nat) (x y : Call), σ.calls[t]? = some x → σ.calls[u]? = some y → x.write = true → x.pc.holds = true →
    y.pc.holds = true → t = u
  busy : ∀ (t : Nat) (x : Call) (c : Nat), σ.calls[t]? = some x → x.pc.load = some c → σ.loading = some c
  one : ∀ (t u : Nat) (x y : Call) (c d : Nat), σ.calls[t]? = some x → σ.calls[u]? = some y → x.pc.load = some c →
    y.pc.load = some d → t = u
  opened : ∀ c, σ.loading = some c → σ.closed c = false ∧ c < σ.next ∧ ∃ (t : Nat) (x : Call), σ.calls[t]? = some x ∧ x.pc.load = some c
  waits : ∀ (t : Nat) (x : Call) (c : Nat), σ.calls[t]? = some x → x.pc = .waiting c → c < σ.next ∧ (σ.closed c = true ∨ σ.loading = some c)
  fresh : ∀ c, σ.next ≤ c → σ.closed c = false

theorem start_sound (cell : Option (List Element)) : Sound (start cell) :=
  ⟨by intro t u x y h; simp [start] at h, by intro t x c h; simp [start] at h, by intro t u x y c d h; simp [start] at h,
    by intro c h; simp [start] at h, by intro t x c h; simp [start] at h, fun _ _ => rfl⟩

/-- Steps of one call that keep the lock, the load and what is known about loads. -/
theorem sound_same {σ σ' : State} (h : Sound σ) {t : Nat} {w : Bool} {p q : Pc} (hp : σ.calls[t]? = some ⟨w, p⟩)
    (hc : σ'.calls = σ.calls.set t ⟨w, q⟩) (hl : σ'.loading = σ.loading) (hd : σ'.closed = σ.closed) (hn : σ'.next = σ.next)
    (hh : q.holds = true → p.holds = true) (hld : q.load = p.load) (hw : ∀ c, q = .waiting c → σ.loading = some c) : Sound σ' := by
  have key : ∀ (u : Nat) (x : Call), σ'.calls[u]? = some x → ∃ x' : Call, σ.calls[u]? = some x' ∧ x'.write = x.write ∧
      (x.pc.holds = true → x'.pc.holds = true) ∧ x'.pc.load = x.pc.load ∧ (∀ c, x.pc = .waiting c → x'.pc = .waiting c ∨ σ.loading = some c) := by
    intro u x hx
    rw [hc] at hx
    rcases get_set hx with ⟨rfl, rfl⟩ | ⟨hu, hx⟩
    · exact ⟨_, hp, rfl, hh, hld.symm, fun c hq => .inr (hw c hq)⟩
    · exact ⟨x, hx, rfl, id, rfl, fun c hq => .inl hq⟩
  refine ⟨?_, ?_, ?_, ?_, ?_, ?_⟩
  · intro a b x y ha hb hxw hx hy
    obtain ⟨x', a1, a2, a3, -, -⟩ := key a x ha
    obtain ⟨y', b1, -, b3, -, -⟩ := key b y hb
    exact h.excl a b x' y' a1 b1 (by rw [a2]; exact hxw) (a3 hx) (b3 hy)
  · intro a x c ha hx
    obtain ⟨x', a1, -, -, a4, -⟩ := key a x ha
    rw [hl]
    exact h.busy a x' c a1 (by rw [a4]; exact hx)
  · intro a b x y c d ha hb hx hy
    obtain ⟨x', a1, -, -, a4, -⟩ := key a x ha
    obtain ⟨y', b1, -, -, b4, -⟩ := key b y hb
    exact h.one a b x' y' c d a1 b1 (by rw [a4]; exact hx) (by rw [b4]; exact hy)
  · intro c hcl
    rw [hl] at hcl
    obtain ⟨h1, h2, u, x, h3, h4⟩ := h.opened c hcl
    rw [hd, hn]
    refine ⟨h1, h2, ?_⟩
    rw [hc]
    by_cases hu : u = t
    · subst hu
      rw [hp] at h3
      cases h3
      exact ⟨u, ⟨w, q⟩, by rw [set_get hp, if_pos rfl], by rw [show (Call.mk w q).pc.load = q.load from rfl, hld]; exact h4⟩
    · exact ⟨u, x, by rw [set_get hp, if_neg hu]; exact h3, h4⟩
  · intro a x c ha hx
    obtain ⟨x', a1, -, -, -, a5⟩ := key a x ha
    rw [hl, hd, hn]
    rcases a5 c hx with a5 | a5
    · exact h.waits a x' c a1 a5
    · exact ⟨(h.opened c a5).2.1, .inr a5⟩
  · intro c hcn
    rw [hd]
    exact h.fresh c (by rw [← hn]; exact hcn)

/-- The end of a load. -/
theorem sound_close {σ σ' : State} (h : Sound σ) {t : Nat} {w : Bool} {p q : Pc} {c : Nat} (hp : σ.calls[t]? = some ⟨w, p⟩)
    (hpl : p.load = some c) (hph : p.holds = true)
    (hc : σ'.calls = σ.calls.set t ⟨w, q⟩) (hl : σ'.loading = none) (hd : σ'.closed = fun d => if d = c then true else σ.closed d)
    (hn : σ'.next = σ.next) (hld : q.load = none) (hw : ∀ c, q ≠ .waiting c) : Sound σ' := by
  have hb := h.busy t _ c hp hpl
  have hnone : ∀ (u : Nat) (x : Call), σ'.calls[u]? = some x → x.pc.load = none := by
    intro u x hx
    rw [hc] at hx
    rcases get_set hx with ⟨rfl, rfl⟩ | ⟨hu, hx⟩
    · exact hld
    · cases hlx : x.pc.load with
      | none => rfl
      | some d => exact absurd (h.one u t x _ d c hx hp hlx hpl) hu
  refine ⟨?_, ?_, ?_, ?_, ?_, ?_⟩
  · intro a b x y ha hb2 hxw hx hy
    rw [hc] at ha hb2
    rcases get_set ha with ⟨rfl, rfl⟩ | ⟨hu, ha'⟩ <;> rcases get_set hb2 with ⟨rfl, rfl⟩ | ⟨hv, hb'⟩
    · rfl
    · exact h.excl a b _ y hp hb' hxw hph hy
    · exact h.excl a b x _ ha' hp hxw hx hph
    · exact h.excl a b x y ha' hb' hxw hx hy
  · intro a x d ha hx
    rw [hnone a x ha] at hx
    cases hx
  · intro a b x y d e ha _ hx _
    rw [hnone a x ha] at hx
    cases hx
  · intro d hdl
    rw [hl] at hdl
    cases hdl
  · intro a x d ha hx
    rw [hc] at ha
    rcases get_set ha with ⟨rfl, rfl⟩ | ⟨hu, ha⟩
    · exact absurd hx (hw d)
    · obtain ⟨h1, h2⟩ := h.waits a x d ha hx
      rw [hn, hd]
      refine ⟨h1, .inl ?_⟩
      dsimp only
      split
      · rfl
      · rename_i hne
        rcases h2 with h2 | h2
        · exact h2
        · rw [hb] at h2
          exact absurd (Option.some.inj h2).symm hne
  · intro d hdn
    rw [hn] at hdn
    rw [hd]
    have := (h.opened c hb).2.1
    dsimp only
    rw [if_neg (by omega)]
    exact h.fresh d hdn

theorem step_sound {cached : Bool} {σ σ' : State} {l : Label} (h : Sound σ) (hs : Step cached σ l σ') : Sound σ' := by
  cases hs with
  | call w =>
    refine ⟨?_, ?_, ?_, ?_, ?_, h.fresh⟩
    · intro a b x y ha hb hxw hx hy
      rcases get_append ha with rfl | ha
      · cases hx
      · rcases get_append hb with rfl | hb
        · cases hy
        · exact h.excl a b x y ha hb hxw hx hy
    · intro a x c ha hx
      rcases get_append ha with rfl | ha
      · cases hx
      · exact h.busy a x c ha hx
    · intro a b x y c d ha hb hx hy
      rcases get_append ha with rfl | ha
      · cases hx
      · rcases get_append hb with rfl | hb
        · cases hy
        · exact h.one a b x y c d ha hb hx hy
    · intro c hc
      obtain ⟨h1, h2, u, x, h3, h4⟩ := h.opened c hc
      refine ⟨h1, h2, u, x, ?_, h4⟩
      show (σ.calls ++ _)[u]? = _
      rw [List.getElem?_append_left (List.getElem?_eq_some_iff.1 h3).1]
      exact h3
    · intro a x c ha hx
      rcases get_append ha with rfl | ha
      · cases hx
      · exact h.waits a x c ha hx
  | @acquire t w hp hf =>
    have hfree : ∀ (u : Nat) (y : Call), σ.calls[u]? = some y → y.pc.holds = true → w = false ∧ y.write = false := by
      intro u y hy hh
      have := List.all_eq_true.1 hf y (List.mem_of_getElem? hy)
      rw [hh] at this
      cases hw : w <;> cases hy : y.write <;> simp_all
    refine ⟨?_, ?_, ?_, ?_, ?_, h.fresh⟩
    · intro a b x y ha hb hxw hx hy
      rcases get_set ha with ⟨rfl, rfl⟩ | ⟨hu, ha'⟩ <;> rcases get_set hb with ⟨rfl, rfl⟩ | ⟨hv, hb'⟩
      · rfl
      · have := (hfree b y hb' hy).1
        rw [this] at hxw
        cases hxw
      · have := (hfree a x ha' hx).2
        rw [this] at hxw
        cases hxw
      · exact h.excl a b x y ha' hb' hxw hx hy
    · intro a x c ha hx
      rcases get_set ha with ⟨rfl, rfl⟩ | ⟨hu, ha⟩
      · cases hx
      · exact h.busy a x c ha hx
    · intro a b x y c d ha hb hx hy
      rcases get_set ha with ⟨rfl, rfl⟩ | ⟨hu, ha⟩
      · cases hx
      · rcases get_set hb with ⟨rfl, rfl⟩ | ⟨hv, hb⟩
        · cases hy
        · exact h.one a b x y c d ha hb hx hy
    · intro c hc
      obtain ⟨h1, h2, u, x, h3, h4⟩ := h.opened c hc
      refine ⟨h1, h2, u, x, ?_, h4⟩
      show (σ.calls.set t _)[u]? = _
      rw [set_get hp, if_neg]
      · exact h3
      · intro hu
        subst hu
        rw [hp] at h3
        cases h3
        cases h4
    · intro a x c ha hx
      rcases get_set ha with ⟨rfl, rfl⟩ | ⟨hu, ha⟩
      · cases hx
      · exact h.waits a x c ha hx
  | hit hp hc => exact sound_same h hp rfl rfl rfl rfl (fun _ => rfl) rfl nofun
  | miss hp => exact sound_same h hp rfl rfl rfl rfl (fun _ => rfl) rfl nofun
  | join hp hl => exact sound_same h hp rfl rfl rfl rfl (fun _ => rfl) rfl (fun c hc => by cases hc; exact hl)
  | @begin t w hp hl =>
    have hnone : ∀ (u : Nat) (x : Call), σ.calls[u]? = some x → x.pc.load = none := by
      intro u x hx
      cases hlx : x.pc.load with
      | none => rfl
      | some d =>
        have := h.busy u x d hx hlx
        rw [hl] at this
        cases this
    refine ⟨?_, ?_, ?_, ?_, ?_, ?_⟩
    · intro a b x y ha hb hxw hx hy
      rcases get_set ha with ⟨rfl, rfl⟩ | ⟨hu, ha'⟩ <;> rcases get_set hb with ⟨rfl, rfl⟩ | ⟨hv, hb'⟩
      · rfl
      · exact h.excl a b _ y hp hb' hxw rfl hy
      · exact h.excl a b x _ ha' hp hxw hx rfl
      · exact h.excl a b x y ha' hb' hxw hx hy
    · intro a x c ha hx
      rcases get_set ha with ⟨rfl, rfl⟩ | ⟨hu, ha⟩
      · exact hx
      · rw [hnone a x ha] at hx
        cases hx
    · intro a b x y c d ha hb hx hy
      rcases get_set ha with ⟨rfl, rfl⟩ | ⟨hu, ha⟩
      · rcases get_set hb with ⟨rfl, rfl⟩ | ⟨hv, hb⟩
        · rfl
        · rw [hnone b y hb] at hy
          cases hy
      · rw [hnone a x ha] at hx
        cases hx
    · intro c hc
      cases hc
      refine ⟨h.fresh _ (Nat.le_refl _), Nat.lt_succ_self _, t, ⟨w, .loading σ.next⟩, ?_, rfl⟩
      show (σ.calls.set t _)[t]? = _
      rw [set_get hp, if_pos rfl]
    · intro a x c ha hx
      rcases get_set ha with ⟨rfl, rfl⟩ | ⟨hu, ha⟩
      · cases hx
      · obtain ⟨h1, h2⟩ := h.waits a x c ha hx
        refine ⟨Nat.lt_succ_of_lt h1, ?_⟩
        rcases h2 with h2 | h2
        · exact .inl h2
        · rw [hl] at h2
          cases h2
    · exact fun c hc => h.fresh c (Nat.le_of_succ_le hc)
  | stored hp => exact sound_same h hp rfl rfl rfl rfl (fun _ => rfl) rfl nofun
  | error hp => exact sound_same h hp rfl rfl rfl rfl (fun _ => rfl) rfl nofun
  | panic hp => exact sound_same h hp rfl rfl rfl rfl (fun _ => rfl) rfl nofun
  | close hp => exact sound_close h hp rfl rfl rfl rfl rfl rfl rfl nofun
  | die hp => exact sound_close h hp rfl rfl rfl rfl rfl rfl rfl nofun
  | wake hp hc => exact sound_same h hp rfl rfl rfl rfl (fun _ => rfl) rfl nofun
  | deliver hp => exact sound_same h hp rfl rfl rfl rfl (fun _ => rfl) rfl nofun
  | fail hp => exact sound_same h hp rfl rfl rfl rfl (fun _ => rfl) rfl nofun
  | leave hp => exact sound_same h hp rfl rfl rfl rfl (fun _ => rfl) rfl nofun
  | saved hp => exact sound_same h hp rfl rfl rfl rfl (fun _ => rfl) rfl nofun
  | unsaved hp => exact sound_same h hp rfl rfl rfl rfl (fun _ => rfl) rfl nofun
  | evict => exact ⟨h.excl, h.busy, h.one, h.opened, h.waits, h.fresh⟩

/-! ### What calls see -/

/-- No call has panicked. -/
def Pc.well : Pc → Prop
  | .panicked _ | .dead => False
  | _ => True

/-- What a call has, or will have when it goes on, is what is stored. -/
def sees (σ : State) : Pc → Prop
  | .fetched c => ∀ v, σ.res c = .ok v → σ.cell = some v
  | .waiting c => σ.closed c = true → ∀ v, σ.res c = .ok v → σ.cell = some v
  | .got r => ∀ v, r = .ok v → σ.cell = some v
  | .use v => σ.cell = some v
  | _ => True

structure Fresh (cached : Bool) (σ : State) : Prop where
  cache : ∀ v, cached = true → σ.cache = some v → σ.cell = some v
  calls : ∀ (t : Nat) (x : Call), σ.calls[t]? = some x → x.pc.well ∧ sees σ x.pc

theorem start_fresh (cached : Bool) (cell : Option (List Element)) : Fresh cached (start cell) :=
  ⟨nofun, by intro t x h; simp [start] at h⟩

/-- Steps of one call that change nothing that the others see. -/
theorem fresh_same {cached : Bool} {σ σ' : State} (h : Fresh cached σ) {t : Nat} {w : Bool} {q : Pc}
    (hc : σ'.calls = σ.calls.set t ⟨w, q⟩) (hcell : σ'.cell = σ.cell) (hd : σ'.closed = σ.closed)
    (hr : ∀ (u : Nat) (x : Call), u ≠ t → σ.calls[u]? = some x → ∀ c, (x.pc = .fetched c ∨ (x.pc = .waiting c ∧ σ.closed c = true)) → σ'.res c = σ.res c)
    (hcache : ∀ v, cached = true → σ'.cache = some v → σ.cache = some v ∨ σ.cell = some v) (hq : q.well ∧ sees σ' q) : Fresh cached σ' := by
  refine ⟨?_, ?_⟩
  · intro v hcc hv
    rw [hcell]
    rcases hcache v hcc hv with hv | hv
    · exact h.cache v hcc hv
    · exact hv
  · intro u x hx
    rw [hc] at hx
    rcases get_set hx with ⟨rfl, rfl⟩ | ⟨hu, hx⟩
    · exact hq
    · obtain ⟨h1, h2⟩ := h.calls u x hx
      refine ⟨h1, ?_⟩
      have hr := hr u x hu hx
      cases hpc : x.pc <;> rw [hpc] at h2 hr <;> simp only [sees] at h2 ⊢
      · rename_i c
        intro h3 v hv
        rw [hd] at h3
        rw [hr c (.inr ⟨rfl, h3⟩)] at hv
        rw [hcell]
        exact h2 h3 v hv
      · rename_i c
        intro v hv
        rw [hr c (.inl rfl)] at hv
        rw [hcell]
        exact h2 v hv
      · intro v hv
        rw [hcell]
        exact h2 v hv
      · rw [hcell]
        exact h2

theorem step_fresh {cached : Bool} {σ σ' : State} {l : Label} (hi : Sound σ) (h : Fresh cached σ) (hs : Step cached σ l σ')
    (hp1 : ∀ t, l ≠ .fetch t .panic) (hp2 : ∀ t v b, l ≠ .save t v false b) : Fresh cached σ' := by
  have res0 : ∀ (t : Nat), ∀ (u : Nat) (x : Call), u ≠ t → σ.calls[u]? = some x → ∀ c, (x.pc = .fetched c ∨ (x.pc = .waiting c ∧ σ.closed c = true)) → σ.res c = σ.res c :=
    fun _ _ _ _ _ _ _ => rfl
  cases hs with
  | call w =>
    refine ⟨h.cache, ?_⟩
    intro u x hx
    rcases get_append hx with rfl | hx
    · exact ⟨trivial, trivial⟩
    · exact h.calls u x hx
  | acquire hp hf => exact fresh_same h rfl rfl rfl (res0 _) (fun v _ hv => .inl hv) ⟨trivial, trivial⟩
  | @hit t w v hp hc =>
    refine fresh_same h rfl rfl rfl (res0 _) (fun v _ hv => .inl hv) ⟨trivial, ?_⟩
    cases cached with
    | true => exact h.cache v rfl hc
    | false => cases hc
  | miss hp => exact fresh_same h rfl rfl rfl (res0 _) (fun v _ hv => .inl hv) ⟨trivial, trivial⟩
  | @join t w c hp hl =>
    refine fresh_same h rfl rfl rfl (res0 _) (fun v _ hv => .inl hv) ⟨trivial, ?_⟩
    intro hcl
    rw [show (σ.set t w (.waiting c)).closed c = σ.closed c from rfl, (hi.opened c hl).1] at hcl
    cases hcl
  | begin hp hl => exact fresh_same h rfl rfl rfl (res0 _) (fun v _ hv => .inl hv) ⟨trivial, trivial⟩
  | @stored t w c hp =>
    have hb := hi.busy t _ c hp rfl
    refine fresh_same h rfl rfl rfl ?_ (fun v _ hv => .inl hv) ⟨trivial, ?_⟩
    · intro u x hu hx d hd
      have : d ≠ c := by
        intro he
        subst he
        rcases hd with hd | ⟨-, hd⟩
        · exact hu (hi.one u t x _ d d hx hp (by rw [hd]; rfl) rfl)
        · rw [(hi.opened d hb).1] at hd
          cases hd
      exact if_neg this
    · intro v hv
      simp only [if_true, State.stored] at hv
      show σ.cell = some v
      split at hv
      · rename_i v' hv'
        cases hv
        exact hv'
      · cases hv
  | @error t w c hp =>
    have hb := hi.busy t _ c hp rfl
    refine fresh_same h rfl rfl rfl ?_ (fun v _ hv => .inl hv) ⟨trivial, ?_⟩
    · intro u x hu hx d hd
      have : d ≠ c := by
        intro he
        subst he
        rcases hd with hd | ⟨-, hd⟩
        · exact hu (hi.one u t x _ d d hx hp (by rw [hd]; rfl) rfl)
        · rw [(hi.opened d hb).1] at hd
          cases hd
      exact if_neg this
    · intro v hv
      simp only [if_true] at hv
      cases hv
  | panic hp => exact absurd rfl (hp1 _)
  | @close t w c hp =>
    have hb := hi.busy t _ c hp rfl
    have hsee := (h.calls t _ hp).2
    refine ⟨h.cache, ?_⟩
    intro u x hx
    rcases get_set hx with ⟨rfl, rfl⟩ | ⟨hu, hx⟩
    · exact ⟨trivial, hsee⟩
    · obtain ⟨h1, h2⟩ := h.calls u x hx
      refine ⟨h1, ?_⟩
      cases hpc : x.pc <;> rw [hpc] at h2 <;> simp only [sees] at h2 ⊢
      · rename_i d
        intro h3 v hv
        by_cases hd : d = c
        · subst hd
          exact hsee v hv
        · rw [if_neg hd] at h3
          exact h2 h3 v hv
      · exact h2
      · exact h2
      · exact h2
  | die hp => exact (h.calls _ _ hp).1.elim
  | @wake t w c hp hc =>
    refine fresh_same h rfl rfl rfl (res0 _) (fun v _ hv => .inl hv) ⟨trivial, ?_⟩
    exact (h.calls t _ hp).2 hc
  | @deliver t w v hp =>
    have hv : σ.cell = some v := (h.calls t _ hp).2 v rfl
    refine fresh_same h rfl rfl rfl (res0 _) ?_ ⟨trivial, hv⟩
    intro u hcc hu
    subst hcc
    exact .inr (by rw [hv]; exact hu)
  | fail hp => exact fresh_same h rfl rfl rfl (res0 _) (fun v _ hv => .inl hv) ⟨trivial, trivial⟩
  | leave hp => exact fresh_same h rfl rfl rfl (res0 _) (fun v _ hv => .inl hv) ⟨trivial, trivial⟩
  | @saved t v u b hp =>
    have hidle : ∀ (a : Nat) (x : Call), a ≠ t → σ.calls[a]? = some x → x.pc.holds = false := by
      intro a x ha hx
      cases hh : x.pc.holds with
      | false => rfl
      | true => exact absurd (hi.excl t a _ x hp hx rfl rfl hh).symm ha
    refine ⟨?_, ?_⟩
    · intro v' hcc hv'
      subst hcc
      exact hv'
    · intro a x hx
      rcases get_set hx with ⟨rfl, rfl⟩ | ⟨ha, hx⟩
      · exact ⟨trivial, trivial⟩
      · have := hidle a x ha hx
        refine ⟨(h.calls a x hx).1, ?_⟩
        cases hpc : x.pc <;> rw [hpc] at this <;> first | exact trivial | cases this
  | unsaved hp => exact absurd rfl (hp2 _ _ _)
  | evict => exact ⟨nofun, h.calls⟩

/-! ### Errors -/

/-- Every error there is satisfies `P`. -/
structure Blamed (P : Err → Prop) (σ : State) : Prop where
  res : ∀ c e, σ.res c = .error e → P e
  got : ∀ (t : Nat) (w : Bool) (e : Err), σ.calls[t]? = some ⟨w, .got (.error e)⟩ → P e
  done : ∀ (t : Nat) (w : Bool) (e : Err), σ.calls[t]? = some ⟨w, .done (some e)⟩ → P e

theorem blamed_same {P : Err → Prop} {σ σ' : State} (h : Blamed P σ) {t : Nat} {w : Bool} {q : Pc}
    (hc : σ'.calls = σ.calls.set t ⟨w, q⟩) (hr : ∀ c e, σ'.res c = .error e → P e)
    (hq : ∀ e, q = .got (.error e) ∨ q = .done (some e) → P e) : Blamed P σ' := by
  refine ⟨hr, ?_, ?_⟩
  · intro u w' e hu
    rw [hc] at hu
    rcases get_set hu with ⟨rfl, he⟩ | ⟨-, hu⟩
    · cases he
      exact hq e (.inl rfl)
    · exact h.got u w' e hu
  · intro u w' e hu
    rw [hc] at hu
    rcases get_set hu with ⟨rfl, he⟩ | ⟨-, hu⟩
    · cases he
      exact hq e (.inr rfl)
    · exact h.done u w' e hu

theorem step_blamed {P : Err → Prop} {cached : Bool} {σ σ' : State} {l : Label} (h : Blamed P σ) (hs : Step cached σ l σ')
    (h1 : ∀ t, l = .fetch t .error → P (.call t)) (h2 : σ.cell = none → P .stored) : Blamed P σ' := by
  cases hs with
  | call w =>
    refine ⟨h.res, ?_, ?_⟩
    · intro u w' e hu
      rcases get_append hu with hu | hu
      · cases hu
      · exact h.got u w' e hu
    · intro u w' e hu
      rcases get_append hu with hu | hu
      · cases hu
      · exact h.done u w' e hu
  | stored hp =>
    refine blamed_same h rfl ?_ (by intro e he; rcases he with he | he <;> cases he)
    intro c e he
    dsimp only at he
    split at he
    · unfold State.stored at he
      split at he
      · cases he
      · cases he
        exact h2 (by assumption)
    · exact h.res c e he
  | error hp =>
    refine blamed_same h rfl ?_ (by intro e he; rcases he with he | he <;> cases he)
    intro c e he
    dsimp only at he
    split at he
    · cases he
      exact h1 _ rfl
    · exact h.res c e he
  | @close t w c hp =>
    refine blamed_same h rfl h.res ?_
    intro e he
    rcases he with he | he
    · exact h.res c e (Pc.got.inj he)
    · cases he
  | @wake t w c hp hc =>
    refine blamed_same h rfl h.res ?_
    intro e he
    rcases he with he | he
    · exact h.res c e (Pc.got.inj he)
    · cases he
  | @fail t w e hp =>
    refine blamed_same h rfl h.res ?_
    intro e' he
    rcases he with he | he
    · cases he
    · cases he
      exact h.got t w e hp
  | evict => exact ⟨h.res, h.got, h.done⟩
  | _ => exact blamed_same h rfl h.res (by intro e he; rcases he with he | he <;> cases he)

theorem blamed_mono {P Q : Err → Prop} (hPQ : ∀ e, P e → Q e) {σ : State} (h : Blamed P σ) : Blamed Q σ :=
  ⟨fun c e he => hPQ e (h.res c e he), fun t w e he => hPQ e (h.got t w e he), fun t w e he => hPQ e (h.done t w e he)⟩

theorem start_blamed (P : Err → Prop) (cell : Option (List Element)) : Blamed P (start cell) :=
  ⟨(by intro c e h; cases h), (by intro t w e h; simp [start] at h), (by intro t w e h; simp [start] at h)⟩

/-- A call that reads the segment itself fails for its own reasons only. -/
def own (σ : State) (t : Nat) (x : Call) : Prop :=
  match x.pc with
  | .fetched c => ∀ u, σ.res c = .error (.call u) → u = t
  | .waiting _ => x.write = false
  | .got r => x.write = true → ∀ u, r = .error (.call u) → u = t
  | .done e => x.write = true → ∀ u, e = some (.call u) → u = t
  | _ => True

def Own (σ : State) : Prop := ∀ (t : Nat) (x : Call), σ.calls[t]? = some x → own σ t x

theorem own_same {σ σ' : State} (h : Own σ) {t : Nat} {w : Bool} {q : Pc} (hc : σ'.calls = σ.calls.set t ⟨w, q⟩)
    (hr : ∀ (u : Nat) (x : Call), u ≠ t → σ.calls[u]? = some x → ∀ c, x.pc = .fetched c → σ'.res c = σ.res c)
    (hq : own σ' t ⟨w, q⟩) : Own σ' := by
  intro u x hx
  rw [hc] at hx
  rcases get_set hx with ⟨rfl, rfl⟩ | ⟨hu, hx⟩
  · exact hq
  · have h1 := h u x hx
    have hr := hr u x hu hx
    obtain ⟨xw, xp⟩ := x
    cases xp with
    | fetched c =>
      intro v hv
      rw [hr c rfl] at hv
      exact h1 v hv
    | _ => exact h1

theorem step_own {cached : Bool} {σ σ' : State} {l : Label} (hi : Sound σ) (h : Own σ) (hs : Step cached σ l σ') : Own σ' := by
  have res0 : ∀ (t : Nat), ∀ (u : Nat) (x : Call), u ≠ t → σ.calls[u]? = some x → ∀ c, x.pc = .fetched c → σ.res c = σ.res c :=
    fun _ _ _ _ _ _ _ => rfl
  have res1 : ∀ {t : Nat} {w : Bool} {c : Nat} {r : Res}, σ.calls[t]? = some ⟨w, .loading c⟩ → ∀ (u : Nat) (x : Call), u ≠ t →
      σ.calls[u]? = some x → ∀ d, x.pc = .fetched d → (if d = c then r else σ.res d) = σ.res d := by
    intro t w c r hp u x hu hx d hd
    have : d ≠ c := by
      intro he
      subst he
      exact hu (hi.one u t x _ d d hx hp (by rw [hd]; rfl) rfl)
    exact if_neg this
  cases hs with
  | call w =>
    intro u x hx
    rcases get_append hx with rfl | hx
    · trivial
    · exact h u x hx
  | @join t w c hp hl =>
    refine own_same h rfl (res0 _) ?_
    show w = false
    cases w with
    | false => rfl
    | true =>
      obtain ⟨-, -, u, x, h3, h4⟩ := hi.opened c hl
      have hx : x.pc.holds = true := by cases hx : x.pc <;> rw [hx] at h4 <;> first | rfl | cases h4
      have := hi.excl t u _ x hp h3 rfl rfl hx
      subst this
      rw [hp] at h3
      cases h3
      cases h4
  | @stored t w c hp =>
    refine own_same h rfl (res1 hp) ?_
    intro u hu
    simp only [if_true, State.stored] at hu
    split at hu <;> cases hu
  | @error t w c hp =>
    refine own_same h rfl (res1 hp) ?_
    intro u hu
    simp only [if_true] at hu
    cases hu
    rfl
  | @close t w c hp =>
    refine own_same h rfl (res0 _) ?_
    exact fun _ u hu => h t _ hp u hu
  | @wake t w c hp hc =>
    refine own_same h rfl (res0 _) ?_
    intro hw
    have hw : w = true := hw
    have : w = false := h t _ hp
    rw [hw] at this
    cases this
  | @fail t w e hp =>
    refine own_same h rfl (res0 _) ?_
    intro hw u hu
    exact h t _ hp hw u (by rw [Option.some.inj hu])
  | evict => exact h
  | leave hp => exact own_same h rfl (res0 _) (by intro _ u hu; cases hu)
  | saved hp => exact own_same h rfl (res0 _) (by intro _ u hu; cases hu)
  | unsaved hp => exact own_same h rfl (res0 _) (by intro _ u hu; cases hu)
  | _ => exact own_same h rfl (res0 _) trivial

/-! ### The number of steps -/

/-- How many steps a call can still take. -/
def Pc.left : Pc → Nat
  | .want => 7
  | .locked => 6
  | .missed => 5
  | .loading _ => 4
  | .waiting _ => 3
  | .fetched _ => 3
  | .panicked _ => 3
  | .got _ => 2
  | .use _ => 1
  | .done _ | .dead => 0

def total (l : List Call) : Nat := (l.map fun x => x.pc.left).sum

theorem total_set : ∀ {l : List Call} {t : Nat} {x : Call}, l[t]? = some x → ∀ y : Call,
    total (l.set t y) + x.pc.left = total l + y.pc.left
  | [], t, x, h, y => by simp at h
  | a :: l, 0, x, h, y => by
    simp only [List.getElem?_cons_zero, Option.some.injEq] at h
    subst h
    simp only [total, List.set_cons_zero, List.map_cons, List.sum_cons]
    omega
  | a :: l, t + 1, x, h, y => by
    simp only [List.getElem?_cons_succ] at h
    have := total_set h y
    simp only [total, List.set_cons_succ, List.map_cons, List.sum_cons] at this ⊢
    omega

theorem step_total {cached : Bool} {σ σ' : State} {l : Label} (hs : Step cached σ l σ') :
    total σ'.calls + (if Inner l = true then 1 else 0) ≤ total σ.calls + 7 * callCount [l] := by
  have key : ∀ {t : Nat} {w : Bool} {p q : Pc}, σ.calls[t]? = some ⟨w, p⟩ → q.left < p.left →
      total (σ.calls.set t ⟨w, q⟩) + 1 ≤ total σ.calls := by
    intro t w p q hp hlt
    have : total (σ.calls.set t ⟨w, q⟩) + p.left = total σ.calls + q.left := total_set hp _
    omega
  cases hs with
  | call w => simp [total, Inner, callCount, Pc.left]
  | acquire hp hf => exact key hp (by decide)
  | hit hp hc => exact key hp (by simp [Pc.left])
  | miss hp => exact key hp (by decide)
  | join hp hl => exact key hp (by simp [Pc.left])
  | begin hp hl => exact key hp (by simp [Pc.left])
  | stored hp => exact key hp (by simp [Pc.left])
  | error hp => exact key hp (by simp [Pc.left])
  | panic hp => exact key hp (by simp [Pc.left])
  | close hp => exact key hp (by simp [Pc.left])
  | die hp => exact key hp (by simp [Pc.left])
  | wake hp hc => exact key hp (by simp [Pc.left])
  | deliver hp => exact key hp (by simp [Pc.left])
  | fail hp => exact key hp (by simp [Pc.left])
  | leave hp => exact key hp (by simp [Pc.left])
  | saved hp => exact key hp (by simp [Pc.left])
  | unsaved hp => exact key hp (by simp [Pc.left])
  | evict => exact Nat.le_refl _

/-! ### Going on -/

theorem load_enabled {cached : Bool} {σ : State} {u : Nat} {x : Call} {c : Nat} (h3 : σ.calls[u]? = some x) (h4 : x.pc.load = some c) :
    (exec cached σ (.fetch u .stored)).isSome = true ∨ (exec cached σ (.close u)).isSome = true := by
  obtain ⟨w, p⟩ := x
  cases p with
  | loading d => exact .inl (by simp [exec, h3])
  | fetched d => exact .inr (by simp [exec, h3])
  | panicked d => exact .inr (by simp [exec, h3])
  | _ => cases h4

theorem holder_enabled {cached : Bool} {σ : State} (h : Sound σ) {t : Nat} {x : Call} (hx : σ.calls[t]? = some x)
    (hh : x.pc.holds = true) (hw : x.pc ≠ .dead) :
    ∃ l, Inner l = true ∧ (∀ u, l ≠ .acquire u) ∧ (exec cached σ l).isSome = true := by
  obtain ⟨w, p⟩ := x
  cases p with
  | want => cases hh
  | locked =>
    refine ⟨.look t, rfl, nofun, ?_⟩
    simp only [exec, hx]
    split <;> rfl
  | missed =>
    refine ⟨.enter t, rfl, nofun, ?_⟩
    simp only [exec, hx]
    split <;> rfl
  | waiting c =>
    rcases (h.waits t _ c hx rfl).2 with hc | hc
    · exact ⟨.wake t, rfl, nofun, by simp [exec, hx, hc]⟩
    · obtain ⟨-, -, u, y, h3, h4⟩ := h.opened c hc
      rcases load_enabled (cached := cached) h3 h4 with he | he
      · exact ⟨.fetch u .stored, rfl, nofun, he⟩
      · exact ⟨.close u, rfl, nofun, he⟩
  | loading c => exact ⟨.fetch t .stored, rfl, nofun, by simp [exec, hx]⟩
  | fetched c => exact ⟨.close t, rfl, nofun, by simp [exec, hx]⟩
  | panicked c => exact ⟨.close t, rfl, nofun, by simp [exec, hx]⟩
  | got r =>
    refine ⟨.deliver t, rfl, nofun, ?_⟩
    cases r <;> simp [exec, hx]
  | use v => exact ⟨.leave t, rfl, nofun, by simp [exec, hx]⟩
  | done e => cases hh
  | dead => exact absurd rfl hw

theorem want_enabled {cached : Bool} {σ : State} (hn : ∀ x ∈ σ.calls, x.pc.holds = false) {t : Nat} {w : Bool}
    (hx : σ.calls[t]? = some ⟨w, .want⟩) : (exec cached σ (.acquire t)).isSome = true := by
  have hf : σ.free w = true := by
    unfold State.free
    rw [List.all_eq_true]
    intro y hy
    rw [hn y hy]
    rfl
  simp [exec, hx, hf]

/-! ### Panics -/

/-- A call that has panicked keeps the lock, and a write waits for it. -/
structure Stuck (d t : Nat) (w : Bool) (σ : State) : Prop where
  dead : σ.calls[d]? = some ⟨w, .dead⟩
  want : σ.calls[t]? = some ⟨true, .want⟩

theorem step_stuck {cached : Bool} {d t : Nat} {w : Bool} {σ σ' : State} {l : Label} (h : Stuck d t w σ) (hs : Step cached σ l σ') :
    Stuck d t w σ' := by
  have key : ∀ {u : Nat} {w' : Bool} {p q : Pc}, σ.calls[u]? = some ⟨w', p⟩ → p ≠ .dead → p ≠ .want →
      (σ.calls.set u ⟨w', q⟩)[d]? = some ⟨w, .dead⟩ ∧ (σ.calls.set u ⟨w', q⟩)[t]? = some ⟨true, .want⟩ := by
    intro u w' p q hp h1 h2
    rw [set_get hp, set_get hp]
    have hd : d ≠ u := by
      intro he
      subst he
      have := h.dead
      rw [hp] at this
      cases this
      exact h1 rfl
    have ht : t ≠ u := by
      intro he
      subst he
      have := h.want
      rw [hp] at this
      cases this
      exact h2 rfl
    rw [if_neg hd, if_neg ht]
    exact ⟨h.dead, h.want⟩
  cases hs with
  | call w' =>
    constructor
    · show (σ.calls ++ _)[d]? = _
      rw [List.getElem?_append_left (List.getElem?_eq_some_iff.1 h.dead).1]
      exact h.dead
    · show (σ.calls ++ _)[t]? = _
      rw [List.getElem?_append_left (List.getElem?_eq_some_iff.1 h.want).1]
      exact h.want
  | @acquire u w' hp hf =>
    have hdu : d ≠ u := by
      intro he
      subst he
      have := h.dead
      rw [hp] at this
      cases this
    have htu : t ≠ u := by
      intro he
      subst he
      have := h.want
      rw [hp] at this
      cases this
      have := List.all_eq_true.1 hf _ (List.mem_of_getElem? h.dead)
      simp [Pc.holds] at this
    constructor
    · show (σ.calls.set u _)[d]? = _
      rw [set_get hp, if_neg hdu]
      exact h.dead
    · show (σ.calls.set u _)[t]? = _
      rw [set_get hp, if_neg htu]
      exact h.want
  | hit hp hc => exact ⟨(key hp nofun nofun).1, (key hp nofun nofun).2⟩
  | miss hp => exact ⟨(key hp nofun nofun).1, (key hp nofun nofun).2⟩
  | join hp hl => exact ⟨(key hp nofun nofun).1, (key hp nofun nofun).2⟩
  | begin hp hl => exact ⟨(key hp nofun nofun).1, (key hp nofun nofun).2⟩
  | stored hp => exact ⟨(key hp nofun nofun).1, (key hp nofun nofun).2⟩
  | error hp => exact ⟨(key hp nofun nofun).1, (key hp nofun nofun).2⟩
  | panic hp => exact ⟨(key hp nofun nofun).1, (key hp nofun nofun).2⟩
  | close hp => exact ⟨(key hp nofun nofun).1, (key hp nofun nofun).2⟩
  | die hp => exact ⟨(key hp nofun nofun).1, (key hp nofun nofun).2⟩
  | wake hp hc => exact ⟨(key hp nofun nofun).1, (key hp nofun nofun).2⟩
  | deliver hp => exact ⟨(key hp nofun nofun).1, (key hp nofun nofun).2⟩
  | fail hp => exact ⟨(key hp nofun nofun).1, (key hp nofun nofun).2⟩
  | leave hp => exact ⟨(key hp nofun nofun).1, (key hp nofun nofun).2⟩
  | saved hp => exact ⟨(key hp nofun nofun).1, (key hp nofun nofun).2⟩
  | unsaved hp => exact ⟨(key hp nofun nofun).1, (key hp nofun nofun).2⟩
  | evict => exact ⟨h.dead, h.want⟩

/-- What is stored is what was saved last. -/
theorem step_cell {cached : Bool} {σ σ' : State} {l : Label} (hs : Step cached σ l σ') : σ'.cell = lastSaved σ.cell [l] := by
  cases hs <;> rfl

theorem lastSaved_append (cell : Option (List Element)) (ls ls' : List Label) :
    lastSaved cell (ls ++ ls') = lastSaved (lastSaved cell ls) ls' := by
  induction ls generalizing cell with
  | nil => rfl
  | cons l ls ih =>
    rw [List.cons_append]
    cases l with
    | save t v ok b => cases ok <;> exact ih _
    | _ => exact ih _

/-- Induction on runs. -/
theorem execs_ind {cached : Bool} {Q : List Label → State → Prop} {σ0 : State} (h0 : Q [] σ0)
    (hstep : ∀ ls σ l σ', Q ls σ → Step cached σ l σ' → Q (ls ++ [l]) σ') :
    ∀ {ls : List Label} {σ : State}, execs cached σ0 ls = some σ → Q ls σ := by
  have gen : ∀ (ls : List Label) (pre : List Label) (σ σ' : State), Q pre σ → execs cached σ ls = some σ' → Q (pre ++ ls) σ' := by
    intro ls
    induction ls with
    | nil =>
      intro pre σ σ' hq he
      cases he
      rw [List.append_nil]
      exact hq
    | cons l ls ih =>
      intro pre σ σ' hq he
      simp only [execs] at he
      obtain ⟨σ1, h1, h2⟩ := Option.bind_eq_some_iff.1 he
      have := ih (pre ++ [l]) σ1 σ' (hstep pre σ l σ1 hq (exec_step h1)) h2
      rw [List.append_assoc] at this
      exact this
  intro ls σ he
  exact gen ls [] σ0 σ h0 he

end RankDB.Loader

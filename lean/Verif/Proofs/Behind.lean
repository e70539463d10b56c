import Verif.Model.Behind
import Verif.Props.LazySaver
import Verif.Props.Bytes
/-
Lemmas about the server with the write-behind store.
-/
namespace RankDB.Behind
open Wire Stored Server Disk Files Spec Props
open Spec.LazySaver (last Uses Distinct NoFailure)

/-- All calls use the one set. -/
abbrev OneSet : Str → Str → Prop := fun s _ => s = []

theorem oneSet_distinct : Distinct OneSet := by
  intro s k s' k' h h' e
  unfold OneSet at h h'
  subst h
  subst h'
  simpa using e

theorem call_put {c : Setup} {lists : List Listing} {e : Effect} {l : LazySaver.Label} (h : call? c lists e = some l) :
    ∃ k b, l = .put [] k b := by
  cases e with
  | blob w => cases h; cases w <;> exact ⟨_, _, rfl⟩
  | put l => cases h
  | drop i => cases h
  | save => cases h; exact ⟨_, _, rfl⟩

theorem bstep_lazy {c : Setup} {n : Nat} {S T : Behind} {e : Option Files.Event} {r : Option Files.Response}
    {l : Option LazySaver.Label} (h : BStep c n S e r l T) :
    match (generalizing := false) l with
    | none => T.lazy = S.lazy
    | some l => LazySaver.enabled n S.lazy l ∧ T.lazy = LazySaver.step S.lazy l ∧ ∀ s k b, l = .put s k b → s = [] := by
  cases h with
  | arrive => rfl
  | @effect σ lists a e todo =>
    cases hc : call? c lists e with
    | none => rfl
    | some l =>
      obtain ⟨k, b, rfl⟩ := call_put hc
      refine ⟨trivial, rfl, ?_⟩
      intro s k' b' h
      cases h
      rfl
  | answer => rfl
  | ask => rfl
  | saver l hs he =>
    refine ⟨he, rfl, ?_⟩
    rintro s k b rfl
    cases hs

theorem brun_lazy {c : Setup} {n : Nat} {B T : Behind} {es : List Files.Event} {rs : List Files.Response}
    {ls : List LazySaver.Label} (h : BRun c n B es rs ls T) : LazySaver.Run n B.lazy ls T.lazy ∧ Uses OneSet ls := by
  induction h with
  | refl => exact ⟨.nil, fun s k b hm => by cases hm⟩
  | @step es rs ls S T e r l hr hs ih =>
    have h1 := bstep_lazy hs
    cases l with
    | none =>
      dsimp only at h1
      rw [h1]
      simpa using ih
    | some l =>
      obtain ⟨h1, h2, h3⟩ := h1
      rw [h2]
      refine ⟨.snoc ih.1 h1, ?_⟩
      intro s k b hm
      rcases List.mem_append.1 hm with hm | hm
      · exact ih.2 s k b hm
      · exact h3 s k b (List.mem_singleton.1 hm).symm

theorem brun_view {c : Setup} {F : Files} {T : Behind} {es : List Files.Event} {rs : List Files.Response}
    {ls : List LazySaver.Label} (h : BRun c 1 (begun F) es rs ls T) (hf : NoFailure ls) (k : Str) :
    view T.lazy k = last (fun _ k => F.blobs k) ls [] k := by
  obtain ⟨h1, h2⟩ := brun_lazy h
  exact C39_single_saver_partial _ OneSet oneSet_distinct ls T.lazy h1 hf h2 [] k rfl

theorem noFailure_left {a b : List LazySaver.Label} (h : NoFailure (a ++ b)) : NoFailure a :=
  fun i hm => h i (List.mem_append_left _ hm)

/-- A change is seen as it would be without the write-behind store. -/
theorem view_effect {c : Setup} {F : Files} {σ : LazySaver.State} {lists : List Listing} {a : Answer} {e : Effect} {todo : List Effect}
    {es : List Files.Event} {rs : List Files.Response} {ls : List LazySaver.Label}
    (h : BRun c 1 (begun F) es rs ls ⟨σ, lists, some ⟨a, e :: todo⟩⟩) (hf : NoFailure ls) :
    (⟨view (lazyAfter σ (call? c lists e)), listsAfter lists e⟩ : Files) =
      Files.apply c ⟨view σ, lists⟩ e := by
  have h2 := h.step (.effect (c := c) (n := 1))
  have hv : ∀ k, view σ k = _ := brun_view h hf
  cases hc : call? c lists e with
  | none =>
    cases e with
    | blob w => cases hc
    | put l => rfl
    | drop i => rfl
    | save => cases hc
  | some l =>
    have hf' : NoFailure (ls ++ (call? c lists e).toList) := by
      intro i hm
      rcases List.mem_append.1 hm with hm | hm
      · exact hf i hm
      · rw [hc] at hm
        obtain ⟨k, b, rfl⟩ := call_put hc
        simp at hm
    have hw : ∀ k, view _ k = _ := brun_view h2 hf'
    rw [hc] at hw
    simp only [lazyAfter] at hw ⊢
    have hset : ∀ (key : Str) (b : Option Bytes), l = .put [] key b → view (LazySaver.step σ l) = (view σ).set key b := by
      rintro key b rfl
      funext k
      rw [hw k]
      show last _ (ls ++ [_]) [] k = _
      rw [LazySaver.last_snoc]
      simp only [Blobs.set, true_and]
      rw [hv k]
    cases e with
    | blob w =>
      cases hc
      cases w <;> exact congrArg (fun b => (⟨b, lists⟩ : Files)) (hset _ _ rfl)
    | put l => cases hc
    | drop i => cases hc
    | save =>
      cases hc
      exact congrArg (fun b => (⟨b, lists⟩ : Files)) (hset _ _ rfl)

theorem view_saver {c : Setup} {F : Files} {σ : LazySaver.State} {lists : List Listing} {j : Option Job} {l : LazySaver.Label}
    {es : List Files.Event} {rs : List Files.Response} {ls : List LazySaver.Label}
    (h : BRun c 1 (begun F) es rs ls ⟨σ, lists, j⟩) (hs : ofSaver l = true) (he : LazySaver.enabled 1 σ l) (hf : NoFailure (ls ++ [l])) :
    view (LazySaver.step σ l) = view σ := by
  funext k
  have hv : view σ k = _ := brun_view h (noFailure_left hf) k
  have hw : view (LazySaver.step σ l) k = _ := brun_view (h.step (.saver l hs he)) hf k
  rw [hw, hv]
  show last _ (ls ++ [l]) [] k = _
  rw [LazySaver.last_snoc]
  cases l <;> first | rfl | cases hs

theorem seenOf_append (db : Db) (a b : List Files.Event) :
    seenOf db (a ++ b) = ((seenOf db a).1 ++ (seenOf (seenOf db a).2 b).1, (seenOf (seenOf db a).2 b).2) := by
  induction a generalizing db with
  | nil => rfl
  | cons x a ih =>
    cases x <;> simp only [List.cons_append, seenOf] <;> rw [ih]

theorem orderly_append {db : Db} {a b : List Files.Event} (h : Orderly db (a ++ b)) :
    Orderly db a ∧ Orderly (seenOf db a).2 b := by
  induction a generalizing db with
  | nil => exact ⟨trivial, h⟩
  | cons x a ih =>
    cases x with
    | change env r => obtain ⟨h1, h2⟩ := h; exact ⟨⟨h1, (ih h2).1⟩, (ih h2).2⟩
    | ask sch q => exact ih h
    | crash k env r => obtain ⟨h1, h2, h3⟩ := h; exact ⟨⟨h1, h2, (ih h3).1⟩, (ih h3).2⟩

/-- Where the server is: what it works with stands for `D`, which is what it would be without the write-behind store. -/
def Stage (c : Setup) (db : Db) (es : List Files.Event) (rs : List Files.Response) (T : Behind) (D : Db) : Prop :=
  Represents c T.files D ∧
  ((T.job = none ∧ D = (seenOf db es).2 ∧ rs = (seenOf db es).1) ∨
   ∃ es' env r a done todo, T.job = some ⟨a, todo⟩ ∧ es = es' ++ [.change env r] ∧ rs = (seenOf db es').1 ∧
     handle env (seenOf db es').2 r = (a, done ++ todo) ∧ D = Server.applyAll (seenOf db es').2 done)

theorem brun_trans {c : Setup} {n : Nat} {S T U : Behind} {es es' : List Files.Event} {rs rs' : List Files.Response}
    {ls ls' : List LazySaver.Label} (h : BRun c n S es rs ls T) (h' : BRun c n T es' rs' ls' U) :
    BRun c n S (es ++ es') (rs ++ rs') (ls ++ ls') U := by
  induction h' with
  | refl => simpa using h
  | step _ hs ih => rw [← List.append_assoc, ← List.append_assoc, ← List.append_assoc]; exact ih.step hs

/-- Every moment of the steps of the write-behind store is a moment of the run. -/
theorem brun_prefix {c : Setup} {n : Nat} {S T : Behind} {es : List Files.Event} {rs : List Files.Response}
    {ls p : List LazySaver.Label} (h : BRun c n S es rs ls T) (hp : p <+: ls) :
    ∃ es' rs' M, es' <+: es ∧ BRun c n S es' rs' p M := by
  induction h with
  | refl =>
    rw [List.prefix_nil] at hp
    subst hp
    exact ⟨[], [], S, List.prefix_rfl, .refl⟩
  | @step es rs ls M T e r l hr hs ih =>
    by_cases hle : p <+: ls
    · obtain ⟨es', rs', M, h1, h2⟩ := ih hle
      exact ⟨es', rs', M, h1.trans (List.prefix_append _ _), h2⟩
    · have : p = ls ++ l.toList := by
        obtain ⟨t, ht⟩ := hp
        cases l with
        | none =>
          exact absurd ⟨t, by simpa using ht⟩ hle
        | some l =>
          rcases List.eq_nil_or_concat t with rfl | ⟨t', x, rfl⟩
          · simpa using ht
          · simp only [Option.toList_some, List.concat_eq_append] at ht
            rw [← List.append_assoc] at ht
            exact absurd ⟨t', (List.append_inj' ht rfl).1⟩ hle
      rw [this]
      exact ⟨_, _, T, List.prefix_rfl, hr.step hs⟩

theorem brun_noCrash {c : Setup} {n : Nat} {S T : Behind} {es : List Files.Event} {rs : List Files.Response}
    {ls : List LazySaver.Label} (h : BRun c n S es rs ls T) (k : Nat) (env : Env) (r : Request) : Files.Event.crash k env r ∉ es := by
  induction h with
  | refl => simp
  | step _ hs ih =>
    rw [List.mem_append, not_or]
    refine ⟨ih, ?_⟩
    cases hs <;> simp

theorem behind_run {c : Setup} {F : Files} {db : Db} {S T : Behind} {es0 es : List Files.Event} {rs0 rs : List Files.Response}
    {ls0 ls : List LazySaver.Label} (h0 : BRun c 1 (begun F) es0 rs0 ls0 S) (hj : S.job = none) (hg : Good db) (hb : AllFit db)
    (hr : Represents c S.files db) (h : BRun c 1 S es rs ls T) (hf : NoFailure (ls0 ++ ls)) (ho : Orderly db es) :
    ∃ D, Stage c db es rs T D := by
  induction h with
  | refl =>
    exact ⟨db, hr, .inl ⟨hj, rfl, rfl⟩⟩
  | @step es rs ls M T e r l hrun hs ih =>
    rw [← List.append_assoc] at hf
    have hrun := brun_trans h0 hrun
    obtain ⟨D, hrep, hst⟩ := ih (noFailure_left hf) (orderly_append ho).1
    have hist := fun es' (h : Orderly db es') => bytes_history c S.files db es' hg hb hr h
    cases hs with
    | arrive env r =>
      rcases hst with ⟨-, rfl, rfl⟩ | ⟨_, _, _, _, _, _, h1, -⟩
      · obtain ⟨o1, o2⟩ := orderly_append ho
        obtain ⟨-, -, g1, g2⟩ := hist es o1
        have hh := represents_handle (env := env) (r := r) hrep g2.lists
        refine ⟨_, hrep, .inr ⟨es, env, r, _, [], _, rfl, rfl, by simp, ?_, rfl⟩⟩
        rw [List.nil_append]
        exact hh.symm
      · cases h1
    | @effect σ lists a e todo =>
      rcases hst with ⟨h1, -⟩ | ⟨es', env, r, a', done, todo', h1, rfl, rfl, h2, rfl⟩
      · cases h1
      · cases h1
        obtain ⟨o1, o2⟩ := orderly_append (orderly_append ho).1
        obtain ⟨-, -, g1, g2⟩ := hist es' o1
        have ha : Asks env (seenOf db es').2 r := o2.1
        refine ⟨Server.applyAll (seenOf db es').2 (done ++ [e]), ?_, .inr ⟨es', env, r, a, done ++ [e], todo, rfl, by simp, by simp, ?_, rfl⟩⟩
        · have hm : ∀ x ∈ done, x ∈ (handle env (seenOf db es').2 r).2 := fun x hx => by
            rw [h2]; exact List.mem_append_left _ hx
          have hsub : e ∈ (handle env (seenOf db es').2 r).2 := by rw [h2]; simp
          have hfit := fit_effects g1 g2 ha hm
          have hid : ((Server.applyAll (seenOf db es').2 done).lists.map (·.id)).Nodup := applyAll_ids _ g1.ids
          have := represents_apply (e := e) hrep (fun w hw => by
            subst hw
            exact ⟨handle_fits g1 g2.bounds.store ha.fits ha.allowed ha.room w hsub, handle_names g1 g2 ha w hsub⟩) hfit.lists hid
          have hv := view_effect hrun (noFailure_left hf)
          show Represents c ⟨view (lazyAfter σ (call? c lists e)), listsAfter lists e⟩ _
          rw [hv]
          unfold Server.applyAll
          rw [List.foldl_append]
          exact this
        · rw [h2, List.append_assoc]; rfl
    | @answer σ lists a =>
      rcases hst with ⟨h1, -⟩ | ⟨es', env, r, a', done, todo', h1, rfl, rfl, h2, rfl⟩
      · cases h1
      · cases h1
        rw [List.append_nil] at h2
        refine ⟨_, hrep, .inl ⟨rfl, ?_, ?_⟩⟩
        · simp only [Option.toList_none, List.append_nil]
          rw [seenOf_append]
          simp only [seenOf, Server.serve, h2]
        · simp only [Option.toList_none, List.append_nil]
          rw [seenOf_append]
          simp only [seenOf, Server.serve, h2, Option.toList_some]
    | ask sch q =>
      rcases hst with ⟨-, rfl, rfl⟩ | ⟨_, _, _, _, _, _, h1, -⟩
      · obtain ⟨o1, o2⟩ := orderly_append ho
        obtain ⟨-, -, g1, g2⟩ := hist es o1
        have hh := represents_ask (sch := sch) (q := q) hrep g2.lists
        refine ⟨_, hrep, .inl ⟨rfl, ?_, ?_⟩⟩
        · simp only [Option.toList_some]
          rw [seenOf_append]
          rfl
        · simp only [Option.toList_some]
          rw [seenOf_append]
          simp only [seenOf]
          rw [← hh]
          rfl
      · cases h1
    | @saver σ lists j l hs he =>
      have hv := view_saver hrun hs he hf
      refine ⟨D, ?_, ?_⟩
      · show Represents c ⟨view (LazySaver.step σ l), lists⟩ _
        rw [hv]
        exact hrep
      · simp only [Option.toList_none, List.append_nil]
        exact hst

/-! ### Lists that requests are not about -/

theorem effects_same {env : Env} {db : Db} {r : Request} {id : Str} {es : List Effect} (hg : Good db) (hf : Fits env db)
    (hes : ∀ e ∈ es, e ∈ (handle env db r).2) (ht : target r ≠ some id) (hk : byID db.file id = byID db.lists id) :
    SameFor (Server.applyAll db es) db id ∧ byID (Server.applyAll db es).file id = byID db.lists id := by
  have hown := fun e he => handle_own hg hf e (hes e he)
  have hnm : ¬ Moves r id := by
    intro hx
    apply ht
    cases r <;> simp only [Moves] at hx <;> first | exact hx.elim | (subst hx; rfl)
  obtain ⟨e1, e2⟩ := applyAll_entry es db hnm hown
  refine ⟨⟨e1, fun l hl n hn => applyAll_agree db fun e he hb => ?_⟩, e2 hk⟩
  obtain ⟨hm, hid⟩ := byID_mem hl
  have ho := hown e he
  cases e with
  | blob w =>
    have hp : w.parent = n := by simpa [blobOf] using hb
    have hfr := hf.fresh l (List.mem_append_left _ hm)
    rcases ho with h1 | h1 | ⟨x, hx, hxt, hxn⟩
    · exact hfr.1 (by rw [← h1, hp]; exact hn)
    · exact hfr.2 (by rw [← h1, hp]; exact hn)
    · refine ht ?_
      rw [hxt, hg.names x hx l hm _ (hp ▸ hxn) hn, hid]
  | put l => simp [blobOf] at hb
  | drop i => simp [blobOf] at hb
  | save => simp [blobOf] at hb

theorem same_trans {a b d : Db} {id : Str} (h : SameFor a b id) (h' : SameFor b d id) : SameFor a d id := by
  refine ⟨h.entry.trans h'.entry, fun l hl n hn => ?_⟩
  obtain ⟨x1, x2⟩ := h.blobs l (h'.entry.trans hl) n hn
  obtain ⟨y1, y2⟩ := h'.blobs l hl n hn
  exact ⟨x1.trans y1, fun j => (x2 j).trans (y2 j)⟩

theorem seenOf_same {db : Db} {id : Str} {es : List Files.Event} (hg : Good db) (ho : Orderly db es)
    (hc : ∀ k env r, Files.Event.crash k env r ∉ es) (ht : ∀ env r, Files.Event.change env r ∈ es → target r ≠ some id)
    (hk : byID db.file id = byID db.lists id) :
    Good (seenOf db es).2 ∧ SameFor (seenOf db es).2 db id ∧ byID (seenOf db es).2.file id = byID db.lists id := by
  induction es generalizing db with
  | nil => exact ⟨hg, ⟨rfl, fun _ _ _ _ => ⟨rfl, fun _ => rfl⟩⟩, hk⟩
  | cons x es ih =>
    have hc' := fun k env r hm => hc k env r (List.mem_cons_of_mem _ hm)
    have ht' := fun env r hm => ht env r (List.mem_cons_of_mem _ hm)
    cases x with
    | change env r =>
      obtain ⟨ha, ho⟩ := ho
      obtain ⟨h1, h2⟩ := effects_same (es := (handle env db r).2) hg ha.fits (fun _ hm => hm) (ht env r List.mem_cons_self) hk
      obtain ⟨i1, i2, i3⟩ := ih (db := (Server.serve env db r).2) (C70_request env db r hg ha.fits ha.allowed).1 ho hc' ht'
        (h2.trans h1.entry.symm)
      exact ⟨i1, same_trans i2 h1, i3.trans h1.entry⟩
    | ask sch q => exact ih hg ho hc' ht' hk
    | crash k env r => exact absurd List.mem_cons_self (hc k env r)

theorem stage_same {c : Setup} {db D : Db} {id : Str} {es : List Files.Event} {rs : List Files.Response} {T : Behind} (hg : Good db)
    (ho : Orderly db es) (hc : ∀ k env r, Files.Event.crash k env r ∉ es)
    (ht : ∀ env r, Files.Event.change env r ∈ es → target r ≠ some id) (hk : byID db.file id = byID db.lists id)
    (h : Stage c db es rs T D) : SameFor D db id ∧ byID D.file id = byID db.lists id := by
  rcases h.2 with ⟨-, rfl, -⟩ | ⟨es', env, r, a, done, todo, -, rfl, -, h2, rfl⟩
  · exact (seenOf_same hg ho hc ht hk).2
  · obtain ⟨o1, o2⟩ := orderly_append ho
    obtain ⟨i1, i2, i3⟩ := seenOf_same hg o1 (fun k env r hm => hc k env r (List.mem_append_left _ hm))
      (fun env r hm => ht env r (List.mem_append_left _ hm)) hk
    obtain ⟨h3, h4⟩ := effects_same (es := done) (r := r) i1 o2.1.fits (fun e he => by rw [h2]; exact List.mem_append_left _ he)
      (ht env r (by simp)) (i3.trans i2.entry.symm)
    exact ⟨same_trans h3 i2, h4.trans i2.entry⟩

end RankDB.Behind

import Verif.Props.Server
import Verif.Props.SplitCrash
import Verif.Model.Recover
/-
Helper lemmas for the repair of a list after a crash.
-/
namespace RankDB.Server
open Spec Disk Props

/-- The storage has both tables of a list, and whatever segments can be found have elements of `S` only. -/
def Found (d : Store) (ent : Entry) (S : List Element) : Prop :=
  ∃ s0 i0, d.heads ent.scores = some s0 ∧ d.heads ent.index = some i0 ∧
    ∀ g ∈ s0.segs, ∀ l, d.elems ent.scores g.id = some l → ∀ e ∈ l, e ∈ S

theorem mixed_found {d : Store} {ent : Entry} {st st' : ListState} (hm : Mixed d ent st st') :
    Found d ent (st.content ++ st'.content) := by
  obtain ⟨⟨s0, h1, h2⟩, ⟨i0, h2'⟩, h3⟩ := hm
  refine ⟨s0, i0, h1, h2', ?_⟩
  intro g hg l hl e he
  have : g.id ∈ st.scores.segs.map (·.id) := by rw [← h2]; exact List.mem_map.2 ⟨g, hg, rfl⟩
  obtain ⟨o, ho, hid⟩ := List.mem_map.1 this
  rw [← hid] at hl
  rw [List.mem_append]
  rcases h3 o ho with hx | ⟨g', hg', hid', hx⟩
  · rw [hx, Option.some.injEq] at hl
    exact .inl (mem_allElems.2 ⟨o, ho, hl ▸ he⟩)
  · rw [hx, Option.some.injEq] at hl
    exact .inr (mem_allElems.2 ⟨g', hg', hl ▸ he⟩)

/-- The repair of one list of a server that is in good order except for it. The server is given as one in good order,
and the writes `ws` to the list. -/
theorem repaired_of_found {env : Env} {db : Db} {l : Listing} {ws : List Write} {S : List Element} (h : Good db) (hl : l ∈ db.lists)
    (hw : ∀ w ∈ ws, w.parent = l.ent.scores ∨ w.parent = l.ent.index)
    (hfound : Found (writes db.store ws) l.ent S) (hS : ∀ e ∈ S, Storable e) (hlen : S.length + 2 ≤ 2 ^ 32)
    (hf : Fits env db) :
    ∃ r, Disk.repair env.now env.sch env.shuffle env.reduce (writes db.store ws) l.ent = some r ∧ ListOK r ∧
      (repaired env { db with store := writes db.store ws } l.id).1 = .ok ∧
      Good (repaired env { db with store := writes db.store ws } l.id).2 ∧
      look (repaired env { db with store := writes db.store ws } l.id).2 = (look db).set l.id (some (viewOf l r)) ∧
      (repaired env { db with store := writes db.store ws } l.id).2.file = db.file ∧
      reload (repaired env { db with store := writes db.store ws } l.id).2.store l.ent = none := by
  obtain ⟨s0, i0, h1, h2, h3⟩ := hfound
  obtain ⟨r, hr, hok, -, -⟩ := repair_any (now := env.now) (sch := env.sch) (shuffle := env.shuffle) (reduce := env.reduce)
    h1 h2 hS hlen h3 hf.reduce (h.sizes l hl)
  refine ⟨r, hr, hok, ?_⟩
  have hb : byID db.lists l.id = some l := byID_of_mem h.ids hl
  generalize hd : writes db.store ws = d at *
  let new : Entry := { l.ent with scores := env.scores, index := env.index }
  let st : ListState := { scores := { s0 with segs := s0.segs.map (fill d l.ent.scores) }, index := i0
                          mergeSize := l.ent.mergeSize, splitSize := l.ent.splitSize }
  let lost : Seg → Bool := fun g => (d.elems l.ent.scores g.id).isNone
  let found := (st.scores.segs.filter fun g => !(lost g)).flatMap fun g => (Elements.deduplicate g.elems).1
  have hrep : Lists.repair env.now env.sch env.shuffle env.reduce lost st = some r := by
    have := hr
    unfold Disk.repair at this
    rw [h1, h2] at this
    exact this
  have hany : repairAny env { db with store := d } l.id =
      (.ok, (Disk.populate env.now env.sch env.shuffle env.reduce l.ent new st (Elements.deduplicate found).1).map .blob ++
        [.put { l with ent := new }]) := by
    unfold repairAny
    dsimp only
    rw [hb]
    dsimp only
    rw [h1, h2]
    dsimp only
    show (match Lists.repair env.now env.sch env.shuffle env.reduce lost st with | none => _ | some _ => _) = _
    rw [hrep]
  -- the elements
  obtain ⟨-, d2, d3, -, -⟩ := Elements.deduplicate_spec found
  have hin : ∀ e ∈ (Elements.deduplicate found).1, e ∈ S := by
    intro e he
    obtain ⟨g, hg, hge⟩ := List.mem_flatMap.1 (d3 e he)
    obtain ⟨hg1, hg2⟩ := List.mem_filter.1 hg
    obtain ⟨g0, hg0, rfl⟩ := List.mem_map.1 hg1
    have hge := (Elements.deduplicate_spec _).2.2.1 e hge
    cases hx : d.elems l.ent.scores g0.id with
    | none =>
      have : lost (fill d l.ent.scores g0) = true := by
        show (d.elems l.ent.scores g0.id).isNone = true
        rw [hx]; rfl
      rw [this] at hg2
      simp at hg2
    | some el =>
      have : (fill d l.ent.scores g0).elems = el := by unfold fill; rw [hx]; rfl
      rw [this] at hge
      exact h3 g0 hg0 el hx e hge
  have hlen' : (Elements.deduplicate found).1.length + 2 ≤ 2 ^ 32 := by
    have : ((Elements.deduplicate found).1.map (·.id)).length ≤ (S.map (·.id)).length := by
      apply nodup_length_le d2
      intro i hid
      obtain ⟨e, he, rfl⟩ := List.mem_map.1 hid
      exact List.mem_map.2 ⟨e, hin e he, rfl⟩
    simp only [List.length_map] at this
    omega
  have hfr := hf.fresh l (List.mem_append_left _ hl)
  have i1 : reload (writes d (Disk.populate env.now env.sch env.shuffle env.reduce l.ent new st (Elements.deduplicate found).1)) new
      = some r := populate_reload d (ent := l.ent) hf.differ rfl rfl hrep d2 (fun e he => hS e (hin e he)) hlen'
  have hg := good_put (l := { l with ent := new })
    (ws := ws ++ Disk.populate env.now env.sch env.shuffle env.reduce l.ent new st (Elements.deduplicate found).1) h hf.differ
    (h.sizes l hl) (fun x hx _ => hf.fresh x (List.mem_append_left _ hx))
    (by
      intro w hwm
      rcases List.mem_append.1 hwm with h5 | h5
      · refine .inr ⟨l, hl, rfl, ?_⟩
        rcases hw w h5 with h6 | h6 <;> simp [names, h6]
      · rcases parent_populate w h5 with (h6 | h6) | (h6 | h6)
        · exact .inr ⟨l, hl, rfl, by simp [names, h6]⟩
        · exact .inr ⟨l, hl, rfl, by simp [names, h6]⟩
        · exact .inl (by simp [names, h6])
        · exact .inl (by simp [names, h6]))
    (by rw [writes_append, hd]; exact i1) hok
  rw [writes_append, hd] at hg
  have hs : repaired env { db with store := d } l.id = (.ok, { db with
      store := writes d (Disk.populate env.now env.sch env.shuffle env.reduce l.ent new st (Elements.deduplicate found).1)
      lists := { l with ent := new } :: db.lists.filter fun x => x.id != l.id }) := by
    unfold repaired
    rw [hany]
    dsimp only
    rw [applyAll_append, applyAll_blobs]
    rfl
  rw [hs]
  refine ⟨rfl, hg.1, hg.2, rfl, ?_⟩
  dsimp only
  unfold Disk.populate
  rw [writes_append, writes_append]
  have hgone : loadSegs (writes (writes (writes d (deleteSegs env.sch l.ent.scores st.scores.segs))
      (deleteSegs env.sch l.ent.index st.index.segs)) (populateNew env.now env.sch env.shuffle env.reduce new
        (Elements.deduplicate found).1)) l.ent.index = none := by
    rw [loadSegs_other]
    · unfold loadSegs
      rw [deleteSegs_gone]
    · intro w hw he
      rcases parent_populateNew w hw with h1 | h1
      · exact hfr.1 (by rw [show env.scores = _ from h1.symm.trans he]; simp [names])
      · exact hfr.2 (by rw [show env.index = _ from h1.symm.trans he]; simp [names])
  unfold reload
  rw [hgone]
  cases loadSegs _ l.ent.scores <;> rfl

end RankDB.Server

import Verif.Props.Server
/-
C72: creating lists at the same time. `Create` (api/lists.go:27-78) and `Clone` (api/lists.go:315-360) look for the ID
first and add the list at the end; nothing is locked in between.
-/
namespace RankDB.Props
open Spec Server Disk

/-- Two requests that both look up the catalogue `db` before either changes it; then the changes of the first are
made, and those of the second. -/
def together (env env' : Env) (db : Db) (r r' : Request) : (Answer × Answer) × Db :=
  (((handle env db r).1, (handle env' db r').1), applyAll (applyAll db (handle env db r).2) (handle env' db r').2)

theorem create_free {env : Env} {db : Db} {p : Payload} (hb : byID db.lists p.id = none)
    (hok : (handle env db (.create false p)).1 = .ok) :
    (handle env db (.create false p)).2 =
      (populateNew env.now env.sch env.shuffle env.reduce (listing env p).ent (initial env p)).map .blob ++ [.put (listing env p)] := by
  have hun : handle env db (.create false p) = create env db false p := rfl
  rw [hun] at hok ⊢
  unfold create at hok ⊢
  rw [hb] at hok ⊢
  simp only [Option.isSome_none, Bool.false_and, Bool.false_eq_true, if_false, List.append_nil] at hok ⊢
  split at hok
  · simp at hok
  · rename_i hacc
    split at hok
    · simp at hok
    · rename_i x hx
      rw [if_neg hacc]

/-- Whatever the server, whatever the lists: of two requests to create a list with the same free ID, without
replacing, both can succeed. Then the elements of the first are gone; no request deleted them. -/
theorem C72_both_created (env env' : Env) (db : Db) (p p' : Payload) (h : Good db) (hf : Fits env db) (hf' : Fits env' db)
    (hnames : env'.scores ≠ env.scores ∧ env'.scores ≠ env.index ∧ env'.index ≠ env.scores ∧ env'.index ≠ env.index)
    (ha : Spec.Allowed db (.create false p)) (ha' : Spec.Allowed db (.create false p')) (hid : p'.id = p.id)
    (hfree : look db p.id = none) (hsize : p.mergeSize < p.splitSize) (hset : p.set ≠ [])
    (hsize' : p'.mergeSize < p'.splitSize) (hset' : p'.set ≠ []) :
    (together env env' db (.create false p) (.create false p')).1 = (.ok, .ok) ∧
    ∃ es, Chosen env'.now (p'.populate.getD []) es ∧
      look (together env env' db (.create false p) (.create false p')).2 p.id = some (seen p' (ranking es)) := by
  have hb : byID db.lists p.id = none := by
    rcases Server.Good.look h (id := p.id) with ⟨l, st, -, -, -, -, -, h6⟩ | ⟨h1, -⟩
    · rw [h6] at hfree; simp at hfree
    · exact h1
  obtain ⟨ok1, -, -⟩ := C69_create env db false p h hf ha (.inl (by rw [hfree]; rfl)) hsize hset
  obtain ⟨ok2, -, -⟩ := C69_create env' db false p' h hf' ha' (.inl (by rw [hid, hfree]; rfl)) hsize' hset'
  have g1 := (C70_request env db _ h hf ha).1
  have hdb1 : applyAll db (handle env db (.create false p)).2 = (serve env db (.create false p)).2 := rfl
  have e1 := create_free hb ok1
  have e2 := create_free (p := p') (by rw [hid]; exact hb) ok2
  have hl1 : (serve env db (.create false p)).2.lists = listing env p :: db.lists.filter fun x => x.id != p.id := by
    rw [← hdb1, e1, applyAll_append, applyAll_blobs]; rfl
  obtain ⟨hsz, hst, hlen⟩ := ha'
  have hc := initial_chosen env' p'
  obtain ⟨st', hpop⟩ := C14_populate_returns env'.now env'.sch env'.shuffle env'.reduce p'.mergeSize p'.splitSize (initial env' p')
    hc.distinct (chosen_storable hc hst hf'.now.2) (by have := chosen_length hc; omega) hf'.reduce hsz
  obtain ⟨hok, hcon⟩ := C14_populate env'.now env'.sch env'.shuffle env'.reduce p'.mergeSize p'.splitSize (initial env' p') st'
    hc.distinct (chosen_storable hc hst hf'.now.2) (by have := chosen_length hc; omega) hpop
  refine ⟨Prod.ext ok1 ok2, initial env' p', hc, ?_⟩
  show look (applyAll (applyAll db (handle env db (.create false p)).2) (handle env' db (.create false p')).2) p.id = _
  rw [hdb1, e2, applyAll_append, applyAll_blobs]
  generalize (serve env db (.create false p)).2 = db1 at *
  have hnew : reload (writes db1.store (populateNew env'.now env'.sch env'.shuffle env'.reduce (listing env' p').ent (initial env' p')))
      (listing env' p').ent = some st' :=
    populateNew_reload (new := (listing env' p').ent) db1.store hf'.differ hpop hc.distinct
      (chosen_storable hc hst hf'.now.2) (by have := chosen_length hc; omega)
  have hg := good_put (l := listing env' p') g1 hf'.differ hsz
    (fun x hx _ => by
      rw [hl1] at hx
      rcases List.mem_cons.1 hx with h1 | h1
      · rw [h1]
        simp only [names, listing, List.mem_cons, List.not_mem_nil, or_false, not_or]
        exact ⟨⟨hnames.1, hnames.2.1⟩, hnames.2.2.1, hnames.2.2.2⟩
      · exact hf'.fresh x (List.mem_append_left _ (List.mem_filter.1 h1).1))
    (fun w hw => by
      left
      unfold names
      rcases parent_populateNew w hw with h1 | h1 <;> simp [h1]) hnew hok
  have : look (apply { db1 with store := writes db1.store (populateNew env'.now env'.sch env'.shuffle env'.reduce
      (listing env' p').ent (initial env' p')) } (.put (listing env' p'))) = _ := hg.2
  show look (apply _ (.put (listing env' p'))) p.id = _
  rw [this]
  unfold Lists.set
  rw [if_pos (show p.id = (listing env' p').id from hid.symm)]
  unfold viewOf seen
  rw [hcon]
  rfl

/-- One after the other the second is refused, and the first stays. -/
theorem C72_in_order_partial (env env' : Env) (db : Db) (p p' : Payload) (h : Good db) (hf : Fits env db)
    (ha : Spec.Allowed db (.create false p)) (hid : p'.id = p.id) (hfree : look db p.id = none)
    (hsize : p.mergeSize < p.splitSize) (hset : p.set ≠ []) :
    (serve env db (.create false p)).1 = .ok ∧
    serve env' (serve env db (.create false p)).2 (.create false p') = (.conflict, (serve env db (.create false p)).2) := by
  obtain ⟨ok1, ⟨es, -, h2⟩, -⟩ := C69_create env db false p h hf ha (.inl (by rw [hfree]; rfl)) hsize hset
  exact ⟨ok1, C69_conflict env' _ p' (C70_request env db _ h hf ha).1 (by rw [hid, h2]; rfl)⟩

example : Good exDb ∧ Fits exEnv exDb ∧ Fits exEnv2 exDb ∧ Spec.Allowed exDb (.create false exPayload) ∧ look exDb exPayload.id = none ∧
    (exEnv2.scores ≠ exEnv.scores ∧ exEnv2.scores ≠ exEnv.index ∧ exEnv2.index ≠ exEnv.scores ∧ exEnv2.index ≠ exEnv.index) :=
  ⟨exDb_good, exEnv_fits, ⟨by decide, by decide, by decide, fun _ h => h⟩, by unfold Spec.Allowed; decide +kernel,
    by decide +kernel, by decide⟩

/-- The elements of the first are lost. -/
example : (((together exEnv exEnv2 exDb (.create false exPayload) (.create false { exPayload with populate := some [⟨1, 44, [], 0, 0⟩] })).1,
    (look (together exEnv exEnv2 exDb (.create false exPayload) (.create false { exPayload with populate := some [⟨1, 44, [], 0, 0⟩] })).2
      [66]).map fun s => s.content.map (·.id))) = ((.ok, .ok), some [44]) := by decide +kernel

end RankDB.Props

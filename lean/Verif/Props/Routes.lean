import Verif.Proofs.Routes
import Verif.Props.ServerRestore
/-
C114: requests made with the client library arrive as the operation, and for the list and the element, that they name.
-/
namespace RankDB.Props
open Spec Routes Server

/-- No path fits two routes, so it does not matter in which order the router looks at them. -/
theorem C114_one_route (m : Method) (path : Str) : ∀ r ∈ routes, ∀ r' ∈ routes, r.method = m → r'.method = m →
    (fits r.parts (pieces path)).isSome → (fits r'.parts (pieces path)).isSome → r = r' := fun r hr r' hr' hm hm' h h' =>
  (routes_apart r hr r' hr' (hm.trans hm'.symm)).elim id fun hap => (apart_fits hap h h').elim

example : routes.length = 31 ∧ (routes.filter fun r => (fits r.parts (pieces (w "lists/top/elements/find"))).isSome).map (·.action) =
    [.deleteElement, .getElement, .getElements, .putElement] := by decide +kernel

/-- Every call whose parameters can be part of a path arrives as what it means. -/
theorem C114_arrives (c : Call) (h : PathParams c) : route c.method c.path = some (meant c) := by
  obtain ⟨r, hr, h1, h2, h3, h4⟩ := call_route c
  rw [h4]
  refine route_iff.2 ⟨r, hr, h1, h2, ?_⟩
  obtain ⟨t1, t2⟩ := routes_texts r hr
  rw [pieces_joined (filled_ne_nil t1) (filled_noSlash t2 fun v hv => (h v hv).2)]
  exact fits_filled h3 fun v hv => (h v hv).1

example : PathParams (.putElement (w "top-10") (w "42")) ∧ Call.path (.putElement (w "top-10") (w "42")) = w "/lists/top-10/elements/42" := by
  constructor
  · intro x hx
    simp only [meant, List.mem_cons, List.not_mem_nil, or_false] at hx
    rcases hx with rfl | rfl <;> decide
  · decide +kernel

/-- Two different calls are never the same request. -/
theorem C114_distinct (c c' : Call) (h : PathParams c) (h' : PathParams c') (hm : c.method = c'.method)
    (hp : c.path = c'.path) : meant c = meant c' := by
  have h1 := C114_arrives c h
  rw [hm, hp, C114_arrives c' h'] at h1
  exact (Option.some.inj h1).symm

/-- Every request that reaches an operation can be made with the client. -/
theorem C114_client_complete (m : Method) (path : Str) (a : Action) (ps : List Str) (h : route m path = some (a, ps)) :
    ∃ c : Call, c.method = m ∧ c.path = path ∧ meant c = (a, ps) ∧ PathParams c := by
  have hslash : ∃ p, path = 47 :: p := by
    unfold route at h
    split at h
    · exact ⟨_, rfl⟩
    · nomatch h
  obtain ⟨p, rfl⟩ := hslash
  obtain ⟨r, hr, rfl, rfl, hf⟩ := route_iff.1 h
  obtain ⟨f1, f2, f3⟩ := filled_of_fits hf
  obtain ⟨c, c1, c2⟩ := route_call r hr ps f2
  obtain ⟨r', hr', -, d2, -, d4⟩ := call_route c
  rw [c2] at d2 d4
  have hrr := routes_actions r' hr' r hr d2
  subst hrr
  refine ⟨c, c1, ?_, c2, fun x hx => ?_⟩
  · rw [d4, ← f1, joined_pieces]
  · rw [c2] at hx
    exact ⟨(f3 x hx).1, pieces_mem (f3 x hx).2⟩

example : route .delete (w "/lists/top-10/elements/42") = some (.deleteElement, [w "top-10", w "42"]) ∧
    route .delete (w "/lists//elements/42") = none ∧ route .post (w "/lists/top-10/elements/42") = none := by decide +kernel

/-- The IDs that the server accepts can be part of a path. -/
theorem C114_accepted {s : Str} (h : Validate.okListID s = true ∨ Validate.okElementID s = true) : s ≠ [] ∧ 47 ∉ s := by
  unfold Validate.okListID Validate.okElementID at h
  simp only [Bool.and_eq_true, Bool.not_eq_true', List.isEmpty_eq_false_iff] at h
  refine ⟨h.elim (fun h => h.1.1.1) fun h => h.1.1.1, fun hm => ?_⟩
  rcases h with h | h
  · exact absurd (List.all_eq_true.1 h.1.1.2 47 hm) (by decide)
  · exact absurd (List.all_eq_true.1 h.1.1.2 47 hm) (by decide)

example : Validate.okListID (w "top-10") = true ∧ Validate.okElementID (w "42") = true ∧ Validate.okListID (w "a/b") = false := by
  decide +kernel

/-- For other lists it is false, and a restoration can make such lists, since its suffix is not checked. Deleting the list
`top/elements/42` deletes the element 42 of the list `top`. -/
theorem C114_other_operation (l e : Str) (hl : l ≠ [] ∧ 47 ∉ l) (he : e ≠ [] ∧ 47 ∉ e) :
    route (Call.method (.deleteList (l ++ w "/elements/" ++ e))) (Call.path (.deleteList (l ++ w "/elements/" ++ e))) =
      some (.deleteElement, [l, e]) := by
  have h := C114_arrives (.deleteElement l e) (by
    intro x hx
    simp only [meant, List.mem_cons, List.not_mem_nil, or_false] at hx
    rcases hx with rfl | rfl
    · exact hl
    · exact he)
  have hp : Call.path (.deleteList (l ++ w "/elements/" ++ e)) = Call.path (.deleteElement l e) := by
    simp [Call.path]
  rw [hp]
  exact h

/-- A restoration of lists beside the originals, with such a suffix: the copy is there, the list itself is as before, and the
request to delete the copy is one to delete an element of the list. -/
theorem C114_restored (db : Db) (ids : List Str) (e : Str) (env : Nat → Names)
    (h : Good db) (hfit : Files.AllFit db) (hids : ids.Nodup) (hbig : ∀ id ∈ ids, FitsBackup db id)
    (hn : FreshNames env db) (id : Str) (hid : id ∈ ids) (s : Seen) (hs : look db id = some s)
    (hok : id ≠ [] ∧ 47 ∉ id) (he : e ≠ [] ∧ 47 ∉ e) :
    let copy := id ++ w "/elements/" ++ e
    let db' := restored [] (w "/elements/" ++ e) true env db (Backup.backupSet (payloadOf db) ids).1
    look db' copy = some (fromBackup s) ∧ look db' id = some s ∧
    route (Call.method (.deleteList copy)) (Call.path (.deleteList copy)) = some (.deleteElement, [id, e]) := by
  obtain ⟨-, h2, h3, -⟩ := C92_restored_partial db db ids [] (w "/elements/" ++ e) true env h hfit hids hbig h hn
  refine ⟨by have := h2 id hid s hs; simpa using this, ?_, C114_other_operation id e hok he⟩
  rw [← hs]
  refine h3 id fun x _ _ hx => hok.2 ?_
  rw [hx]
  simp [w, slash_byte]

example : Good exStopped ∧ Files.AllFit exStopped ∧ exIds.Nodup ∧ (∀ id ∈ exIds, FitsBackup exStopped id) ∧
    FreshNames exNames exStopped ∧ [67] ∈ exIds ∧ (look exStopped [67]).isSome ∧ (47 : UInt8) ∉ [(67 : UInt8)] ∧
    exShown (restored [] (w "/elements/3") true exNames exStopped exSet) (67 :: w "/elements/3") =
      some [(3, 9), (2, 9), (1, 3), (77, 1)] ∧
    route .delete (Call.path (.deleteList (67 :: w "/elements/3"))) = some (.deleteElement, [[67], w "3"]) :=
  ⟨exStopped_good, exStopped_fit, by decide +kernel, exIds_fit, exNames_fresh _ (by decide +kernel), by decide +kernel,
    by decide +kernel, by decide, by decide +kernel, by decide +kernel⟩

end RankDB.Props

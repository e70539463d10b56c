import Verif.Props.Validate
import Verif.Proofs.Order
/-
C86: the payload of an element is stored untouched, and an update without payload should leave it as it is.
-/
namespace RankDB.Props
open Spec Server Validate

theorem chosen_one {now : Nat} {e : Element} {es : List Element} (h : Chosen now [e] es) : es = [{ e with updated := now }] := by
  obtain ⟨h1, h2, h3⟩ := h
  have hall : ∀ x ∈ es, x = { e with updated := now } := by
    intro x hx
    obtain ⟨y, hy, rfl⟩ := h2 x hx
    simp at hy
    rw [hy]
  cases es with
  | nil =>
    obtain ⟨x, hx, -⟩ := h3 e (by simp)
    simp at hx
  | cons x xs =>
    have hx := hall x List.mem_cons_self
    cases xs with
    | nil => rw [hx]
    | cons y ys =>
      have hy := hall y (by simp)
      subst hx hy
      simp [DistinctIDs] at h1

theorem put_one_look (env : Env) (db : Db) (id eid : Str) (range : Option Str) (b : RawElement) (e : Element) (l : Seen)
    (h : Good db) (hf : Fits env db) (hr : LengthRoom db)
    (ha : AsksFor (.putElement id eid range (some b)) (.change (.putElements id [e]))) (hl : look db id = some l) :
    (respond env db (.putElement id eid range (some b))).1 = .answer .ok ∧
    look (respond env db (.putElement id eid range (some b))).2 =
      (look db).set id (some { l with content := ranking (upsert l.content [{ e with updated := env.now }]) }) := by
  rcases C85_serves_partial env db (.putElement id eid range (some b)) h hf hr trivial (fun h => h) with ⟨-, h1 | h1 | h1⟩
  · obtain ⟨r, a, h2, h3, h4⟩ := h1
    have := C85_one_meaning _ _ _ h2 ha (by simp)
    cases this
    simp only [Means, hl] at h4
    obtain ⟨rfl, es, h5, h6⟩ := h4
    rw [chosen_one h5] at h6
    exact ⟨h3, h6⟩
  · obtain ⟨q, s, h2, -⟩ := h1
    have := C85_one_meaning _ _ _ h2 ha (by simp)
    cases this
  · exact absurd ⟨_, ha⟩ h1.1

theorem mem_put (content : List Element) (e x : Element) :
    x ∈ ranking (upsert content [e]) ↔ x = e ∨ x ∈ content ∧ x.id ≠ e.id := by
  rw [(ranking_perm _).mem_iff]
  simp [upsert]

/-- A payload that is sent with an update is stored untouched, and no other element changes. Missing for the full
property is an update without payload (`C86_update_erases`). -/
theorem C86_stored_partial (env : Env) (db : Db) (id eid : Str) (range : Option Str) (b : RawElement) (e : Element) (l : Seen)
    (payload : List UInt8) (h : Good db) (hf : Fits env db) (hr : LengthRoom db)
    (ha : AsksFor (.putElement id eid range (some b)) (.change (.putElements id [e]))) (hl : look db id = some l)
    (hp : b.payload = some payload) :
    ∃ l', look (respond env db (.putElement id eid range (some b))).2 id = some l' ∧
      (∀ x ∈ l'.content, x.id = e.id → x.payload = payload) ∧ (∃ x ∈ l'.content, x.id = e.id) ∧
      ∀ x, x.id ≠ e.id → (x ∈ l'.content ↔ x ∈ l.content) := by
  obtain ⟨-, h2⟩ := put_one_look env db id eid range b e l h hf hr ha hl
  have hpay : e.payload = payload := by
    cases ha with
    | putElement h1 h2 h3 h4 =>
      obtain ⟨-, rfl⟩ := (isElement_iff ..).mp h4
      simp [toElement, hp]
  rw [h2]
  refine ⟨_, by simp only [Lists.set, if_true]; rfl, ?_, ?_, ?_⟩
  · intro x hx hid
    rcases (mem_put ..).mp hx with rfl | ⟨-, hne⟩
    · exact hpay
    · exact absurd hid hne
  · exact ⟨_, (mem_put ..).mpr (.inl rfl), rfl⟩
  · intro x hx
    constructor
    · intro hm
      rcases (mem_put ..).mp hm with rfl | ⟨hm, -⟩
      · exact absurd rfl hx
      · exact hm
    · intro hm
      exact (mem_put ..).mpr (.inr ⟨hm, hx⟩)

/-- An update without payload is accepted and erases the stored payload, although the documentation of the API says
that it is not updated. -/
theorem C86_update_erases (env : Env) (db : Db) (id eid : Str) (range : Option Str) (b : RawElement) (e : Element) (l : Seen)
    (h : Good db) (hf : Fits env db) (hr : LengthRoom db)
    (ha : AsksFor (.putElement id eid range (some b)) (.change (.putElements id [e]))) (hl : look db id = some l)
    (hp : b.payload = none) :
    (respond env db (.putElement id eid range (some b))).1 = .answer .ok ∧
    ∃ l', look (respond env db (.putElement id eid range (some b))).2 id = some l' ∧
      (∃ x ∈ l'.content, x.id = e.id) ∧ ∀ x ∈ l'.content, x.id = e.id → x.payload = [] := by
  obtain ⟨h1, h2⟩ := put_one_look env db id eid range b e l h hf hr ha hl
  have hpay : e.payload = [] := by
    cases ha with
    | putElement h1 h2 h3 h4 =>
      obtain ⟨-, rfl⟩ := (isElement_iff ..).mp h4
      simp [toElement, hp]
  rw [h2]
  refine ⟨h1, _, by simp only [Lists.set, if_true]; rfl, ⟨{ e with updated := env.now }, (mem_put ..).mpr (.inl rfl), rfl⟩, ?_⟩
  intro x hx hid
  rcases (mem_put ..).mp hx with rfl | ⟨-, hne⟩
  · exact hpay
  · exact absurd hid hne

def exampleUpdate : RawElement := { id := some 7, score := some 120, tie := none, payload := none }

/-- A higher score for the element of `exampleBody`, without payload. -/
example : AsksFor (.putElement (text "highscore_list") (text "7") none (some exampleUpdate))
    (.change (.putElements (text "highscore_list") [toElement exampleUpdate])) :=
  .putElement ((okListID_iff _).mp (by decide +kernel)) (elementID_of (by decide +kernel) (by decide +kernel)) (r := 5) rfl
    ((isElement_iff ..).mpr ⟨by decide +kernel, rfl⟩)

/-- The list of `exampleBody` on a server without other lists. -/
def exampleServer : Db := (respond (exEnvAt 1) noLists (.createList none (some exampleBody))).2

/-- The element has a payload, gets a higher score, and has no payload. -/
example : ((look exampleServer (text "highscore_list")).map fun s => s.content.map fun e => (e.id, e.score, e.payload)) =
      some [(7, 100, [123, 125])] ∧
    ((look (respond (exEnvAt 2) exampleServer (.putElement (text "highscore_list") (text "7") none (some exampleUpdate))).2
      (text "highscore_list")).map fun s => s.content.map fun e => (e.id, e.score, e.payload)) = some [(7, 120, [])] := by
  constructor <;> decide +kernel

example : LengthRoom exampleServer := by
  intro l hl
  have : exampleServer.lists = [listing (exEnvAt 1) examplePayload] := by decide +kernel
  rw [this] at hl
  simp at hl
  subst hl
  intro st hst
  have h : (Disk.reload exampleServer.store (listing (exEnvAt 1) examplePayload).ent).map
    (fun st => (st.content.length, st.scores.segs.length)) = some (1, 1) := by decide +kernel
  rw [hst] at h
  simp at h
  omega

end RankDB.Props

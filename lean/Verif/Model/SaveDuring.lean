import Verif.Model.Pool
/-
Model of saving the catalogue while requests run: manager.go:59-96 (the goroutine that saves), manager.go:185-199
`SaveLists` and lists.go:91-144 `Lists.Save`.

`Save` goes through the lists with `Range` of `sync.Map`, encodes each under its read lock, and when it is done the
result is written with one `Set`. Requests go on all the time. `Range` is modelled by its documentation: no key is
visited more than once, and for each key it may reflect any mapping of the key from any point during the call.

A list is encoded while it is read locked, but `updateSegments` (list.go:241-259) and `deleteAll` (list.go:1163-1164)
change the names of its tables without the lock of the list. So the names that are saved for a list are unspecified while
a request runs that changes them; the other fields never change.

Simplifications: the bytes of the file are in `Model/ListFile`, the copy for backups is in `Model/Startup`. Requests are
those of `Model/Pool`; a request `save` there is a save during which nothing else happens, as the last one of a stop.
-/
namespace RankDB.Server
open Spec

/-- The list whose entry in the catalogue a request creates, changes or deletes. -/
def renames : Request → Option Str
  | .create _ p | .clone _ p => some p.id
  | .delete id | .reindex id | .repair id => some id
  | _ => none

/-- Somebody changes the entry of the list. -/
def Pool.Renaming (P : Pool) (id : Str) : Prop := ∃ R ∈ P.running, renames R.req = some id

/-- The fields of an entry without the names. -/
def fixed (l : Listing) : Listing := { l with ent := { l.ent with scores := [], index := [] } }

/-- Where the goroutine that saves is: it waits for the ticker (manager.go:71-72), it is in `Range` (lists.go:121-130),
or it has the bytes and has not stored them (manager.go:186-199). For `Range` everything since the beginning of the call
is kept. -/
inductive Saver
  | idle
  | ranging (seen : List Pool)
  | writing (out : List Listing)

/-- The server is in the state `P` from now on. -/
def Saver.sees (P : Pool) : Saver → Saver
  | .ranging seen => .ranging (P :: seen)
  | s => s

/-- What `Range` and the encoding can give if the states during the call are `seen`. -/
def Reflects (seen : List Pool) (out : List Listing) : Prop :=
  (out.map (·.id)).Nodup ∧
  ∀ id, ∃ P ∈ seen, byID out id = byID P.db.lists id ∨
    P.Renaming id ∧ (byID out id).map fixed = (byID P.db.lists id).map fixed

/-- The server with requests that run and the goroutine that saves. -/
structure Saving where
  pool : Pool
  saver : Saver

/-- What can happen, with what a client sees, and whether a catalogue has been stored. -/
inductive SaveStep : Saving → Option (Event × Response) → Nat → Saving → Prop
  /-- A step of a request. -/
  | request {P Q : Pool} {s : Saver} {o : Option (Event × Response)} (h : PoolStep P o Q) :
      SaveStep ⟨P, s⟩ o 0 ⟨Q, s.sees Q⟩
  /-- manager.go:72-78 -/
  | begin {P : Pool} : SaveStep ⟨P, .idle⟩ none 0 ⟨P, .ranging [P]⟩
  /-- lists.go:121-144 -/
  | ranged {P : Pool} {seen : List Pool} {out : List Listing} (h : Reflects seen out) :
      SaveStep ⟨P, .ranging seen⟩ none 0 ⟨P, .writing out⟩
  /-- manager.go:199 -/
  | stored {P : Pool} {out : List Listing} :
      SaveStep ⟨P, .writing out⟩ none 1 ⟨⟨{ P.db with file := out }, P.running⟩, .idle⟩
  /-- The storage does not accept it, manager.go:79-81. -/
  | refused {P : Pool} {out : List Listing} : SaveStep ⟨P, .writing out⟩ none 0 ⟨P, .idle⟩

/-- Any number of steps, with what the clients see and the number of catalogues that have been stored. -/
inductive SaveRun (S : Saving) : List (Event × Response) → Nat → Saving → Prop
  | refl : SaveRun S [] 0 S
  | step {es : List (Event × Response)} {n k : Nat} {T U : Saving} {o : Option (Event × Response)} (h : SaveRun S es n T)
      (hs : SaveStep T o k U) : SaveRun S (es ++ o.toList) (n + k) U

end RankDB.Server

import Verif.Model.Bytes
import Verif.Model.LazySaver
/-
Model of a server with the write-behind store between it and the storage: api/rankdb.go:203-219 (`LazySaver.Enabled`),
blobstore/lazysaver.go, down to bytes. A request decodes what it finds through the write-behind store, and each of its
writes is one call there; it is answered when the calls have returned. The request handler and the savers of the
write-behind store work at any time. A crash keeps what is in the storage below and nothing else.

Simplifications: one request at a time; a request reads when it arrives (nobody else writes until it is answered). All
sets share one storage (see `Model/Bytes`), which is the set with the empty name of `Model/LazySaver`.
-/
namespace RankDB.Behind
open Wire Stored Server Disk Files

/-- What requests find: lazysaver.go:196-234 `get`. -/
def view (σ : LazySaver.State) : Blobs := fun k => LazySaver.get σ [] k

/-- The call for a write of segments or elements, see `writeBytes`. -/
def callOf : Write → LazySaver.Label
  | .head p s => .put [] p (some (tableBlob (tableOf p s)))
  | .elems p i l => .put [] (Keys.storageKey p i) (some (elementsBlob l))
  | .delHead p => .put [] p none
  | .delElems p i => .put [] (Keys.storageKey p i) none

/-- The call for a change, see `Files.apply`; the catalogue in memory is changed without one. -/
def call? (c : Setup) (lists : List Listing) : Effect → Option LazySaver.Label
  | .blob w => some (callOf w)
  | .put _ | .drop _ => none
  | .save => some (.put [] Keys.listStorageKey (some (saveLists c.lib c.compress (lists.map recOf))))

/-- The catalogue in memory after a change, see `Files.apply`. -/
def listsAfter (lists : List Listing) : Effect → List Listing
  | .put l => l :: lists.filter fun x => x.id != l.id
  | .drop id => lists.filter fun x => x.id != id
  | .blob _ | .save => lists

/-- The write-behind store after a call. -/
def lazyAfter (σ : LazySaver.State) : Option LazySaver.Label → LazySaver.State
  | some l => LazySaver.step σ l
  | none => σ

/-- A request that is being served: the answer it is going to get, and what remains to be done. -/
structure Job where
  answer : Answer
  todo : List Effect

/-- The server. -/
structure Behind where
  lazy : LazySaver.State
  lists : List Listing
  job : Option Job

/-- What the server works with. -/
def Behind.files (B : Behind) : Files := ⟨view B.lazy, B.lists⟩

/-- A step of the request handler or of a saver of the write-behind store. -/
def ofSaver : LazySaver.Label → Bool
  | .put _ _ _ => false
  | _ => true

/-- What can happen: the event that arrives, what is seen, the step of the write-behind store. `n` is the number of
savers. -/
inductive BStep (c : Setup) (n : Nat) : Behind → Option Files.Event → Option Files.Response → Option LazySaver.Label → Behind → Prop
  | arrive {σ : LazySaver.State} {lists : List Listing} (env : Env) (r : Request) :
      BStep c n ⟨σ, lists, none⟩ (some (.change env r)) none none
        ⟨σ, lists, some ⟨(handle env (Files.db ⟨view σ, lists⟩) r).1, (handle env (Files.db ⟨view σ, lists⟩) r).2⟩⟩
  | effect {σ : LazySaver.State} {lists : List Listing} {a : Answer} {e : Effect} {todo : List Effect} :
      BStep c n ⟨σ, lists, some ⟨a, e :: todo⟩⟩ none none (call? c lists e)
        ⟨lazyAfter σ (call? c lists e), listsAfter lists e, some ⟨a, todo⟩⟩
  | answer {σ : LazySaver.State} {lists : List Listing} {a : Answer} :
      BStep c n ⟨σ, lists, some ⟨a, []⟩⟩ none (some (.answer a)) none ⟨σ, lists, none⟩
  | ask {σ : LazySaver.State} {lists : List Listing} (sch : Sched) (q : Query) :
      BStep c n ⟨σ, lists, none⟩ (some (.ask sch q)) (some (.shown (Server.ask sch (Files.db ⟨view σ, lists⟩) q))) none
        ⟨σ, lists, none⟩
  | saver {σ : LazySaver.State} {lists : List Listing} {j : Option Job} (l : LazySaver.Label) (hs : ofSaver l = true)
      (he : LazySaver.enabled n σ l) :
      BStep c n ⟨σ, lists, j⟩ none none (some l) ⟨LazySaver.step σ l, lists, j⟩

/-- Any number of steps. -/
inductive BRun (c : Setup) (n : Nat) (B : Behind) : List Files.Event → List Files.Response → List LazySaver.Label → Behind → Prop
  | refl : BRun c n B [] [] [] B
  | step {es : List Files.Event} {rs : List Files.Response} {ls : List LazySaver.Label} {S T : Behind} {e : Option Files.Event}
      {r : Option Files.Response} {l : Option LazySaver.Label} (h : BRun c n B es rs ls S) (hs : BStep c n S e r l T) :
      BRun c n B (es ++ e.toList) (rs ++ r.toList) (ls ++ l.toList) T

/-- The server has been started on a storage: api/rankdb.go:203-219, 257-261. -/
def begun (F : Files) : Behind := ⟨LazySaver.start fun _ k => F.blobs k, F.lists, none⟩

/-- What a crash leaves. -/
def remains (B : Behind) : Files := ⟨B.lazy.store [], []⟩

end RankDB.Behind

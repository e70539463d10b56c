import Verif.Spec.Answers
/-
Model of the server with requests that run at the same time and are about different lists.

A request that arrives looks up its lists, reads what it needs and then makes its changes one by one; between any two
of its changes other requests make theirs. A request keeps the lists that it changes to itself, and nobody changes a
list while it is cloned. That a list is kept is the work of `updateLock` and `segmentsLock` (see `Model/Locks`) for the
calls of list.go. What happens if requests for the same list run at the same time is in `Model/Concurrent`,
`Model/Scan`, C65 and C72.

Simplifications: a request reads its lists when it arrives; nothing changes them before it is done. The goroutines of
one request make their changes in one of the orders that `Sched` allows.
-/
namespace RankDB.Server
open Spec

/-- A request in progress: the changes that it has not made yet. -/
structure Running where
  env : Env
  req : Request
  todo : List Effect

structure Pool where
  db : Db
  running : List Running

/-- The lists that a request uses. -/
def uses : Request → List Str
  | .clone org p => [org, p.id]
  | r => (target r).toList

/-- Nobody changes the list. -/
def Pool.Free (P : Pool) (id : Str) : Prop := ∀ R ∈ P.running, target R.req ≠ some id

/-- Names that pending changes use. -/
def effectNames : Effect → List Str
  | .blob w => [w.parent]
  | .put l => names l
  | .drop _ | .save => []

/-- The environment of a request: as in `Fits`, and the names for new segments are not used by pending changes. -/
structure FitsPool (env : Env) (P : Pool) : Prop where
  now : 0 < env.now ∧ env.now < 2 ^ 32 - 1
  differ : env.scores ≠ env.index
  fresh : ∀ l ∈ P.db.lists, env.scores ∉ names l ∧ env.index ∉ names l
  pending : ∀ R ∈ P.running, ∀ e ∈ R.todo, env.scores ∉ effectNames e ∧ env.index ∉ effectNames e
  reduce : ∀ n, 0 < n → 0 < env.reduce n

/-- What can happen, with what the client sees. -/
inductive PoolStep : Pool → Option (Event × Response) → Pool → Prop
  /-- A request arrives. -/
  | arrive {P : Pool} (env : Env) (r : Request) (hf : FitsPool env P) (ha : Allowed P.db r)
      (hfree : ∀ id ∈ uses r, P.Free id) (hread : ∀ R ∈ P.running, ∀ id ∈ uses R.req, target r ≠ some id) :
      PoolStep P (some (.change env r, .answer (handle env P.db r).1))
        ⟨P.db, P.running ++ [⟨env, r, (handle env P.db r).2⟩]⟩
  /-- A request makes its next change. -/
  | effect {db : Db} {a b : List Running} {env : Env} {r : Request} {e : Effect} {todo : List Effect} :
      PoolStep ⟨db, a ++ ⟨env, r, e :: todo⟩ :: b⟩ none ⟨apply db e, a ++ ⟨env, r, todo⟩ :: b⟩
  /-- A request is done. -/
  | finish {db : Db} {a b : List Running} {env : Env} {r : Request} :
      PoolStep ⟨db, a ++ ⟨env, r, []⟩ :: b⟩ none ⟨db, a ++ b⟩
  /-- A query for a list that nobody changes. -/
  | ask {P : Pool} (sch : Sched) (q : Query) {id : Str} (ha : AllowedQuery q) (hq : Query.list? q = some id) (hfree : P.Free id) :
      PoolStep P (some (.ask sch q, .shown (ask sch P.db q))) P

/-- Any number of steps, with what the clients see. -/
inductive PoolRun (P : Pool) : List (Event × Response) → Pool → Prop
  | refl : PoolRun P [] P
  | step {es : List (Event × Response)} {Q R : Pool} {o : Option (Event × Response)} (h : PoolRun P es Q) (hs : PoolStep Q o R) :
      PoolRun P (es ++ o.toList) R

end RankDB.Server

import Verif.Model.LazyBuf
/-
What the users of the write-behind store may rely on, whatever happens to its buffers.
-/
namespace RankDB.Spec.LazyBuf
open Wire
open RankDB.LazyBuf (Call)
open RankDB.LazySaver (Label)

/-- The writes in the order in which they get the lock, with the bytes that were passed, and the steps of the savers.
`waiting` has the writes that were called and do not have the lock yet. -/
def history : List (Str × Str × Bytes) → List Call → List Label
  | _, [] => []
  | w, .copy s k x _ _ :: cs => history (w ++ [(s, k, x)]) cs
  | w, .enter j :: cs =>
    match w[j]? with
    | some (s, k, x) => .put s k (some x) :: history (w.eraseIdx j) cs
    | none => history w cs
  | w, .delete s k :: cs => .put s k none :: history w cs
  | w, .choose :: cs => .choose :: history w cs
  | w, .take i :: cs => .take i :: history w cs
  | w, .write i ok :: cs => .write i ok :: history w cs
  | w, .remove i :: cs => .remove i :: history w cs
  | w, _ :: cs => history w cs

/-- Everyone who holds a buffer: the pools, the queued items, the waiting calls, the callers of `get`. -/
def held (σ : RankDB.LazyBuf.State) : List Nat :=
  σ.pool.map (·.2) ++ σ.queue.filterMap (·.buf) ++ σ.pend.map (·.buf) ++ σ.out.map (·.1)

end RankDB.Spec.LazyBuf

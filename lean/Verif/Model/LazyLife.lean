import Verif.Model.LazySaver
/-
Model of the goroutines of the write-behind store, blobstore/lazysaver.go: when callers wait, when the request handler
chooses items, how savers return tokens, and how the store is shut down. The queue, its index and the store below are
those of `Model/LazySaver`; every step on them is a step of that model.

Simplifications: time is not modelled; a timer that is set can fire at any moment. A saver that has nothing to do after
the channel of savers was closed has exited. `Shutdown` is called once; further calls return at once
(lazysaver.go:524-527). Reads, statistics, logging and the pool of buffers are left out.
-/
namespace RankDB.LazyLife
open LazySaver (Label Status Item lazyKey)
open Wire

/-- lazysaver.go:80-88 `lazySaveOptions`: the limits of `Items` and the number of savers. -/
structure Opts where
  maxItems : Nat
  flushItems : Nat
  savers : Nat

/-- lazysaver.go:107-122 and 136-143: the options are accepted. -/
def Opts.accepted (o : Opts) : Bool := decide (0 < o.flushItems ∧ o.flushItems ≤ o.maxItems ∧ 0 < o.savers)

/-- Where a call of `Set` (with a value) or `Delete` (with `none`) is, lazysaver.go:599-636: not begun; it has seen that
the store is not shutting down; it has added an item to the queue (313-315); it has told the handler (316-325) and waits
for a token (262, 290); refused because the store is shutting down; returned without an error. -/
inductive Caller
  | idle (set key : Str) (b : Option Bytes)
  | checked (set key : Str) (b : Option Bytes)
  | added
  | waiting
  | refused
  | done
deriving DecidableEq, Repr

/-- Where the request handler is, lazysaver.go:354-448: at the beginning of its loop; in `saveFront` before the lock
(329-330); in `saveFront` before the handover (348), with the length it will return; after `saveFront` or the length of
the queue was read in the loop for flushing (424-433); in the `select` (411); before the length is read (421-423); done.
`flush` says whether `saveFront` was called by the loop for flushing. -/
inductive Handler
  | top
  | choose (flush : Bool)
  | send (flush : Bool) (n : Nat)
  | flushing (n : Nat)
  | wait
  | counting
  | exited
deriving DecidableEq, Repr

/-- Where `Shutdown` is, lazysaver.go:521-562: not called; `shuttingDown` is set; `shutdownCh` is closed and a number
of tokens is still to be taken; the request handler has exited; finished. -/
inductive Stop
  | before
  | flagged
  | draining (k : Nat)
  | joined
  | finished
deriving DecidableEq, Repr

/-- lazysaver.go:20-41 `type LazySaver`. `tokens` is the number of tokens in the channel, `signal` says whether there is
something in `itemAdded`, `timer` whether the timer is set or has fired, and `paid` are the savers that have returned
the token of their item and not yet removed it (505-506). -/
structure Life where
  base : LazySaver.State
  tokens : Nat
  signal : Bool
  timer : Bool
  handler : Handler
  paid : List Nat
  callers : List Caller
  stop : Stop

/-- `shuttingDown`. -/
def Life.closing (w : Life) : Bool := decide (w.stop ≠ .before)

/-- `shutdownCh` is closed. -/
def Life.closed (w : Life) : Bool := decide (w.stop ≠ .before ∧ w.stop ≠ .flagged)

/-- There is an item that nobody is saving. -/
def Life.waitingItem (w : Life) : Bool := w.base.queue.any fun e => decide (e.status = .queued)

/-- Saver `i` waits for an item: lazysaver.go:465. -/
def Life.idleSaver (w : Life) (i : Nat) : Bool :=
  w.base.queue.all fun e => decide (e.status ≠ .taken i ∧ e.status ≠ .written i)

/-- lazysaver.go:171-308 `NewLazySaver`, with the calls that will be made. -/
def start (o : Opts) (store : MaxSize.Store) (calls : List (Str × Str × Option Bytes)) : Life :=
  { base := LazySaver.start store, tokens := o.maxItems, signal := false, timer := true, handler := .top, paid := []
    callers := calls.map fun c => .idle c.1 c.2.1 c.2.2, stop := .before }

/-- lazysaver.go:241-253, 271-284: the call changes an item that waits in the queue. -/
def overwrites (σ : LazySaver.State) (set key : Str) : Bool :=
  match σ.lookup set key with
  | some e => !e.saving
  | none => false

/-- What a goroutine does next. -/
inductive Act
  /-- call `i` looks at `shuttingDown` -/
  | check (i : Nat)
  /-- call `i` changes the queue -/
  | put (i : Nat)
  /-- call `i` tells the handler -/
  | notify (i : Nat)
  /-- call `i` takes a token -/
  | token (i : Nat)
  /-- the handler goes on -/
  | handler
  /-- the handler is woken by its timer -/
  | fire
  /-- the handler is woken because an item was added -/
  | wake
  /-- the handler is woken because the store is shutting down -/
  | hear
  /-- the handler hands its item over to saver `i` -/
  | take (i : Nat)
  /-- saver `i` writes its item; whether the store reports success -/
  | write (i : Nat) (ok : Bool)
  /-- saver `i` returns a token -/
  | pay (i : Nat)
  /-- saver `i` removes its item -/
  | remove (i : Nat)
  /-- `Shutdown` goes on -/
  | stop
deriving DecidableEq, Repr

/-- Where the handler is after `saveFront` has returned `n`. -/
def after (flush : Bool) (n : Nat) : Handler := if flush then .flushing n else .top

/-- The handler goes on: lazysaver.go:364-409 at the beginning of the loop, 330-347 in `saveFront`, 421-440 after an
item was added. -/
def handlerStep (o : Opts) (w : Life) : Option Life :=
  match w.handler with
  | .top =>
    if w.closing then
      if w.waitingItem then some { w with handler := .choose false } else some { w with handler := .exited }
    else if w.base.queue.length > o.flushItems then some { w with handler := .choose false }
    else some { w with handler := .wait, timer := w.timer || w.waitingItem }
  | .choose flush =>
    if w.waitingItem then
      some { w with base := LazySaver.step w.base .choose, handler := .send flush w.base.queue.length }
    else some { w with handler := after flush 0 }
  | .counting => some { w with handler := .flushing w.base.queue.length }
  | .flushing n =>
    if n > o.flushItems then some { w with handler := .choose true } else some { w with handler := .top, timer := false }
  | .send .. | .wait | .exited => none

/-- `Shutdown` goes on: lazysaver.go:521-545. -/
def stopStep (o : Opts) (w : Life) : Option Life :=
  match w.stop with
  | .before => some { w with stop := .flagged }
  | .flagged => some { w with stop := .draining o.maxItems }
  | .draining (k + 1) => if 0 < w.tokens then some { w with stop := .draining k, tokens := w.tokens - 1 } else none
  | .draining 0 => if w.handler = .exited then some { w with stop := .joined } else none
  | .joined =>
    if w.base.queue.all fun e => decide (e.status = .queued ∨ e.status = .chosen) then some { w with stop := .finished }
    else none
  | .finished => none

/-- The state after a step, and `none` if the goroutine cannot make it. Calls are lazysaver.go:599-636, 236-292 and
311-325, savers 450-517. -/
def exec (o : Opts) (w : Life) : Act → Option Life
  | .check i =>
    match w.callers[i]? with
    | some (.idle s k b) =>
      some { w with callers := w.callers.set i (if w.closing then .refused else .checked s k b) }
    | _ => none
  | .put i =>
    match w.callers[i]? with
    | some (.checked s k b) =>
      some { w with base := LazySaver.step w.base (.put s k b)
                    callers := w.callers.set i (if overwrites w.base s k then .done else .added) }
    | _ => none
  | .notify i =>
    match w.callers[i]? with
    | some .added => some { w with signal := true, callers := w.callers.set i .waiting }
    | _ => none
  | .token i =>
    match w.callers[i]? with
    | some .waiting =>
      if 0 < w.tokens then some { w with tokens := w.tokens - 1, callers := w.callers.set i .done } else none
    | _ => none
  | .handler => handlerStep o w
  | .fire => if w.handler = .wait ∧ w.timer then some { w with timer := false, handler := .choose false } else none
  | .wake => if w.handler = .wait ∧ w.signal then some { w with signal := false, handler := .counting } else none
  | .hear => if w.handler = .wait ∧ w.closed then some { w with handler := .top } else none
  | .take i =>
    match w.handler with
    | .send flush n =>
      if i < o.savers ∧ w.idleSaver i then
        some { w with base := LazySaver.step w.base (.take i), handler := after flush n }
      else none
    | _ => none
  | .write i ok =>
    if w.base.queue.any fun e => decide (e.status = .taken i) then
      some { w with base := LazySaver.step w.base (.write i ok) }
    else none
  | .pay i =>
    if (w.base.queue.any fun e => decide (e.status = .written i)) ∧ i ∉ w.paid ∧ w.tokens < o.maxItems then
      some { w with tokens := w.tokens + 1, paid := i :: w.paid }
    else none
  | .remove i =>
    if i ∈ w.paid then some { w with base := LazySaver.step w.base (.remove i), paid := w.paid.erase i } else none
  | .stop => stopStep o w

/-- Steps one after the other. -/
def execAll (o : Opts) (w : Life) : List Act → Option Life
  | [] => some w
  | a :: as => (exec o w a).bind fun w' => execAll o w' as

end RankDB.LazyLife

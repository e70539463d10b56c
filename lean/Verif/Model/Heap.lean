import Verif.Model.Element
/-
Model of the memory that goroutines share: arrays of elements, slices of them, and the functions of elements.go and
segments.go that write to them, as programs that read and write single cells.

The rest of the model treats a slice as a list of elements. Here a slice is a window of an array, `append` writes behind
the window if there is room, and any number of goroutines take turns after every single cell they read or write. The
goroutines of a request for many lists (api/multilist.go:44-97, 189-229, api/api.go `onEveryList`) are given the same
slice of elements.

Simplifications: the bytes of payloads are not cells; no code writes to them after they were decoded. `sort.Slice` reads
the whole window before it writes the sorted elements (it swaps them one by one), and the path of `Elements.Sort` for
25000 elements or more (elements.go:131-168, Model/SortPar) does the same. `copy` reads all it copies before it writes.
-/
namespace RankDB.Heap
open Elements

/-- The name of an array: it was there before, or goroutine `t` made it as its `n`-th. -/
inductive Arr
  | given (n : Nat)
  | made (t n : Nat)
deriving DecidableEq, Repr

/-- The cells of every array; the length of an array is the capacity of slices that begin at its first cell. -/
abbrev Heap := Arr → List Element

/-- The heap with other cells for one array. -/
def Heap.put (h : Heap) (a : Arr) (l : List Element) : Heap := fun b => if b = a then l else h b

/-- A program of one goroutine, cell by cell. -/
inductive Prog (α : Type) : Type
  | ret (x : α)
  /-- read a cell -/
  | load (a : Arr) (i : Nat) (k : Element → Prog α)
  /-- write a cell -/
  | store (a : Arr) (i : Nat) (e : Element) (k : Prog α)
  /-- `make([]Element, n)` -/
  | make (n : Nat) (k : Arr → Prog α)

def Prog.bind : Prog α → (α → Prog β) → Prog β
  | .ret x, f => f x
  | .load a i k, f => .load a i fun e => (k e).bind f
  | .store a i e k, f => .store a i e (k.bind f)
  | .make n k, f => .make n fun a => (k a).bind f

/-- Memory, and for every goroutine the rest of its program and how many arrays it made. -/
structure World (α : Type) where
  heap : Heap
  threads : Nat → Prog α × Nat

def World.set (w : World α) (h : Heap) (t : Nat) (p : Prog α) (n : Nat) : World α :=
  ⟨h, fun u => if u = t then (p, n) else w.threads u⟩

/-- Goroutine `t` makes one step; `none` is a panic for an index out of range. Nothing happens after its end. -/
def World.step (w : World α) (t : Nat) : Option (World α) :=
  match w.threads t with
  | (.ret _, _) => some w
  | (.load a i k, n) =>
    match (w.heap a)[i]? with
    | none => none
    | some e => some (w.set w.heap t (k e) n)
  | (.store a i e k, n) =>
    if i < (w.heap a).length then some (w.set (w.heap.put a ((w.heap a).set i e)) t k n) else none
  | (.make len k, n) =>
    some (w.set (w.heap.put (.made t n) (List.replicate len default)) t (k (.made t n)) (n + 1))

/-- Goroutines take turns as `sched` says. -/
def World.run (w : World α) : List Nat → Option (World α)
  | [] => some w
  | t :: sched =>
    match w.step t with
    | none => none
    | some w' => w'.run sched

/-- A slice that a goroutine may change: it begins at the first cell of its array, which has `cap` cells. -/
structure Slice where
  arr : Arr
  len : Nat
  cap : Nat
deriving DecidableEq, Repr

/-- The `n` elements from cell `i` on. -/
def readN (a : Arr) : Nat → Nat → Prog (List Element)
  | _, 0 => .ret []
  | i, n + 1 => .load a i fun e => (readN a (i + 1) n).bind fun l => .ret (e :: l)

/-- Write `l` from cell `i` on. -/
def writeL (a : Arr) : Nat → List Element → Prog Unit
  | _, [] => .ret ()
  | i, e :: l => .store a i e (writeL a (i + 1) l)

/-- `append(lst, e)`: in place if there is room, else in a new array with `spare` cells more than needed. -/
def append1 (s : Slice) (e : Element) (spare : Nat) : Prog Slice :=
  if s.len < s.cap then .store s.arr s.len e (.ret { s with len := s.len + 1 })
  else .make (s.len + 1 + spare) fun b =>
    (readN s.arr 0 s.len).bind fun l => (writeL b 0 l).bind fun _ =>
      .store b s.len e (.ret ⟨b, s.len + 1, s.len + 1 + spare⟩)

/-- elements.go:207-210: the first index from `i` on, of `n` that are left, whose element is not above `e`. -/
def insertPos (a : Arr) (e : Element) : Nat → Nat → Prog Nat
  | i, 0 => .ret i
  | i, n + 1 => .load a i fun x => if x.above e then insertPos a e (i + 1) n else .ret i

/-- elements.go:205-223 `Elements.Insert`. -/
def insertP (s : Slice) (e : Element) (spare : Nat) : Prog (Slice × Nat) :=
  (insertPos s.arr e 0 s.len).bind fun i =>
    if i < s.len then
      (append1 s default spare).bind fun s' =>
        (readN s'.arr i (s.len - i)).bind fun l => (writeL s'.arr (i + 1) l).bind fun _ =>
          .store s'.arr i e (.ret (s', i))
    else (append1 s e spare).bind fun s' => .ret (s', i)

/-- elements.go:377-378 (and 184-191 `Elements.FindIdx`): the index of the first element with the ID. -/
def idPos (a : Arr) (id : Nat) : Nat → Nat → Prog (Option Nat)
  | _, 0 => .ret none
  | i, n + 1 => .load a i fun x => if x.id == id then .ret (some i) else idPos a id (i + 1) n

/-- elements.go:375-385 `Elements.Delete`; `none` is `ErrNotFound`. -/
def deleteP (s : Slice) (id : Nat) : Prog (Option Slice) :=
  (idPos s.arr id 0 s.len).bind fun r =>
    match r with
    | none => .ret none
    | some i =>
      (readN s.arr (i + 1) (s.len - (i + 1))).bind fun l => (writeL s.arr i l).bind fun _ =>
        .ret (some { s with len := s.len - 1 })

/-- elements.go:362-371 `Elements.Update`; `none` is `ErrNotFound`. -/
def updateP (s : Slice) (e : Element) (now spare : Nat) : Prog (Option (Slice × Nat)) :=
  (deleteP s (touch now e).id).bind fun r =>
    match r with
    | none => .ret none
    | some s' => (insertP s' (touch now e) spare).bind fun r => .ret (some r)

/-- elements.go:335-345 `Elements.Add`. -/
def addP (s : Slice) (e : Element) (now spare : Nat) : Prog (Slice × Nat) :=
  (idPos s.arr (touch now e).id 0 s.len).bind fun r =>
    match r with
    | some _ => (updateP s (touch now e) now spare).bind fun r => .ret (r.getD (s, 0))
    | none => insertP s (touch now e) spare

/-- elements.go:237-256: `n` elements of `a` from `i` on and `m` of `b` from `j` on are left, `w` are written to `d`. -/
def mergeNew (a b d : Arr) : Nat → Nat → Nat → Nat → Nat → Nat → Prog Unit
  | 0, _, _, _, _, _ => .ret ()
  | fuel + 1, i, n, j, m, w =>
    if n = 0 then (readN b j m).bind fun l => writeL d w l
    else if m = 0 then (readN a i n).bind fun l => writeL d w l
    else .load a i fun x => .load b j fun y =>
      if x.above y then .store d w x (mergeNew a b d fuel (i + 1) (n - 1) j m (w + 1))
      else .store d w y (mergeNew a b d fuel i n (j + 1) (m - 1) (w + 1))

/-- elements.go:261-283: `lst` has `len` elements and `i` is the index in it, `m` elements of `b` from `j` on are left.
The new length. -/
def mergeOld (a b : Arr) : Nat → Nat → Nat → Nat → Nat → Prog Nat
  | 0, _, len, _, _ => .ret len
  | fuel + 1, i, len, j, m =>
    if i < len then
      .load a i fun x => .load b j fun y =>
        if x.above y then mergeOld a b fuel (i + 1) len j m
        else
          .store a len default ((readN a i (len - i)).bind fun l => (writeL a (i + 1) l).bind fun _ =>
            .load b j fun y => .store a i y
              (if m = 1 then .ret (len + 1) else mergeOld a b fuel i (len + 1) (j + 1) (m - 1)))
    else (readN b j m).bind fun l => (writeL a len l).bind fun _ => .ret (len + m)

/-- elements.go:229-284 `Elements.Merge` with the `m` elements of `b` from `j` on. -/
def mergeP (s : Slice) (b : Arr) (j m : Nat) (sliced : Bool) : Prog Slice :=
  if m = 0 then .ret s
  else if sliced || decide (m + s.len > 1000) || decide (m > 10) || decide (s.cap < m + s.len) then
    .make (s.len + m) fun d =>
      (mergeNew s.arr b d (s.len + m) 0 s.len j m 0).bind fun _ => .ret ⟨d, s.len + m, s.len + m⟩
  else (mergeOld s.arr b (s.len + 2 * m) 0 s.len j m).bind fun len => .ret { s with len }

/-- segments.go:347-358, 432-443: delete by moving the elements that are kept to the front. -/
def removeP (a : Arr) (ids : List Nat) : Nat → Nat → Nat → Prog Nat
  | 0, _, w => .ret w
  | n + 1, i, w => .load a i fun e =>
    if ids.contains e.id then removeP a ids n (i + 1) w
    else .store a w e (removeP a ids n (i + 1) (w + 1))

/-- elements.go:194-201 `FindScoreIdx`. -/
def scorePos (a : Arr) (score : Nat) : Nat → Nat → Prog (Option Nat)
  | _, 0 => .ret none
  | i, n + 1 => .load a i fun x => if x.score == score then .ret (some i) else scorePos a score (i + 1) n

/-- segments.go:1156-1166: the index entry of an element gets a new segment. -/
def retargetP (s : Slice) (id seg now : Nat) : Prog Bool :=
  (scorePos s.arr id 0 s.len).bind fun r =>
    match r with
    | none => .ret false
    | some i => .load s.arr i fun e => .store s.arr i { e with tie := seg, updated := now } (.ret true)

/-- `sort.SliceIsSorted` of the window that begins at `j`, from index `i` down. -/
def sortedP (a : Arr) (j : Nat) : Nat → Prog Bool
  | 0 => .ret true
  | i + 1 => .load a (j + (i + 1)) fun x => .load a (j + i) fun y =>
    if x.above y then .ret false else sortedP a j i

/-- elements.go:122-169 `Elements.Sort` of the `n` elements from `j` on; whether something changed. -/
def sortP (a : Arr) (j n : Nat) : Prog Bool :=
  (sortedP a j (n - 1)).bind fun ok =>
    if ok then .ret false
    else (readN a j n).bind fun l => (writeL a j (sortSlice l)).bind fun _ => .ret true

/-- A new slice with elements `l`, and `spare` cells more. -/
def freshP (l : List Element) (spare : Nat) : Prog Slice :=
  .make (l.length + spare) fun d => (writeL d 0 l).bind fun _ => .ret ⟨d, l.length, l.length + spare⟩

/-- The part of a slice from `i` up to `j`: of a slice of the goroutine, or of one of the slices that all goroutines were
given. Positions past the end are cut off (Go panics; `FilterIdx` gives no such positions). -/
inductive Src
  | own (s i j : Nat)
  | given (r i j : Nat)
deriving DecidableEq, Repr

/-- What a goroutine does with slices. `spare` is how many cells more than needed `append` makes. -/
inductive Op
  /-- read elements: all loops that only read -/
  | look (x : Src)
  /-- elements.go:122-169 `Elements.Sort` -/
  | sort (s : Nat)
  /-- elements.go:122-169 `Elements.Sort` of a part of a slice that all goroutines were given (list.go:1246, 1596,
  segments.go:472) -/
  | sortGiven (r i j : Nat)
  /-- elements.go:205-223 `Elements.Insert` -/
  | insert (s : Nat) (e : Element) (spare : Nat)
  /-- elements.go:375-385 `Elements.Delete` -/
  | delete (s id : Nat)
  /-- elements.go:362-371 `Elements.Update` -/
  | update (s : Nat) (e : Element) (now spare : Nat)
  /-- elements.go:335-345 `Elements.Add` -/
  | add (s : Nat) (e : Element) (now spare : Nat)
  /-- elements.go:229-284 `Elements.Merge`; never with a part of the same slice -/
  | merge (s : Nat) (x : Src) (sliced : Bool)
  /-- segments.go:347-358, 432-443 in `DeleteElementsIdx` and `DeleteElements` -/
  | remove (s : Nat) (ids : List Nat)
  /-- segments.go:1156-1166 in `updateIndexElements` -/
  | retarget (s id seg now : Nat)
  /-- segment.go:213-214: elements decoded from storage; elements.go:472-479 -/
  | fresh (s : Nat) (l : List Element) (spare : Nat)
  /-- elements.go:42-47 `Elements.Clone` (segments.go:90, 1370, 1373) -/
  | clone (s : Nat) (x : Src)
  /-- segments.go:1433-1435 in `mergeWithNext`: the slice and `x` in a new array -/
  | join (s : Nat) (x : Src)

/-- What an operation returns. -/
inductive Res
  | unit
  | list (l : List Element)
  | bool (b : Bool)
  | nat (n : Nat)
deriving DecidableEq, Repr

/-- Array, first cell and length of a part; `given` are the slices given to all: array, first cell and length. -/
def Src.window (given : Nat → Arr × Nat × Nat) (σ : Nat → Slice) : Src → Arr × Nat × Nat
  | .own s i j => ((σ s).arr, min i (σ s).len, min j (σ s).len - min i (σ s).len)
  | .given r i j => ((given r).1, (given r).2.1 + min i (given r).2.2, min j (given r).2.2 - min i (given r).2.2)

/-- Slice number `s` is now `x`. -/
def assign (σ : Nat → Slice) (s : Nat) (x : Slice) : Nat → Slice := fun u => if u = s then x else σ u

/-- Whether `x` is a part of slice `s`. -/
def Src.isOf (s : Nat) : Src → Bool
  | .own u _ _ => u == s
  | .given _ _ _ => false

/-- An operation as a program: its answer and the slices of the goroutine afterwards. -/
def Op.prog (given : Nat → Arr × Nat × Nat) (σ : Nat → Slice) : Op → Prog (Res × (Nat → Slice))
  | .look x => let w := x.window given σ; (readN w.1 w.2.1 w.2.2).bind fun l => .ret (.list l, σ)
  | .sort s => (sortP (σ s).arr 0 (σ s).len).bind fun b => .ret (.bool b, σ)
  | .sortGiven r i j =>
    let w := (Src.given r i j).window given σ; (sortP w.1 w.2.1 w.2.2).bind fun b => .ret (.bool b, σ)
  | .insert s e spare => (insertP (σ s) e spare).bind fun r => .ret (.nat r.2, assign σ s r.1)
  | .delete s id => (deleteP (σ s) id).bind fun r => .ret (.bool r.isSome, assign σ s (r.getD (σ s)))
  | .update s e now spare => (updateP (σ s) e now spare).bind fun r =>
      .ret (.bool r.isSome, assign σ s ((r.map Prod.fst).getD (σ s)))
  | .add s e now spare => (addP (σ s) e now spare).bind fun r => .ret (.unit, assign σ s r.1)
  | .merge s x sliced =>
    if x.isOf s then .ret (.unit, σ)
    else let w := x.window given σ; (mergeP (σ s) w.1 w.2.1 w.2.2 sliced).bind fun r => .ret (.unit, assign σ s r)
  | .remove s ids => (removeP (σ s).arr ids (σ s).len 0 0).bind fun n =>
      .ret (.unit, assign σ s { σ s with len := n })
  | .retarget s id seg now => (retargetP (σ s) id seg now).bind fun b => .ret (.bool b, σ)
  | .fresh s l spare => (freshP l spare).bind fun r => .ret (.unit, assign σ s r)
  | .clone s x => let w := x.window given σ
      (readN w.1 w.2.1 w.2.2).bind fun l => (freshP l 0).bind fun r => .ret (.unit, assign σ s r)
  | .join s x => let w := x.window given σ
      (readN (σ s).arr 0 (σ s).len).bind fun l => (readN w.1 w.2.1 w.2.2).bind fun l' =>
        (freshP (l ++ l') 0).bind fun r => .ret (.unit, assign σ s r)

/-- The code of a goroutine: what it does next depends on all answers it got. -/
inductive Code (β : Type) : Type
  | done (b : β)
  | op (o : Op) (k : Res → Code β)

/-- The code of a goroutine as a program. -/
def Code.prog (given : Nat → Arr × Nat × Nat) : Code β → (Nat → Slice) → Prog (β × (Nat → Slice))
  | .done b, σ => .ret (b, σ)
  | .op o k, σ => (o.prog given σ).bind fun r => (k r.1).prog given r.2

end RankDB.Heap

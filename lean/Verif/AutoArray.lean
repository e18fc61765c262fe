import Verif.Deque
/-!
# Model of `base/containers/autoArray.{h,tcc}` (`AutoArrayT`)

The memory block is a list of cells, `none` = raw memory, `some v` = a constructed object, as in the
model of the deque (`construct`, `destroy`, `load`, `release` come from there); reading, moving or
destroying raw memory, constructing over a live object and addressing outside of the block are
undefined behaviour.  Items are objects with constructors (`ObjManipNonPOD`); for the primitive types
`ObjManipPOD` moves bytes by `memmove`.  Exceptions of the item's own constructors are not modelled.

`natural` has 64 bits, sums and products wrap (`w64`).  An argument `const T &` is either an
independent value or a reference into the block of the array itself; the block carries a number
`gen`, so that a reference into a block which was replaced is recognised.
-/

namespace LS.AutoArray

open LS.Deque (construct destroy load release)

/-- Arithmetic of `natural`. -/
def w64 (n : Nat) : Nat := n % 2 ^ 64

/-- The allocators the array is used with, memory/allocatedMemory.h:17-83. `block n` is the size of
the block made for `n` items (`none` = the constructor throws); `movable n` is the answer of `move`
called on that block. `expand` and `shrink` return false in all of them. -/
structure Alloc where
  block : Nat → Option Nat
  movable : Nat → Bool

/-- memory/stdAlloc.h:29-88 (the heap is taken to have enough memory). -/
def stdAlloc : Alloc := { block := some, movable := fun _ => true }

/-- memory/staticAlloc.h:20-50. -/
def staticAlloc (cnt : Nat) : Alloc :=
  { block := fun n => if n > cnt then none else some cnt, movable := fun _ => false }

/-- memory/smallAlloc.h:37-142 (`allocMem` 123-136, `move` 61-74). -/
def smallAlloc (cnt : Nat) : Alloc :=
  { block := fun n => if n > cnt then some n else some cnt, movable := fun n => decide (n > cnt) }

/-- autoArray.h:294-295: `allocBk` (its cells) and `usedSz`; `gen` numbers the blocks. -/
structure Arr (α : Type) where
  mem : List (Option α)
  used : Nat := 0
  gen : Nat := 0
deriving DecidableEq, Repr

/-- An argument `const T &`. -/
inductive Ref (α : Type) where
  /-- refers to an object elsewhere -/
  | val (v : α)
  /-- refers to the cell `i` of the block number `gen` of the array -/
  | cell (gen i : Nat)

variable {α : Type}

/-- Reading through a reference. -/
def Ref.get (r : Ref α) (a : Arr α) : Except Err α :=
  match r with
  | .val v => .ok v
  | .cell g i => if g = a.gen then load a.mem i else .error .ub

/-- objmanip.h:206-212 `moveOne`, move.h:31-39 `doMove`. -/
def moveOne (mem : List (Option α)) (src dst : Nat) : Except Err (List (Option α)) := do
  let v ← load mem src
  let mem ← construct mem dst v
  destroy mem src

/-- objmanip.h:189-193: the loop from the first item. -/
def moveDown (mem : List (Option α)) (src dst : Nat) : Nat → Except Err (List (Option α))
  | 0 => .ok mem
  | n + 1 => do
    let mem ← moveOne mem src dst
    moveDown mem (src + 1) (dst + 1) n

/-- objmanip.h:194-200: the loop from the last item. -/
def moveUp (mem : List (Option α)) (src dst : Nat) : Nat → Except Err (List (Option α))
  | 0 => .ok mem
  | n + 1 => do
    let mem ← moveOne mem (src + n) (dst + n)
    moveUp mem src dst n

/-- objmanip.h:183-203 `move` inside of one block. -/
def objMove (mem : List (Option α)) (src n dst : Nat) : Except Err (List (Option α)) :=
  if dst < src then moveDown mem src dst n else moveUp mem src dst n

/-- objmanip.h:183-203 `move` of `n` items between two blocks, from `i` to `i`. The direction depends
on the addresses; the blocks do not overlap. -/
def moveTo (old new : List (Option α)) (i : Nat) :
    Nat → Except Err (List (Option α) × List (Option α))
  | 0 => .ok (old, new)
  | n + 1 => do
    let v ← load old i
    let new ← construct new i v
    let old ← destroy old i
    moveTo old new (i + 1) n

/-- objmanip.h:214-227 `destruct`: from the last item. -/
def destruct (mem : List (Option α)) (at_ : Nat) : Nat → Except Err (List (Option α))
  | 0 => .ok mem
  | n + 1 => do
    let mem ← destroy mem (at_ + n)
    destruct mem at_ n

/-- autoArray.tcc:19-20, autoArray.h:31 the constructors of the empty array. -/
def new (A : Alloc) : Except Err (Arr α) :=
  match A.block 0 with
  | none => .error .thrown
  | some m => .ok { mem := List.replicate m none }

/-- The common part of autoArray.tcc:38-47 and 60-70: allocate a block for `max` items, move all items
to it, release the old block. -/
def realloc (A : Alloc) (a : Arr α) (max : Nat) : Except Err (Option (Arr α)) :=
  match A.block max with
  | none => .error .thrown
  | some m =>
    if A.movable max then do
      let (old, new) ← moveTo a.mem (List.replicate m none) 0 a.used
      release old
      return some { mem := new, used := a.used, gen := a.gen + 1 }
    else return none

/-- autoArray.tcc:23-54 `addExtra`. -/
def addExtra (A : Alloc) (a : Arr α) (items : Nat) : Except Err (Arr α) :=
  if w64 (a.used + items) > a.mem.length then do
    let max := w64 (a.used * 3) / 2
    let max := if w64 (a.used + items) > max then w64 (a.used + items) else max
    match ← realloc A a max with
    | some a => return a
    | none => .error .thrown
  else .ok a

/-- autoArray.tcc:55-74 `freeExtra`. -/
def freeExtra (A : Alloc) (a : Arr α) : Except Err (Arr α) :=
  if a.used < a.mem.length then do
    match ← realloc A a a.used with
    | some a => return a
    | none => return a
  else .ok a

/-- autoArray.tcc:78-80 `reserve`. -/
def reserve (A : Alloc) (a : Arr α) (items : Nat) : Except Err (Arr α) :=
  if items > a.used then addExtra A a (items - a.used) else .ok a

/-- autoArray.tcc:85-86, 95-96: `new(base+usedSz) T(item); ++usedSz;`. -/
def push (a : Arr α) (item : Ref α) : Except Err (Arr α) := do
  let v ← item.get a
  let mem ← construct a.mem a.used v
  return { a with mem := mem, used := a.used + 1 }

/-- autoArray.tcc:83-88 `add(item)`. -/
def add (A : Alloc) (a : Arr α) (item : Ref α) : Except Err (Arr α) := do
  let a ← addExtra A a 1
  push a item

/-- autoArray.tcc:94-97, the loop of `add(item, count)`. -/
def pushN (a : Arr α) (item : Ref α) : Nat → Except Err (Arr α)
  | 0 => .ok a
  | n + 1 => do
    let a ← push a item
    pushN a item n

/-- autoArray.tcc:91-98 `add(item, count)`. -/
def addN (A : Alloc) (a : Arr α) (item : Ref α) (count : Nat) : Except Err (Arr α) := do
  let a ← addExtra A a count
  pushN a item count

/-- autoArray.tcc:207-218 `unreserveAt`. -/
def unreserveAt (a : Arr α) (pos count : Nat) : Except Err (Arr α) := do
  let mem ← objMove a.mem (pos + count) (a.used - pos - count) pos
  return { a with mem := mem, used := a.used - count }

/-- autoArray.tcc:192-205 `reserveAt`. -/
def reserveAt (A : Alloc) (a : Arr α) (pos count : Nat) : Except Err (Arr α) := do
  let a ← addExtra A a count
  let mem ← objMove a.mem pos (a.used - pos) (pos + count)
  return { a with mem := mem, used := a.used + count }

/-- autoArray.tcc:167-178 `erase(at, count)`. -/
def erase (a : Arr α) (at_ count : Nat) : Except Err (Arr α) :=
  if at_ > a.used then .error .thrown
  else
    let count := if w64 (at_ + count) > a.used then a.used - at_ else count
    if count = 0 then .ok a
    else do
      let mem ← destruct a.mem at_ count
      unreserveAt { a with mem := mem } at_ count

/-- autoArray.tcc:180-184 `trunc`. -/
def trunc (a : Arr α) (count : Nat) : Except Err (Arr α) :=
  let count := if count ≥ a.used then a.used else count
  erase a (a.used - count) count

/-- autoArray.tcc:187-190 `clear`. -/
def clear (a : Arr α) : Except Err (Arr α) := trunc a a.used

/-- autoArray.tcc:111-115 `resize(items, init)`. -/
def resizeWith (A : Alloc) (a : Arr α) (items : Nat) (init : Ref α) : Except Err (Arr α) :=
  if items > a.used then addN A a init (items - a.used)
  else if items < a.used then trunc a (a.used - items)
  else .ok a

/-- autoArray.tcc:101-109 `resize(items)`: new items come from the default constructor, `dflt`;
objmanip.h:245-254 `construct`. -/
def resize (A : Alloc) (a : Arr α) (items : Nat) (dflt : α) : Except Err (Arr α) :=
  if items > a.used then do
    let b ← addExtra A a (items - a.used)
    pushN b (.val dflt) (items - a.used)
  else if items < a.used then trunc a (a.used - items)
  else .ok a

/-- autoArray.h:234-236 the insert iterator: `atpos`, `limit`, the target. -/
structure InsIter (α : Type) where
  atpos : Nat
  limit : Nat
  target : Arr α

/-- autoArray.h:203-206 the constructor of the insert iterator. -/
def InsIter.new (A : Alloc) (a : Arr α) (atpos limit : Nat) : Except Err (InsIter α) := do
  let a ← reserveAt A a atpos limit
  return { atpos := atpos, limit := limit, target := a }

/-- autoArray.h:223-231 `write`. -/
def InsIter.write (w : InsIter α) (item : Ref α) : Except Err (InsIter α) :=
  if w.limit > 0 then do
    let v ← item.get w.target
    let mem ← construct w.target.mem w.atpos v
    return { atpos := w.atpos + 1, limit := w.limit - 1, target := { w.target with mem := mem } }
  else .error .thrown

/-- autoArray.h:208-217 the destructor of an iterator which was not copied. -/
def InsIter.close (w : InsIter α) : Except Err (Arr α) :=
  if w.limit ≠ 0 then unreserveAt w.target w.atpos w.limit else .ok w.target

/-- Writing of several items. -/
def InsIter.writes (w : InsIter α) : List (Ref α) → Except Err (InsIter α)
  | [] => .ok w
  | r :: rs => do
    let w ← w.write r
    InsIter.writes w rs

/-- autoArray.h:267-272 `getInsertIterator`, then writing of `items`, then the destructor. -/
def insertIter (A : Alloc) (a : Arr α) (at_ count : Nat) (items : List (Ref α)) :
    Except Err (Arr α) :=
  if at_ > a.used then .error .thrown
  else do
    let w ← InsIter.new A a at_ count
    let w ← w.writes items
    w.close

/-- autoArray.tcc:122-130 `insert(at, init, count)`; `insert(at, init)` has `count = 1` (117-120). -/
def insert (A : Alloc) (a : Arr α) (at_ : Nat) (init : Ref α) (count : Nat) : Except Err (Arr α) :=
  if at_ > a.used then .error .thrown
  else if at_ = a.used then addN A a init count
  else do
    let w ← InsIter.new A a at_ count
    let w ← w.writes (List.replicate count init)
    w.close

/-- The loop of `append`, autoArray.tcc:146, 273-275, on items of another container. -/
def addAll (A : Alloc) (a : Arr α) : List α → Except Err (Arr α)
  | [] => .ok a
  | x :: xs => do
    let a ← add A a (.val x)
    addAll A a xs

/-- autoArray.tcc:267-274 `append(array)` of another array. -/
def append (A : Alloc) (a : Arr α) (items : List α) : Except Err (Arr α) := do
  let a ← addExtra A a items.length
  addAll A a items

/-- iterator.h:532-539 `copy` into the insert iterator: stops when one of the sides has no items. -/
def InsIter.copy (w : InsIter α) : List α → Except Err (InsIter α)
  | [] => .ok w
  | x :: xs =>
    if w.limit > 0 then do
      let w ← w.write (.val x)
      InsIter.copy w xs
    else .ok w

/-- autoArray.tcc:132-141 `insertArray` of another array. -/
def insertArray (A : Alloc) (a : Arr α) (at_ : Nat) (items : List α) : Except Err (Arr α) :=
  if at_ > a.used then .error .thrown
  else if at_ = a.used then append A a items
  else do
    let w ← InsIter.new A a at_ items.length
    let w ← w.copy items
    w.close

/-- autoArray.tcc:268-276 `append` of the array to itself, the loop (arrayt.h:83-106: the iterator
compares its position with the present length). `none` = still running after `fuel` rounds. -/
def appendSelfLoop (A : Alloc) (a : Arr α) (pos : Nat) : Nat → Option (Except Err (Arr α))
  | 0 => none
  | fuel + 1 =>
    if pos < a.used then
      match add A a (.cell a.gen pos) with
      | .ok a => appendSelfLoop A a (pos + 1) fuel
      | .error e => some (.error e)
    else some (.ok a)

/-- autoArray.tcc:268-276 `append` of the array to itself. -/
def appendSelf (A : Alloc) (a : Arr α) (fuel : Nat) : Option (Except Err (Arr α)) :=
  match addExtra A a a.used with
  | .ok a => appendSelfLoop A a 0 fuel
  | .error e => some (.error e)

/-- autoArray.tcc:221-225 the copy constructor; `items` is the content of the other array. -/
def copy (A : Alloc) (items : List α) : Except Err (Arr α) :=
  match A.block items.length with
  | none => .error .thrown
  | some m => append A { mem := List.replicate m none } items

/-- autoArray.tcc:227-237 `operator=`, `items` is the content of the other array; `WriteIter::write`
(autoArray.h:178-185) with the limit `naturalNull` is `add`. -/
def assign (A : Alloc) (a : Arr α) (items : List α) : Except Err (Arr α) := do
  let a ← clear a
  if items.length > 0 then
    let a ← reserve A a items.length
    addAll A a items
  else return a

/-- autoArray.tcc:227-237 `operator=` with the array itself on the right side: `arr.length()` is
asked after `clear()`. -/
def assignSelf (a : Arr α) : Except Err (Arr α) := do
  let a ← clear a
  if a.used > 0 then .error .ub else return a

/-- arrayt.h:61-63, flatArray.h:81 reading of an item; the subscript is not checked. -/
def at_ (a : Arr α) (i : Nat) : Except Err α := load a.mem i

/-- flatArray.h:130 `set`. -/
def set (a : Arr α) (i : Nat) (v : α) : Except Err (Arr α) :=
  match a.mem[i]? with
  | some (some _) => .ok { a with mem := a.mem.set i (some v) }
  | _ => .error .ub

/-- objmanip.h:256-264 `swap`: exchange of the first `n` items of two blocks. -/
def swapItems (m1 m2 : List (Option α)) (i : Nat) :
    Nat → Except Err (List (Option α) × List (Option α))
  | 0 => .ok (m1, m2)
  | n + 1 => do
    let x ← load m1 i
    let y ← load m2 i
    swapItems (m1.set i (some y)) (m2.set i (some x)) (i + 1) n

/-- autoArray.tcc:253-260, 264: exchange item by item, `a` being the longer (or equally long) one. -/
def swapLong (A : Alloc) (a b : Arr α) : Except Err (Arr α × Arr α) := do
  let b ← reserve A b a.used
  let (m1, m2) ← swapItems a.mem b.mem 0 b.used
  let (m1, m2) ← moveTo m1 m2 b.used (a.used - b.used)
  return ({ a with mem := m1, used := b.used }, { b with mem := m2, used := a.used })

/-- autoArray.tcc:244-266 `swap`; `fast` is the answer of `allocBk.swap`. (The branch at 258-260 needs
`other` to be longer, which 248-251 exclude.) -/
def swap (A : Alloc) (fast : Bool) (a b : Arr α) : Except Err (Arr α × Arr α) :=
  if fast then .ok (b, a)
  else if b.used > a.used then do
    let (b, a) ← swapLong A b a
    return (a, b)
  else swapLong A a b

/-- autoArray.tcc:239-242 the destructor: `clear()`, then the block is released. -/
def destructor (a : Arr α) : Except Err Unit := do
  let a ← clear a
  release a.mem

end LS.AutoArray

import Verif.Basic
/-!
# Model of `base/containers/deque.{h,tcc}`, `queue.h`, `stack.h`

The memory block is a list of cells, `none` = raw memory, `some v` = a constructed object.
Constructing over a live object, destroying or reading raw memory and addressing outside of the
block are the outcome `ub`; C++ exceptions are `thrown`.  Indices are unbounded naturals (a block
of objects never has `2^63` cells).  The allocator is `StdAlloc`, whose allocation is taken to
succeed, so that `tmp.move(newblk)` in `internalResize` is true.  Moving an object
(`MoveObject<T>::doMove`) destroys the source and constructs the target; exceptions thrown by a
user's move or copy operation are not modelled.
-/

namespace LS

/-- Abnormal outcomes of a modelled C++ call. -/
inductive Err where
  /-- a C++ exception of the library -/
  | thrown
  /-- undefined behaviour -/
  | ub
deriving DecidableEq, Repr

namespace Deque

/-- deque.h:70-82: `memBlock`, `head`, `tail`. -/
structure Deque (α : Type) where
  mem : List (Option α) := []
  head : Nat := 0
  tail : Nat := 0
deriving DecidableEq, Repr

variable {α : Type}

/-- `val.construct(memBlock.getBase()+at)`. -/
def construct (mem : List (Option α)) (i : Nat) (v : α) : Except Err (List (Option α)) :=
  match mem[i]? with
  | some none => .ok (mem.set i (some v))
  | _ => .error .ub

/-- `memBlock.getBase()[i].~T()`. -/
def destroy (mem : List (Option α)) (i : Nat) : Except Err (List (Option α)) :=
  match mem[i]? with
  | some (some _) => .ok (mem.set i none)
  | _ => .error .ub

/-- Reading the object `memBlock.getBase()[i]`. -/
def load (mem : List (Option α)) (i : Nat) : Except Err α :=
  match mem[i]? with
  | some (some v) => .ok v
  | _ => .error .ub

/-- deque.tcc:58-66 `length`. -/
def length (d : Deque α) : Nat :=
  if d.head ≠ 0 ∧ d.head ≤ d.tail then d.head + d.mem.length - d.tail else d.head - d.tail

/-- deque.tcc:93-97 `isFull`. -/
def isFull (d : Deque α) : Bool := length d == d.mem.length

/-- deque.tcc:99-103 `empty`. -/
def empty (d : Deque α) : Bool := d.head == 0

/-- deque.tcc:50-56 `at`. -/
def at_ (d : Deque α) (index : Nat) : Except Err α :=
  if index ≥ length d then .error .thrown
  else load d.mem ((index + d.tail) % d.mem.length)

/-- deque.tcc:35-48 `set` through `mutableAt`: assignment to a live object. -/
def set (d : Deque α) (index : Nat) (v : α) : Except Err (Deque α) :=
  if index ≥ length d then .error .thrown
  else
    match d.mem[(index + d.tail) % d.mem.length]? with
    | some (some _) => .ok { d with mem := d.mem.set ((index + d.tail) % d.mem.length) (some v) }
    | _ => .error .ub

/-- deque.tcc:184-190 `MoveOp::doMove`: move `n` objects, the old block at `offset + i` modulo
`wrap` to position `i` of the new block. Returns both blocks. -/
def doMove (old new : List (Option α)) (wrap offset i : Nat) :
    Nat → Except Err (List (Option α) × List (Option α))
  | 0 => .ok (old, new)
  | n + 1 => do
    let v ← load old ((offset + i) % wrap)
    let new' ← construct new i v
    let old' ← destroy old ((offset + i) % wrap)
    doMove old' new' wrap offset (i + 1) n

/-- Releasing a memory block that still holds objects loses them; the model makes that `ub` as
well so that the theorems cover leaks. -/
def release (mem : List (Option α)) : Except Err Unit :=
  if mem.all Option.isNone then .ok () else .error .ub

/-- deque.tcc:170-225 `internalResize`. -/
def internalResize (d : Deque α) (reqSz curSz : Nat) : Except Err (Deque α) := do
  let (old, new) ← doMove d.mem (List.replicate reqSz none) d.mem.length d.tail 0 curSz
  release old
  return { mem := new, head := curSz, tail := 0 }

/-- deque.tcc:227-237 `reserve`. -/
def reserve (d : Deque α) (count : Nat) : Except Err (Bool × Deque α) :=
  if count > length d then do
    let d' ← internalResize d count (length d)
    return (true, d')
  else return (false, d)

/-- deque.tcc:239-248 `tryExpand`. -/
def tryExpand (d : Deque α) : Except Err (Deque α) := do
  let curLen := length d
  let newSz := if curLen ≠ 0 then curLen + (curLen + 1) / 2 else 1
  let (ok, d') ← reserve d newSz
  if ok then return d' else .error .thrown

/-- deque.tcc:72, 83: `if (isFull()) tryExpand();`. -/
def makeRoom (d : Deque α) : Except Err (Deque α) := if isFull d then tryExpand d else .ok d

/-- deque.tcc:68-77 `pushFront`. -/
def pushFront (d : Deque α) (v : α) : Except Err (Deque α) := do
  let d ← makeRoom d
  if d.mem.length = 0 then .error .ub
  else
    let a := d.head % d.mem.length
    let mem ← construct d.mem a v
    return { d with mem, head := a + 1 }

/-- deque.tcc:79-90 `pushBack`. -/
def pushBack (d : Deque α) (v : α) : Except Err (Deque α) := do
  let d ← makeRoom d
  let memSz := d.mem.length
  if memSz = 0 then .error .ub
  else
    let head := if d.head = 0 then memSz else d.head
    let a := (d.tail + memSz - 1) % memSz
    let mem ← construct d.mem a v
    return { mem, head, tail := a }

/-- deque.tcc:105-124 `getBack`. -/
def getBack (d : Deque α) : Except Err α :=
  if empty d then .error .thrown else load d.mem d.tail

/-- deque.tcc:112-131 `getFront`. -/
def getFront (d : Deque α) : Except Err α :=
  if empty d then .error .thrown else load d.mem (d.head - 1)

/-- deque.tcc:133-144 `popFront`. -/
def popFront (d : Deque α) : Except Err (Deque α) :=
  if empty d then .error .thrown
  else do
    let memSz := d.mem.length
    let head := d.head - 1
    let mem ← destroy d.mem head
    if head = d.tail then return { mem, head := 0, tail := 0 }
    else return { d with mem, head := (head + memSz - 1) % memSz + 1 }

/-- deque.tcc:146-156 `popBack`. -/
def popBack (d : Deque α) : Except Err (Deque α) :=
  if empty d then .error .thrown
  else do
    let memSz := d.mem.length
    let mem ← destroy d.mem d.tail
    let tail := d.tail + 1
    if d.head = tail then return { mem, head := 0, tail := 0 }
    else return { d with mem, tail := tail % memSz }

/-- deque.tcc:250-256 `clear`; the loop is bounded by the block size (running out is `ub`). -/
def clearLoop : Nat → Deque α → Except Err (Deque α)
  | 0, d => if empty d then .ok d else .error .ub
  | n + 1, d => if empty d then .ok d else do clearLoop n (← popFront d)

/-- deque.tcc:250-256 `clear`. -/
def clear (d : Deque α) : Except Err (Deque α) := clearLoop d.mem.length d

/-- deque.tcc:264-268: the destructor's loop. -/
def destroyAll (mem : List (Option α)) (wrap offset i : Nat) : Nat → Except Err (List (Option α))
  | 0 => .ok mem
  | n + 1 => do destroyAll (← destroy mem ((offset + i) % wrap)) wrap offset (i + 1) n

/-- deque.tcc:258-282 `~Deque`. -/
def destructor (d : Deque α) : Except Err Unit := do
  release (← destroyAll d.mem d.mem.length d.tail 0 (length d))

/-! ## `queue.h` and `stack.h` are thin wrappers -/

/-- queue.h:23 `Queue::push`. -/
def Queue.push (d : Deque α) (v : α) := pushBack d v
/-- queue.h:28 `Queue::top`. -/
def Queue.top (d : Deque α) := getFront d
/-- queue.h:30 `Queue::pop`. -/
def Queue.pop (d : Deque α) := popFront d

/-- stack.h:24 `Stack::push`. -/
def Stack.push (d : Deque α) (v : α) := pushBack d v
/-- stack.h:29 `Stack::top`. -/
def Stack.top (d : Deque α) := getBack d
/-- stack.h:30 `Stack::pop`. -/
def Stack.pop (d : Deque α) := popBack d

end Deque
end LS

/-
The memory of containers with room for a few items inside.

Source: /repo/src/lightspeed/base/memory/smallAlloc.h:38-142
(`SmallAlloc<cnt>::AllocatedMemory<T>`).

Memory from outside is a block with a number, its size in bytes and who made
it: `operator new` or a runtime allocator. The pointer of an object is not set,
null, the buffer inside some object (of the variable with that number), or a
block.

Simplified: `operator new` and the allocators do not fail.
-/
namespace LS.SmallMem

def W : Nat := 2 ^ 64

/-- Template arguments: number of items inside and `sizeof(T)`. -/
structure Par where
  cnt : Nat
  tsz : Nat

/-- `owner` is `none` for `operator new`. -/
structure Blk where
  owner : Option Nat
  bytes : Nat
  deriving DecidableEq, Repr

inductive Ptr where
  | unset
  | null
  | buf (v : Nat)
  | heap (b : Nat)
  deriving DecidableEq, Repr

/-- smallAlloc.h:117-120 -/
structure Mem where
  alloc : Option Nat
  ptr : Ptr
  size : Nat
  deriving DecidableEq, Repr

structure St where
  blk : Nat → Option Blk
  next : Nat
  vars : List (Option Mem)

def new (k : Nat) : St := ⟨fun _ => none, 0, List.replicate k none⟩

inductive Err where
  | ub
  | stuck
  deriving DecidableEq, Repr

def upd {α : Type} (f : Nat → α) (i : Nat) (x : α) : Nat → α := fun j => if j = i then x else f j

def St.get (s : St) (v : Nat) : Except Err Mem :=
  match s.vars[v]? with
  | some (some x) => .ok x
  | _ => .error .stuck

def St.free (s : St) (v : Nat) : Except Err Unit :=
  match s.vars[v]? with
  | some none => .ok ()
  | _ => .error .stuck

def St.put (s : St) (v : Nat) (x : Option Mem) : St := { s with vars := s.vars.set v x }

/-- smallAlloc.h:122 `isLocal` of the object in `v`; reading a pointer that is
not set is undefined. -/
def Mem.isLocal (x : Mem) (v : Nat) : Except Err Bool :=
  match x.ptr with
  | .unset => .error .ub
  | .buf u => .ok (u == v)
  | _ => .ok false

/-- smallAlloc.h:124-137 `allocMem` in the constructor of `v` with the runtime
allocator `a`. -/
def allocMem (p : Par) (s : St) (v : Nat) (a : Option Nat) (n : Nat) : St :=
  if n > p.cnt then
    { s.put v (some ⟨a, .heap s.next, n⟩) with blk := upd s.blk s.next (some ⟨a, (p.tsz * n) % W⟩), next := s.next + 1 }
  else s.put v (some ⟨a, .buf v, p.cnt⟩)

/-- `operator delete`. -/
def opDelete (s : St) : Ptr → Except Err St
  | .unset => .error .ub
  | .null => .ok s
  | .buf _ => .error .ub
  | .heap b =>
    match s.blk b with
    | some ⟨none, _⟩ => .ok { s with blk := upd s.blk b none }
    | _ => .error .ub

/-- `dealloc` of the runtime allocator `a` with the size in bytes. -/
def rtDealloc (s : St) (a n : Nat) : Ptr → Except Err St
  | .heap b => if s.blk b = some ⟨some a, n⟩ then .ok { s with blk := upd s.blk b none } else .error .ub
  | _ => .error .ub

/-- smallAlloc.h:100-101 -/
def release (p : Par) (s : St) (x : Mem) : Except Err St :=
  match x.alloc with
  | some a => rtDealloc s a ((x.size * p.tsz) % W) x.ptr
  | none => opDelete s x.ptr

inductive Op where
  /-- smallAlloc.h:85-87 -/
  | ctorN (v : Nat) (a : Option Nat) (n : Nat)
  /-- smallAlloc.h:89-91 -/
  | ctor (v : Nat) (a : Option Nat)
  /-- smallAlloc.h:79-81 -/
  | copyN (v w n : Nat)
  /-- smallAlloc.h:94-96 -/
  | copy (v w : Nat)
  /-- smallAlloc.h:56-62 `v.swap(w)` -/
  | swap (v w : Nat)
  /-- smallAlloc.h:64-77 `v.move(w)` -/
  | move (v w : Nat)
  /-- smallAlloc.h:98-103 -/
  | destroy (v : Nat)
  deriving DecidableEq, Repr

def step (p : Par) (s : St) : Op → Except Err St
  | .ctorN v a n => do
    s.free v
    .ok (allocMem p s v a n)
  | .ctor v a => do
    s.free v
    .ok (s.put v (some ⟨a, .unset, 0⟩))
  | .copyN v w n => do
    s.free v
    let y ← s.get w
    .ok (allocMem p s v y.alloc n)
  | .copy v w => do
    s.free v
    let y ← s.get w
    if y.ptr = .unset then .error .ub
    .ok (allocMem p s v y.alloc y.size)
  | .swap v w => do
    let x ← s.get v
    let y ← s.get w
    let lx ← x.isLocal v
    let ly ← y.isLocal w
    if lx || ly then .ok s else .ok ((s.put w (some x)).put v (some y))
  | .move v w => do
    let x ← s.get v
    let y ← s.get w
    let lx ← x.isLocal v
    let ly ← y.isLocal w
    if lx then .ok s
    else do
      let s ← if ly then .ok s else opDelete s y.ptr
      .ok ((s.put w (some x)).put v (some ⟨none, .null, 0⟩))
  | .destroy v => do
    let x ← s.get v
    let lx ← x.isLocal v
    let s ← if lx then .ok s else release p s x
    .ok (s.put v none)

def run (p : Par) (s : St) : List Op → Except Err St
  | [] => .ok s
  | op :: l =>
    match step p s op with
    | .ok s' => run p s' l
    | .error e => .error e

/-- containers/autoArray.tcc:38-50 and 62-71: what `addExtra` and `freeExtra`
do with the memory `v` of an array; `t` and `n` are `tmp` and `newblk`. -/
def grow (v t n max : Nat) : List Op :=
  [.copyN t v max, .copyN n v 0, .move t n, .move n v, .destroy n, .destroy t]

end LS.SmallMem

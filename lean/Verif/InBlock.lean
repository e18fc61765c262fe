/-
An array in a block of fixed size: `InBlockAlloc`, base/memory/inBlockAlloc.h:20-66, under `AutoArray`,
base/containers/autoArray.tcc:23-115. Tables of thread variables are such arrays, mt/linux/thread.cpp:182-191.

Simplified: items are copied without exceptions; of the array there are the calls that change its end.
-/

namespace LS.InBlock

/-- Numbers are below this, `natural` on a 64-bit machine. -/
def M : Nat := 2 ^ 64

/-- The bytes of the block, the bytes of an item, the items. -/
structure St (T : Type) where
  sz : Nat
  w : Nat
  items : List T
deriving DecidableEq

/-- The outcome of a call. -/
inductive R (T : Type) where
  | ok (s : St T)
  /-- the exception of the limit -/
  | limit (s : St T)
  /-- a write outside of the block -/
  | ub
deriving DecidableEq

/-- `getSize`, inBlockAlloc.h:29. -/
def St.cap {T : Type} (s : St T) : Nat := s.sz / s.w

/-- The constructors of `AllocatedMemory`, inBlockAlloc.h:34-48: the size in items of the memory asked for `count` items;
`none`: the exception. -/
def alloc (sz w count : Nat) : Option Nat := if sz < count then none else some (sz / w)

/-- `addExtra`, autoArray.tcc:23-54; `expand` and `move` always say no, inBlockAlloc.h:30, 33. True: there is room. -/
def St.addExtra {T : Type} (s : St T) (n : Nat) : Bool :=
  let fin := (s.items.length + n) % M
  if s.cap < fin then
    match alloc s.sz s.w (max (s.items.length * 3 / 2) fin) with
    | none => false
    | some _ => false
  else true

/-- Items constructed behind the last one; each has to be in the block. -/
def St.write {T : Type} (s : St T) (x : T) : Nat → R T
  | 0 => .ok s
  | n + 1 =>
    if s.sz < (s.items.length + n + 1) * s.w then .ub
    else .ok ⟨s.sz, s.w, s.items ++ List.replicate (n + 1) x⟩

/-- `add` with a count, autoArray.tcc:92-99; without, 83-89, it is one. -/
def St.add {T : Type} (s : St T) (x : T) (n : Nat) : R T := if s.addExtra n then s.write x n else .limit s

/-- `resize`, autoArray.tcc:101-115. -/
def St.resize {T : Type} (s : St T) (n : Nat) (x : T) : R T :=
  if s.items.length < n then s.add x (n - s.items.length)
  else .ok ⟨s.sz, s.w, s.items.take n⟩

/-- `reserve`, autoArray.tcc:78-81. -/
def St.reserve {T : Type} (s : St T) (n : Nat) : R T :=
  if s.items.length < n then (if s.addExtra (n - s.items.length) then .ok s else .limit s) else .ok s

/-- `freeExtra`, autoArray.tcc:55-74: `shrink` and `move` say no, but the memory asked for may be refused. -/
def St.freeExtra {T : Type} (s : St T) : R T :=
  if s.items.length < s.cap then
    match alloc s.sz s.w s.items.length with
    | none => .limit s
    | some _ => .ok s
  else .ok s

/-- Calls. -/
inductive Op (T : Type) where
  | add (x : T)
  | addN (x : T) (n : Nat)
  | resize (n : Nat) (x : T)
  | reserve (n : Nat)
  | freeExtra

/-- A call. -/
def St.op {T : Type} (s : St T) : Op T → R T
  | .add x => s.add x 1
  | .addN x n => s.add x n
  | .resize n x => s.resize n x
  | .reserve n => s.reserve n
  | .freeExtra => s.freeExtra

/-- Calls one after another; after the exception the array is used further. -/
def run {T : Type} : List (Op T) → St T → R T
  | [], s => .ok s
  | o :: l, s =>
    match s.op o with
    | .ok s' => run l s'
    | .limit s' => run l s'
    | .ub => .ub

end LS.InBlock

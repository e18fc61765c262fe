/-
Pointers that own their object, and pointers that only refer to it.

Source: /repo/src/lightspeed/base/memory/ownedPointer.h:47-182 over
/repo/src/lightspeed/base/memory/allocPointer.h:33-246.

Objects are named by their addresses; an address can be used again after its
object is destroyed. Every object remembers the allocator it comes from, and
every pointer carries an allocator. Destroying something that is not an object,
destroying it with another allocator, and reading the flag `owned` before it is
set are undefined behaviour.

Simplified: objects have no content. The `const` versions of `<<=` and `>>=`
(ownedPointer.h:156-167) assign to a member of a constant object, so they do not
compile when used. The assignment of `AllocPointer` (allocPointer.h:196-202)
is hidden by the one of `OwnedPtr`.
-/
namespace LS.OwnedPtr

/-- A variable `OwnedPtr`: allocPointer.h:34 the pointer and its allocator,
ownedPointer.h:181 the flag, `none` before it is set. -/
structure Var where
  ptr : Option Nat
  owned : Option Bool
  alloc : Nat
  deriving DecidableEq, Repr

/-- `alive o` is the allocator of the object at `o`; `raw` are objects the
program holds by plain pointers; `vars` are the variables, `none` when not
constructed or already destroyed. -/
structure St where
  alive : Nat → Option Nat
  raw : List Nat
  vars : List (Option Var)

inductive Err where
  | ub
  /-- not possible in this state -/
  | stuck
  deriving DecidableEq, Repr

inductive Op where
  /-- the program creates an object at address `o` by allocator `a` -/
  | new (o a : Nat)
  /-- the program destroys an object it holds by a plain pointer -/
  | del (o : Nat)
  /-- ownedPointer.h:55-56 `OwnedPtr()`, `OwnedPtr(nil)` with allocator `a` -/
  | ctor0 (v a : Nat)
  /-- ownedPointer.h:57 `OwnedPtr(p)`; `a` is the allocator of that type -/
  | ctor (v : Nat) (p : Option Nat) (a : Nat)
  /-- ownedPointer.h:60 `OwnedPtr(p, alloc)` -/
  | ctorA (v : Nat) (p : Option Nat) (a : Nat)
  /-- ownedPointer.h:89-92 -/
  | copy (v w : Nat)
  /-- ownedPointer.h:97-99 -/
  | copyN (v w : Nat)
  /-- ownedPointer.h:112-120 -/
  | assign (v w : Nat)
  /-- ownedPointer.h:129-142; `>>=` (149-152) calls it on the other pointer -/
  | take (v w : Nat)
  /-- ownedPointer.h:169-173 -/
  | swap (v w : Nat)
  /-- ownedPointer.h:71-74 -/
  | detach (v : Nat)
  /-- ownedPointer.h:63-65 and allocPointer.h:68-70 -/
  | destroy (v : Nat)
  /-- allocPointer.h:110-117, inherited -/
  | clear (v : Nat)
  /-- allocPointer.h:104-107, inherited -/
  | attach (v o : Nat)
  deriving DecidableEq, Repr

/-- Change of one place. -/
def upd {α : Type} (f : Nat → α) (i : Nat) (x : α) : Nat → α := fun j => if j = i then x else f j

/-- A constructed variable. -/
def St.get (s : St) (v : Nat) : Except Err Var :=
  match s.vars[v]? with
  | some (some x) => .ok x
  | _ => .error .stuck

/-- The place for a new variable. -/
def St.free (s : St) (v : Nat) : Except Err Unit :=
  match s.vars[v]? with
  | some none => .ok ()
  | _ => .error .stuck

def St.put (s : St) (v : Nat) (x : Option Var) : St := { s with vars := s.vars.set v x }

/-- Reading the flag. -/
def Var.isOwned (x : Var) : Except Err Bool :=
  match x.owned with
  | some b => .ok b
  | none => .error .ub

/-- memory/factory.h:98-109 `destroyInstance` by allocator `a`. -/
def destroyObj (s : St) (o a : Nat) : Except Err St :=
  if s.alive o = some a then .ok { s with alive := upd s.alive o none } else .error .ub

/-- allocPointer.h:110-117 on the variable `v` with the value `x`. -/
def clearVar (s : St) (v : Nat) (x : Var) : Except Err St :=
  match x.ptr with
  | none => .ok s
  | some o => destroyObj (s.put v (some { x with ptr := none })) o x.alloc

/-- A plain pointer given to a constructor or `attach`: null or an object the
program holds. -/
def St.give (s : St) (p : Option Nat) : Except Err St :=
  match p with
  | none => .ok s
  | some o => if o ∈ s.raw then .ok { s with raw := s.raw.erase o } else .error .stuck

/-- ownedPointer.h:112-120 for variables `x` in `v` and `y`. -/
def assignVar (s : St) (v : Nat) (x y : Var) : Except Err St :=
  if y.ptr = x.ptr then .ok s
  else
    match x.isOwned with
    | .error e => .error e
    | .ok b =>
      match (if b then clearVar s v x else .ok s) with
      | .error e => .error e
      | .ok s => .ok (s.put v (some ⟨y.ptr, some false, y.alloc⟩))

/-- ownedPointer.h:135-139 after the assignment. -/
def takeFlag (s : St) (v w : Nat) : Except Err St :=
  match s.get v, s.get w with
  | .ok x, .ok y =>
    match x.isOwned with
    | .error e => .error e
    | .ok true => .ok s
    | .ok false =>
      match y.isOwned with
      | .error e => .error e
      | .ok b =>
        let s := s.put v (some { x with owned := some b })
        .ok (s.put w (some { (if v = w then { x with owned := some b } else y) with owned := some false }))
  | _, _ => .error .stuck

def step (s : St) : Op → Except Err St
  | .new o a =>
    if s.alive o = none ∧ o ∉ s.raw then .ok { s with alive := upd s.alive o (some a), raw := o :: s.raw } else .error .stuck
  | .del o =>
    if o ∈ s.raw then .ok { s with alive := upd s.alive o none, raw := s.raw.erase o } else .error .stuck
  | .ctor0 v a => do
    s.free v
    .ok (s.put v (some ⟨none, none, a⟩))
  | .ctor v p a => do
    s.free v
    let s ← s.give p
    .ok (s.put v (some ⟨p, some true, a⟩))
  | .ctorA v p a => do
    s.free v
    let s ← s.give p
    .ok (s.put v (some ⟨p, none, a⟩))
  | .copy v w => do
    s.free v
    let y ← s.get w
    let b ← y.isOwned
    .ok ((s.put v (some ⟨y.ptr, some b, y.alloc⟩)).put w (some { y with owned := some false }))
  | .copyN v w => do
    s.free v
    let y ← s.get w
    .ok (s.put v (some ⟨y.ptr, some false, y.alloc⟩))
  | .assign v w => do
    let x ← s.get v
    let y ← s.get w
    assignVar s v x y
  | .take v w => do
    let x ← s.get v
    let y ← s.get w
    let s ← assignVar s v x y
    takeFlag s v w
  | .swap v w => do
    let x ← s.get v
    let y ← s.get w
    .ok ((s.put v (some y)).put w (some x))
  | .detach v => do
    let x ← s.get v
    let s' := s.put v (some { x with owned := some false })
    match x.ptr, x.owned with
    | some o, some true => .ok { s' with raw := o :: s'.raw }
    | _, _ => .ok s'
  | .destroy v => do
    let x ← s.get v
    let b ← x.isOwned
    match (if b then clearVar s v x else .ok s) with
    | .error e => .error e
    | .ok s => .ok (s.put v none)
  | .clear v => do
    let x ← s.get v
    clearVar s v x
  | .attach v o => do
    let x ← s.get v
    let s ← clearVar s v x
    let s ← s.give (some o)
    .ok (s.put v (some { x with ptr := some o }))

def run (s : St) : List Op → Except Err St
  | [] => .ok s
  | op :: l =>
    match step s op with
    | .ok s' => run s' l
    | .error e => .error e

/-- Nothing exists, places for `k` variables. -/
def new (k : Nat) : St := ⟨fun _ => none, [], List.replicate k none⟩

end LS.OwnedPtr

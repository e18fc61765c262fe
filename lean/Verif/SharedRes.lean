import Verif.FastLock
/-
Rings of objects sharing a resource: base/memory/sharedResource.h, and the pointer built on them: base/memory/sharedPtr.h.

An object is its address (a number); `next` is the field of all objects.  A walk along `next` has fuel; the result `none` means that the walk did not end (in the
program: for ever).  Not modelled: the variants with a lock (same steps under the lock), `forEachInstance` with a functor which stops.
-/
namespace LS.SharedRes
open LS.FastLock (upd)

abbrev Mem := Nat → Nat

/-- sharedResource.h:36 -/
def ctor (m : Mem) (x : Nat) : Mem := upd m x x

/-- sharedResource.h:46-48: `x` is created as a copy of `y`. -/
def copy (m : Mem) (x y : Nat) : Mem :=
  let m := upd m x (m y)
  upd m y x

/-- sharedResource.h:163-164, loop: first object after `cur` whose `next` is `x`. -/
def findPrev (m : Mem) (x : Nat) : Nat → Nat → Option Nat
  | 0, _ => none
  | f + 1, cur => if m cur ≠ x then findPrev m x f (m cur) else some cur

/-- sharedResource.h:161-167 -/
def removeItself (f : Nat) (m : Mem) (x : Nat) : Option Mem :=
  match findPrev m x f x with
  | none => none
  | some cur =>
    let m := upd m cur (m x)
    some (upd m x x)

/-- sharedResource.h:86-92: `x = y`. -/
def assign (f : Nat) (m : Mem) (x y : Nat) : Option Mem :=
  match removeItself f m x with
  | none => none
  | some m =>
    let m := upd m x (m y)
    some (upd m y x)

/-- sharedResource.h:233-237: the same steps as the assignment. -/
def shareWith (f : Nat) (m : Mem) (x y : Nat) : Option Mem :=
  match removeItself f m x with
  | none => none
  | some m =>
    let m := upd m x (m y)
    some (upd m y x)

/-- sharedResource.h:239-246: `x.merge(y)`. -/
def merge (f : Nat) (m : Mem) (x y : Nat) : Option Mem :=
  let nx := m y
  let m := upd m y x
  match findPrev m x f x with
  | none => none
  | some k => some (upd m k nx)

/-- sharedResource.h:109-111 -/
def isShared (m : Mem) (x : Nat) : Bool := m x != x

/-- sharedResource.h:121-123, loop -/
def countLoop (m : Mem) (x : Nat) : Nat → Nat → Nat → Option Nat
  | 0, _, _ => none
  | f + 1, cur, cnt => if m cur ≠ x then countLoop m x f (m cur) (cnt + 1) else some (cnt + 1)

/-- sharedResource.h:118-126 -/
def count (f : Nat) (m : Mem) (x : Nat) : Option Nat := countLoop m x f x 0

/-- Operations on the objects. -/
inductive Op where
  | new (x : Nat)
  | copy (x y : Nat)
  | assign (x y : Nat)
  | share (x y : Nat)
  | merge (x y : Nat)
  /-- `unshare`, sharedResource.h:145-153 -/
  | unshare (x : Nat)
  /-- destructor, sharedResource.h:98-100 -/
  | destroy (x : Nat)
deriving DecidableEq, Repr

def step (f : Nat) (m : Mem) : Op → Option Mem
  | .new x => some (ctor m x)
  | .copy x y => some (copy m x y)
  | .assign x y => assign f m x y
  | .share x y => shareWith f m x y
  | .merge x y => merge f m x y
  | .unshare x => removeItself f m x
  | .destroy x => removeItself f m x

def run (f : Nat) : Mem → List Op → Option Mem
  | m, [] => some m
  | m, op :: ops =>
    match step f m op with
    | none => none
    | some m => run f m ops

/-! ### `SharedPtr` -/

/-- State: the rings, the pointers (0 is NULL), the objects deleted so far. -/
structure PSt where
  next : Mem := fun _ => 0
  ptr : Nat → Nat := fun _ => 0
  deleted : List Nat := []

/-- allocPointer.h, `clear` of the destructor: deletes the object of a pointer which is not NULL. -/
def PSt.clear (s : PSt) (x : Nat) : PSt :=
  if s.ptr x ≠ 0 then { s with ptr := upd s.ptr x 0, deleted := s.deleted ++ [s.ptr x] } else s

/-- sharedPtr.h:78-82, then the destructors of `AllocPointer` and `SharedResource`. -/
def PSt.destroy (f : Nat) (s : PSt) (x : Nat) : Option PSt :=
  let s := if isShared s.next x then { s with ptr := upd s.ptr x 0 } else s
  let s := s.clear x
  match removeItself f s.next x with
  | none => none
  | some m => some { s with next := m }

/-- sharedPtr.h:15-16: from a pointer. -/
def PSt.make (s : PSt) (x o : Nat) : PSt := { s with next := ctor s.next x, ptr := upd s.ptr x o }

/-- sharedPtr.h:21-22 -/
def PSt.copy (s : PSt) (x y : Nat) : PSt := { s with next := SharedRes.copy s.next x y, ptr := upd s.ptr x (s.ptr y) }

/-- sharedPtr.h:45-54: the loop of the assignment, and the join behind it; `*q == other` compares the pointers to the objects. -/
def joinLoop (f : Nat) (s : PSt) (x y : Nat) (q : Nat) : Option PSt :=
  match f with
  | 0 => none
  | f + 1 =>
    if s.next q ≠ x then
      if s.ptr q = s.ptr y then some s else joinLoop f s x y (s.next q)
    else
      let m := upd s.next q (s.next y)
      some { s with next := upd m y x }

/-- sharedPtr.h:24-71 -/
def PSt.assign (f : Nat) (s : PSt) (x y : Nat) : Option PSt :=
  if x = y then some s
  else if s.ptr x = s.ptr y then
    if !isShared s.next x then
      let m := upd s.next x (s.next y)
      some { s with next := upd m y x }
    else if !isShared s.next y then
      let m := upd s.next y (s.next x)
      some { s with next := upd m x y }
    else joinLoop f s x y x
  else
    -- makeAssign, sharedResource.h:204-210
    match s.destroy f x with
    | none => none
    | some s => some (s.copy x y)

/-- sharedResource.h:180-187 with sharedPtr.h:87-92: loop of `redirect`. -/
def redirLoop (m : Mem) (x : Nat) : Nat → Nat → (Nat → Nat) → Option (Nat → Nat)
  | 0, _, _ => none
  | f + 1, cur, p =>
    let p := upd p cur (p x)
    if m cur ≠ x then redirLoop m x f (m cur) p else some p

/-- sharedPtr.h:73-76 -/
def PSt.redirect (f : Nat) (s : PSt) (x o : Nat) : Option PSt :=
  match redirLoop s.next x f x (upd s.ptr x o) with
  | none => none
  | some p => some { s with ptr := p }

inductive POp where
  | make (x o : Nat)
  | copy (x y : Nat)
  | assign (x y : Nat)
  | redirect (x o : Nat)
  | destroy (x : Nat)
deriving DecidableEq, Repr

def pstep (f : Nat) (s : PSt) : POp → Option PSt
  | .make x o => some (s.make x o)
  | .copy x y => some (s.copy x y)
  | .assign x y => s.assign f x y
  | .redirect x o => s.redirect f x o
  | .destroy x => s.destroy f x

def prun (f : Nat) : PSt → List POp → Option PSt
  | s, [] => some s
  | s, op :: ops =>
    match pstep f s op with
    | none => none
    | some s => prun f s ops

end LS.SharedRes

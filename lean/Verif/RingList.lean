import Verif.Basic
/-!
# Model of `base/containers/list.h` (`List`)

Items are numbers; 0 is the anchor (list.h:417).  A number is given to one item only (simplified: memory is not used again).
`T` is any type.  The list and its iterators are one state: an iterator owns a reference to the item it stands on (list.h:66-75).
The references of temporary pointers during a call are left out where the call gives them back before another thing happens
(list.h:420-459: `createItem`, the argument `itm`, `dummy`).

Not modelled, because ill-formed when instantiated: `Iterator::getOwner` (list.h:203), so `WriteIterator` and the copy constructor;
`MutableIterator::direction` (list.h:244) calls itself without end; the other functions of `MutableIterator` call those of `Iterator`.
-/

namespace LS.RingList

/-- What a call ends with, when it does not return. -/
inductive Fail where
  /-- undefined behaviour -/
  | ub
  /-- `IteratorNoMoreItems` -/
  | noItems
  /-- the call does not end (within the steps given) -/
  | long
deriving DecidableEq, Repr

/-- list.h:80-211 `Iterator`: the item, the direction (`true`: forward) and the last one. -/
structure It where
  pos : Nat
  fwd : Bool
  last : Bool
deriving DecidableEq, Repr

/-- list.h:37-64, 416-418: items, `anchor`, `count`; and the iterators that exist. -/
structure St (α : Type) where
  nx : Nat → Nat
  pv : Nat → Nat
  data : Nat → Option α
  refs : Nat → Int
  live : Nat → Bool
  fresh : Nat
  count : Nat
  its : List It

/-- Writing to memory. -/
def upd {β : Type} (f : Nat → β) (a : Nat) (v : β) : Nat → β := fun n => if n = a then v else f n

variable {α : Type}

/-- list.h:277-281, 46-49: an empty list; the anchor has a reference that is never given back. -/
def empty : St α := { nx := fun n => n, pv := fun n => n, data := fun _ => none, refs := upd (fun _ => 0) 0 1, live := upd (fun _ => false) 0 true, fresh := 1, count := 0, its := [] }

/-- refCntPtr.h:287-291 `addRefPtr`. -/
def addRef (s : St α) (n : Nat) : Except Fail (St α) :=
  if s.live n then .ok { s with refs := upd s.refs n (s.refs n + 1) } else .error .ub

/-- refCntPtr.h:293-306 `releasePtr`: the last reference destroys the item. -/
def release (s : St α) (n : Nat) : Except Fail (St α) :=
  if s.live n then .ok { s with refs := upd s.refs n (s.refs n - 1), live := if s.refs n - 1 = 0 then upd s.live n false else s.live } else .error .ub

/-- list.h:420-424 `createItem`: the item is linked with itself; the reference is the one the list will have (list.h:434-435). -/
def createItem (s : St α) (x : α) : Nat × St α :=
  (s.fresh, { s with nx := upd s.nx s.fresh s.fresh, pv := upd s.pv s.fresh s.fresh, data := upd s.data s.fresh (some x), refs := upd s.refs s.fresh 1, live := upd s.live s.fresh true, fresh := s.fresh + 1 })

/-- list.h:427-437 `addAfterItm` (the item is new, so 428-429 do nothing). -/
def addAfterItm (s : St α) (loc itm : Nat) : Except Fail (St α) :=
  if s.live loc ∧ s.live (s.nx loc) then
    let nx1 := upd s.nx itm (s.nx loc)
    let pv1 := upd s.pv itm loc
    let nx2 := upd nx1 loc itm
    let pv2 := upd pv1 (nx2 itm) itm
    .ok { s with nx := nx2, pv := pv2, count := (s.count + 1) % 2 ^ 64 }
  else .error .ub

/-- list.h:439-449 `addBeforeItm`. -/
def addBeforeItm (s : St α) (loc itm : Nat) : Except Fail (St α) :=
  if s.live loc ∧ s.live (s.pv loc) then
    let nx1 := upd s.nx itm loc
    let pv1 := upd s.pv itm (s.pv loc)
    let pv2 := upd pv1 loc itm
    let nx2 := upd nx1 (pv2 itm) itm
    .ok { s with nx := nx2, pv := pv2, count := (s.count + 1) % 2 ^ 64 }
  else .error .ub

/-- list.h:451-459 `removeItem`. -/
def removeItem (s : St α) (itm : Nat) : Except Fail (St α) :=
  if s.live itm ∧ s.live (s.nx itm) ∧ s.live (s.pv itm) then
    let pv1 := upd s.pv (s.nx itm) (s.pv itm)
    let nx1 := upd s.nx (pv1 itm) (s.nx itm)
    let nx2 := upd nx1 itm itm
    let pv2 := upd pv1 itm itm
    match release { s with nx := nx2, pv := pv2 } itm with
    | .error e => .error e
    | .ok s' => .ok { s' with count := (s.count + 2 ^ 64 - 1) % 2 ^ 64 }
  else .error .ub

/-- list.h:296-298 `addFront`. -/
def addFront (s : St α) (x : α) : Except Fail (St α) := addAfterItm (createItem s x).2 0 (createItem s x).1

/-- list.h:304-306 `addBack`. -/
def addBack (s : St α) (x : α) : Except Fail (St α) := addBeforeItm (createItem s x).2 0 (createItem s x).1

/-- list.h:313-315 `insertAfter`. -/
def insertAfter (s : St α) (loc : Nat) (x : α) : Except Fail (St α) := addAfterItm (createItem s x).2 loc (createItem s x).1

/-- list.h:322-324 `insertBefore`. -/
def insertBefore (s : St α) (loc : Nat) (x : α) : Except Fail (St α) := addBeforeItm (createItem s x).2 loc (createItem s x).1

/-- A new iterator on an item (also a copy of one). -/
def newIter (s : St α) (it : It) : Except Fail (St α) :=
  match addRef s it.pos with
  | .error e => .error e
  | .ok s' => .ok { s' with its := s'.its ++ [it] }

/-- list.h:326-329 `getFwIter`. -/
def getFwIter (s : St α) : Except Fail (St α) := newIter s { pos := s.nx 0, fwd := true, last := true }

/-- list.h:330-333 `getBkIter`. -/
def getBkIter (s : St α) : Except Fail (St α) := newIter s { pos := s.pv 0, fwd := false, last := false }

/-- The end of an iterator. -/
def dropIter (s : St α) (i : Nat) : Except Fail (St α) :=
  match s.its[i]? with
  | none => .error .ub
  | some it =>
    match release s it.pos with
    | .error e => .error e
    | .ok s' => .ok { s' with its := s'.its.eraseIdx i }

/-- `pos = n` (refCntPtr.h:150-157): the new reference first. -/
def moveTo (s : St α) (i n : Nat) (it it' : It) : Except Fail (St α) :=
  match addRef s n with
  | .error e => .error e
  | .ok s1 =>
    match release s1 it.pos with
    | .error e => .error e
    | .ok s2 => .ok { s2 with its := s2.its.set i it' }

/-- The neighbour in a direction. -/
def step (s : St α) (fwd : Bool) (n : Nat) : Nat := if fwd then s.nx n else s.pv n

/-- list.h:107-111 `peek`. -/
def peek (s : St α) (it : It) : Except Fail α :=
  if it.pos = 0 then .error .noItems
  else if s.live it.pos then (match s.data it.pos with | some x => .ok x | none => .error .ub) else .error .ub

/-- list.h:92-105 `getNext`. -/
def getNext (s : St α) (i : Nat) : Except Fail (α × St α) :=
  match s.its[i]? with
  | none => .error .ub
  | some it =>
    match peek s it with
    | .error e => .error e
    | .ok x =>
      match moveTo s i (step s it.fwd it.pos) it { it with pos := step s it.fwd it.pos, last := it.fwd } with
      | .error e => .error e
      | .ok s' => .ok (x, s')

/-- list.h:341-351 `erase`: the iterator that is returned is the last one then. -/
def erase (s : St α) (i : Nat) : Except Fail (St α) :=
  match s.its[i]? with
  | none => .error .ub
  | some it =>
    match newIter s it with
    | .error e => .error e
    | .ok s1 =>
      if it.pos ≠ 0 then
        match getNext s1 s.its.length with
        | .error e => .error e
        | .ok (_, s2) => removeItem s2 it.pos
      else .ok s1

/-- list.h:374-376 `empty`. -/
def isEmpty (s : St α) : Bool := decide (s.nx 0 = 0) && decide (s.pv 0 = 0)

/-- list.h:359-363, 369-372 `clear`, with a bound for the loop. -/
def clear : Nat → St α → Except Fail (St α)
  | 0, s => if isEmpty s then .ok s else .error .long
  | n + 1, s =>
    if isEmpty s then .ok s
    else
      match removeItem s (s.nx 0) with
      | .error e => .error e
      | .ok s' => clear n s'

/-- list.h:411 `oneItem`. -/
def oneItem (s : St α) : Bool := decide (s.nx 0 = s.pv 0)

/-! Functions that walk with an iterator of their own and do not change the list; `n` bounds the walk. -/

/-- list.h:139-155 `seek`: the steps made and the item; `started`: some step was made. -/
def seekFrom (s : St α) (fwd : Bool) : (fuel : Nat) → (offset : Nat) → (started : Bool) → (pos : Nat) → Except Fail (Nat × Nat)
  | 0, _, _, _ => .error .long
  | fuel + 1, offset, started, pos =>
    if (pos ≠ 0 ∨ started = false) ∧ offset > 0 then
      if s.live pos ∧ s.live (step s fwd pos) then
        match seekFrom s fwd fuel (offset - 1) true (step s fwd pos) with
        | .error e => .error e
        | .ok (k, p) => .ok (k + 1, p)
      else .error .ub
    else .ok (0, pos)

/-- list.h:190-195 `getRemain(dir)`. -/
def getRemainDir (s : St α) (fuel : Nat) (it : It) (dir : Bool) : Except Fail Nat :=
  match seekFrom s dir fuel (2 ^ 64 - 1) false it.pos with
  | .error e => .error e
  | .ok (x, _) => .ok (2 ^ 64 - 1 - x)

/-- list.h:126-134 `getRemain()`: `cnt` has no initial value; adding to it or returning it is undefined behaviour. -/
def getRemain (_ : St α) (_ : It) : Except Fail Nat := .error .ub

/-- list.h:169-176, 178-185: steps to another item; `none`: the end comes first. -/
def distWalk (s : St α) (fwd : Bool) (target : Nat) : (fuel : Nat) → (pos : Nat) → Except Fail (Option Nat)
  | 0, _ => .error .long
  | fuel + 1, pos =>
    if pos = 0 then .ok none
    else if s.live pos ∧ s.live (step s fwd pos) then
      if step s fwd pos = target then .ok (some 1)
      else
        match distWalk s fwd target fuel (step s fwd pos) with
        | .error e => .error e
        | .ok none => .ok none
        | .ok (some k) => .ok (some (k + 1))
    else .error .ub

/-- list.h:117-124 `lessThan`. -/
def lessThan (s : St α) (fuel : Nat) (a b : It) : Except Fail Bool :=
  match distWalk s a.fwd b.pos fuel a.pos with
  | .error e => .error e
  | .ok r => .ok r.isSome

/-- list.h:166-188 `distance`. -/
def distance (s : St α) (fuel : Nat) (a b : It) : Except Fail Nat :=
  if a.pos = b.pos then .ok 0
  else
    match distWalk s a.fwd b.pos fuel a.pos with
    | .error e => .error e
    | .ok (some k) => .ok k
    | .ok none =>
      match distWalk s b.fwd a.pos fuel b.pos with
      | .error e => .error e
      | .ok (some k) => .ok k
      | .ok none => .ok (2 ^ 64 - 1)

end LS.RingList

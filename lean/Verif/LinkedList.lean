import Verif.Deque
/-
Single linked list: base/containers/linkedList.h.

The nodes live in a memory of numbered cells; a released cell is `none`, and using it is undefined behaviour.  The memory of two
lists is separate (a copy creates its own nodes).  The functions which take a node of the caller are not modelled apart from those which
take a value; `serialize`, `swap` and the move constructor are not modelled.
-/
namespace LS.LinkedList

/-- linkedList.h:42-47 `ListItem`. -/
structure Cell (α : Type) where
  value : α
  next : Option Nat

/-- linkedList.h:357-358: `first`, `last`, and the memory with the next free address. -/
structure St (α : Type) where
  mem : Nat → Option (Cell α)
  fresh : Nat
  first : Option Nat
  last : Option Nat

/-- linkedList.h:62-101 `Iterator`. -/
structure Iter where
  cur : Option Nat
  prev : Option Nat

section

variable {α : Type}

/-- linkedList.h:51. -/
def empty (α : Type) : St α := ⟨fun _ => none, 0, none, none⟩

def upd (m : Nat → Option (Cell α)) (a : Nat) (c : Option (Cell α)) : Nat → Option (Cell α) := fun b => if b = a then c else m b

/-- Access to a node. -/
def get (s : St α) (a : Nat) : Except Err (Cell α) :=
  match s.mem a with
  | none => .error .ub
  | some c => .ok c

/-- linkedList.h:300-302 `getFwIter`. -/
def getFwIter (s : St α) : Iter := ⟨s.first, none⟩

/-- linkedList.h:68-73 `getNext`. -/
def getNext (s : St α) (it : Iter) : Except Err (α × Iter) :=
  match it.cur with
  | none => .error .thrown
  | some a => (get s a).map fun c => (c.value, ⟨c.next, some a⟩)

/-- linkedList.h:139-142, 183-188 `insertFirst`. -/
def insertFirst (s : St α) (v : α) : St α × Iter :=
  ({ mem := upd s.mem s.fresh (some ⟨v, s.first⟩), fresh := s.fresh + 1, first := some s.fresh, last := if s.last = none then some s.fresh else s.last }, ⟨some s.fresh, none⟩)

/-- linkedList.h:150-154, 196-202 `insertAfter`. -/
def insertAfter (s : St α) (it : Iter) (v : α) : Except Err (St α × Iter) :=
  match it.cur with
  | none => .error .thrown
  | some a => (get s a).map fun c =>
      ({ mem := upd (upd s.mem s.fresh (some ⟨v, c.next⟩)) a (some ⟨c.value, some s.fresh⟩), fresh := s.fresh + 1, first := s.first, last := if s.last = some a then some s.fresh else s.last },
        ⟨some s.fresh, none⟩)

/-- linkedList.h:161-165, 210-218 `insertBefore`; the iterator of the caller is changed too. -/
def insertBefore (s : St α) (it : Iter) (v : α) : Except Err (St α × Iter × Iter) :=
  match it.cur, it.prev with
  | none, _ => .error .thrown
  | some _, none => .ok ((insertFirst s v).1, (insertFirst s v).2, it)
  | some a, some b => (get s b).map fun c =>
      ({ s with mem := upd (upd s.mem s.fresh (some ⟨v, some a⟩)) b (some ⟨c.value, some s.fresh⟩), fresh := s.fresh + 1 }, ⟨some s.fresh, none⟩, ⟨some a, some s.fresh⟩)

/-- linkedList.h:173-176, 222-230 `add`. -/
def add (s : St α) (v : α) : Except Err (St α × Iter) :=
  match s.last with
  | none => .ok ({ mem := upd s.mem s.fresh (some ⟨v, none⟩), fresh := s.fresh + 1, first := some s.fresh, last := some s.fresh }, ⟨some s.fresh, none⟩)
  | some b => (get s b).map fun c =>
      ({ mem := upd (upd s.mem s.fresh (some ⟨v, none⟩)) b (some ⟨c.value, some s.fresh⟩), fresh := s.fresh + 1, first := s.first, last := some s.fresh }, ⟨some s.fresh, none⟩)

/-- linkedList.h:233-242 `removeFirst`. -/
def removeFirst (s : St α) : Except Err (St α × Option Nat) :=
  match s.first with
  | none => .ok (s, none)
  | some a => (get s a).map fun c => ({ s with first := c.next, last := if c.next = none then none else s.last }, some a)

/-- linkedList.h:251-258 `remove`. -/
def remove (s : St α) (it : Iter) : Except Err (St α × Option Nat) :=
  match it.prev with
  | none => removeFirst s
  | some b =>
    match it.cur with
    | none => .error .ub
    | some a => (get s b).bind fun cb => (get s a).map fun ca =>
        ({ s with mem := upd (upd s.mem b (some ⟨cb.value, ca.next⟩)) a (some ⟨ca.value, none⟩) }, some a)

/-- The node is released. -/
def free (s : St α) (a : Nat) : St α := { s with mem := upd s.mem a none }

/-- linkedList.h:261-269 `erase`. -/
def erase (s : St α) (it : Iter) : Except Err (St α × Iter) :=
  (remove s it).bind fun r =>
    match r.2 with
    | none => .ok (r.1, ⟨none, none⟩)
    | some a =>
      match it.prev with
      | none => .ok (free r.1 a, getFwIter (free r.1 a))
      | some b => (get (free r.1 a) b).map fun c => (free r.1 a, ⟨c.next, some b⟩)

/-- linkedList.h:245-248 `eraseFirst`. -/
def eraseFirst (s : St α) : Except Err (St α) :=
  (removeFirst s).map fun r =>
    match r.2 with
    | none => r.1
    | some a => free r.1 a

/-- linkedList.h:309-312 `clear`; a loop which does not end counts as undefined. -/
def clear : Nat → St α → Except Err (St α)
  | 0, s => if s.first = none then .ok s else .error .ub
  | k + 1, s => if s.first = none then .ok s else (eraseFirst s).bind (clear k)

/-- The loop `while (i.hasItems()) … i.getNext()` (109-110, 128-129, 316-321): the values. -/
def iterate (s : St α) : Nat → Iter → Except Err (List α)
  | 0, it => if it.cur = none then .ok [] else .error .ub
  | k + 1, it => if it.cur = none then .ok [] else (getNext s it).bind fun r => (iterate s k r.2).map (r.1 :: ·)

/-- The values of the list from the first on. -/
def values (s : St α) : Except Err (List α) := iterate s s.fresh (getFwIter s)

/-- linkedList.h:108-111: the copy constructor. -/
def copy (s : St α) : Except Err (St α) := (values s).map fun l => l.foldl (fun t v => (insertFirst t v).1) (empty α)

/-- Appends values. -/
def addAll : St α → List α → Except Err (St α)
  | s, [] => .ok s
  | s, v :: l => (add s v).bind fun r => addAll r.1 l

/-- linkedList.h:126-131: assignment of another list. -/
def assign (s other : St α) : Except Err (St α) :=
  (clear s.fresh s).bind fun s => (values other).bind fun l => addAll s l

/-- linkedList.h:126-131: assignment of a list to itself. -/
def assignSelf (s : St α) : Except Err (St α) :=
  (clear s.fresh s).bind fun s => (values s).bind fun l => addAll s l

/-- linkedList.h:315-323 `size`. -/
def size (s : St α) : Except Err Nat := (values s).map List.length

/-- linkedList.h:272-276, 286-290 `getFirst`. -/
def getFirst (s : St α) : Except Err α :=
  match s.first with
  | none => .error .thrown
  | some a => (get s a).map Cell.value

/-- linkedList.h:293-297 `getLast` of a list which may be changed. -/
def getLast (s : St α) : Except Err α :=
  match s.last with
  | none => .error .thrown
  | some a => (get s a).map Cell.value

/-- linkedList.h:279-283 `getLast` of a constant list. -/
def getLastConst (s : St α) : Except Err α :=
  match s.last with
  | none => .error .thrown
  | some _ =>
    match s.first with
    | none => .error .ub
    | some a => (get s a).map Cell.value

/-- `i` steps of an iterator. -/
def skip (s : St α) : Nat → Iter → Except Err Iter
  | 0, it => .ok it
  | k + 1, it => (getNext s it).bind fun r => skip s k r.2

/-- An iterator moved from the first item to item `i`. -/
def iterAt (s : St α) (i : Nat) : Except Err Iter := skip s i (getFwIter s)

end

end LS.LinkedList

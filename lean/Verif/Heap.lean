import Verif.Basic
/-!
# Model of `base/containers/sort.{h,tcc}` (`HeapSort`) and `priorityQueue.h`

The container is a list, accessed by index; an access outside of it is `none` (`cont[i]` of the
containers throws a range exception there).  Loops carry a step bound whose exhaustion is also
`none`; the theorems show that neither happens.  Indices are unbounded naturals.
-/

namespace LS.Heap
variable {α : Type}

/-- `std::swap(cont(i), cont(j))`. -/
def swap (l : List α) (i j : Nat) : Option (List α) :=
  match l[i]?, l[j]? with
  | some a, some b => some ((l.set i b).set j a)
  | _, _ => none

/-- sort.h:100-103: members of `HeapSort` other than the comparison. -/
structure Heap (α : Type) where
  cont : List α
  heapSize : Nat := 0
deriving DecidableEq, Repr

/-- sort.tcc:39-46: the loop of `push`. -/
def siftUp (less : α → α → Bool) : Nat → List α → Nat → Option (List α)
  | 0, l, child => if child > 0 then none else some l
  | n + 1, l, child =>
    if child > 0 then
      let parent := (child - 1) / 2
      match l[parent]?, l[child]? with
      | some p, some c =>
        if less p c then
          match swap l parent child with
          | some l' => siftUp less n l' parent
          | none => none
        else some l
      | _, _ => none
    else some l

/-- sort.tcc:35-52 `push`. -/
def push (less : α → α → Bool) (h : Heap α) : Option (Bool × Heap α) :=
  if h.heapSize < h.cont.length then
    match siftUp less h.heapSize h.cont h.heapSize with
    | some l => some (true, { cont := l, heapSize := h.heapSize + 1 })
    | none => none
  else some (false, h)

/-- sort.tcc:94-95: choose the larger child of `root`. -/
def pickChild (less : α → α → Bool) (heapSize : Nat) (l : List α) (root : Nat) : Option Nat :=
  if root * 2 + 1 + 1 < heapSize then
    match l[root * 2 + 1]?, l[root * 2 + 1 + 1]? with
    | some a, some b => some (if less a b then root * 2 + 1 + 1 else root * 2 + 1)
    | _, _ => none
  else some (root * 2 + 1)

/-- sort.tcc:93-101: the loop of `shiftDown`. -/
def siftDown (less : α → α → Bool) (heapSize : Nat) : Nat → List α → Nat → Option (List α)
  | 0, l, root => if root * 2 + 1 < heapSize then none else some l
  | n + 1, l, root =>
    if root * 2 + 1 < heapSize then
      match pickChild less heapSize l root with
      | none => none
      | some child =>
        match l[root]?, l[child]? with
        | some r, some c =>
          if less r c then
            match swap l root child with
            | some l' => siftDown less heapSize n l' child
            | none => none
          else some l
        | _, _ => none
    else some l

/-- sort.tcc:88-103 `shiftDown(from)`. -/
def shiftDown (less : α → α → Bool) (h : Heap α) (start : Nat) : Option (Heap α) :=
  if h.heapSize > start * 2 + 1 then
    match siftDown less h.heapSize h.heapSize h.cont start with
    | some l => some { h with cont := l }
    | none => none
  else some h

/-- sort.tcc:54-66 `pop()`. -/
def pop (less : α → α → Bool) (h : Heap α) : Option (Bool × Heap α) :=
  if h.heapSize > 0 then
    let h := { h with heapSize := h.heapSize - 1 }
    if h.heapSize > 0 then
      match swap h.cont 0 h.heapSize with
      | none => none
      | some l =>
        match shiftDown less { h with cont := l } 0 with
        | none => none
        | some h' => some (true, h')
    else some (true, h)
  else some (false, h)

/-- sort.tcc:68-80 `pop(at)`: note that it repairs the heap from the root, not from `at`. -/
def popAt (less : α → α → Bool) (h : Heap α) (a : Nat) : Option (Bool × Heap α) :=
  if h.heapSize > a then
    let h := { h with heapSize := h.heapSize - 1 }
    if h.heapSize > a then
      match swap h.cont a h.heapSize with
      | none => none
      | some l =>
        match shiftDown less { h with cont := l } 0 with
        | none => none
        | some h' => some (true, h')
    else some (true, h)
  else some (false, h)

/-- sort.tcc:105-109 `top`. -/
def top (h : Heap α) : Option α := h.cont[0]?

/-- sort.tcc:121-124 `isBetter`. -/
def isBetter (less : α → α → Bool) (h : Heap α) (x : α) : Option Bool := (top h).map (less · x)

/-- sort.tcc:23-27 `makeHeap`. -/
def makeHeap (less : α → α → Bool) : Nat → Heap α → Option (Heap α)
  | 0, h => if h.heapSize < h.cont.length then none else some h
  | n + 1, h =>
    if h.heapSize < h.cont.length then
      match push less h with
      | some (_, h') => makeHeap less n h'
      | none => none
    else some h

/-- sort.tcc:29-33 `sortHeap`. -/
def sortHeap (less : α → α → Bool) : Nat → Heap α → Option (Heap α)
  | 0, h => if h.heapSize > 0 then none else some h
  | n + 1, h =>
    if h.heapSize > 0 then
      match pop less h with
      | some (_, h') => sortHeap less n h'
      | none => none
    else some h

/-- sort.tcc:17-21 `sort` of a container by a fresh `HeapSort` (sort.h:23-24). -/
def sort (less : α → α → Bool) (l : List α) : Option (List α) :=
  match makeHeap less l.length { cont := l } with
  | none => none
  | some h =>
    match sortHeap less h.heapSize h with
    | none => none
    | some h => some h.cont

/-! ## `priorityQueue.h` -/

/-- priorityQueue.h:26 `push`: append to the array, then push on the heap. -/
def PQ.push (less : α → α → Bool) (q : Heap α) (x : α) : Option (Heap α) :=
  (Heap.push less { q with cont := q.cont ++ [x] }).map (·.2)

/-- autoArray.tcc:180-184 `trunc(count)`: removes `count` items from the end. -/
def trunc (l : List α) (count : Nat) : List α := l.take (l.length - min count l.length)

/-- priorityQueue.h:33 `pop`. -/
def PQ.pop (less : α → α → Bool) (q : Heap α) : Option (Heap α) :=
  match Heap.pop less q with
  | none => none
  | some (_, q) => some { q with cont := trunc q.cont q.heapSize }

/-- priorityQueue.h:31-32 `top`. -/
def PQ.top (q : Heap α) : Option α := q.cont[0]?
/-- priorityQueue.h:35 `empty`. -/
def PQ.empty (q : Heap α) : Bool := q.cont.isEmpty
/-- priorityQueue.h:37 `length`. -/
def PQ.length (q : Heap α) : Nat := q.heapSize

end LS.Heap

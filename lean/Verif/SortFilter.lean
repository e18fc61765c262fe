import Verif.Heap
/-
Model of `SortFilter` (base/iter/sortFilter.{h,tcc}) over the model of the heap (`Heap.lean`).

`cap` is the limit of the allocator (`none`: no limit).  Simplified: copies and comparisons of
items do not throw.
-/
namespace LS.SortFilter
open Heap (Heap)
variable {α : Type}

/-- Members (sortFilter.h:69-71); the heap and its buffer are one. -/
structure Flt (α : Type) where
  heap : Heap α := { cont := [] }
  extra : Option α := none
deriving DecidableEq

/-- Outcome of a call. -/
inductive R (β : Type) where
  | ok (b : β)
  /-- an exception is thrown; the filter stays as it was -/
  | thrown
  /-- an item outside of the buffer -/
  | bad
deriving DecidableEq

/-- `buffer.add(x); heap.push();` — `thrown` when the allocator has reached its limit. -/
def add (less : α → α → Bool) (cap : Option Nat) (h : Heap α) (x : α) : R (Heap α) :=
  if cap = some h.cont.length then .thrown
  else match Heap.push less { h with cont := h.cont ++ [x] } with
    | some (_, h) => .ok h
    | none => .bad

/-- `needItems` (sortFilter.tcc:32-35), `hasItems` (62-65). -/
def needItems (s : Flt α) : Bool := s.extra.isNone
def hasItems (s : Flt α) : Bool := !s.heap.cont.isEmpty

/-- Second half of `input` (sortFilter.tcc:51-56). -/
def input2 (less : α → α → Bool) (cap : Option Nat) (h : Heap α) (x : α) : R (Flt α) :=
  match add less cap h x with
  | .ok h => .ok ⟨h, none⟩
  | .thrown => .ok ⟨h, some x⟩
  | .bad => .bad

/-- `input` (sortFilter.tcc:40-57). -/
def input (less : α → α → Bool) (cap : Option Nat) (s : Flt α) (x : α) : R (Flt α) :=
  match s.extra with
  | some e =>
    match add less cap s.heap e with
    | .ok h => input2 less cap h x
    | .thrown => .thrown
    | .bad => .bad
  | none => input2 less cap s.heap x

/-- `output` (sortFilter.tcc:81-116). -/
def output (less : α → α → Bool) (s : Flt α) : R (α × Flt α) :=
  match s.extra with
  | some e =>
    match Heap.isBetter less s.heap e with
    | none => .bad
    | some true => .ok (e, { s with extra := none })
    | some false =>
      match s.heap.cont with
      | [] => .bad
      | t :: l =>
        match Heap.shiftDown less { s.heap with cont := e :: l } 0 with
        | none => .bad
        | some h => .ok (t, ⟨h, none⟩)
  | none =>
    match s.heap.cont with
    | [] => .thrown
    | t :: _ =>
      match Heap.pop less s.heap with
      | none => .bad
      | some (_, h) => .ok (t, ⟨{ h with cont := Heap.trunc h.cont 1 }, none⟩)

/-- Copy constructor (sortFilter.tcc:68-72): the heap of the copy has no items, the extra item
is not copied. -/
def copy (s : Flt α) : Flt α := ⟨{ cont := s.heap.cont, heapSize := 0 }, none⟩

/-- `operator=` (sortFilter.tcc:74-79): the extra item stays. -/
def assign (s other : Flt α) : Flt α := ⟨{ cont := other.heap.cont, heapSize := other.heap.cont.length }, s.extra⟩

/-- `clear` (sortFilter.h:62): the extra item stays. -/
def clear (s : Flt α) : Flt α := ⟨{ cont := [], heapSize := 0 }, s.extra⟩

end LS.SortFilter

/-
Model of the merge iterator and of its functors (base/iter/merge.h, base/containers/arraySet.tcc:41-58).

Source iterators are lists of the items not read yet; a pointer to an item is `some`, the null
pointer `none`.  Simplified: functors have no state.  `SplitIterator` is not modelled: its calls of
the functor (merge.h:259, 271) do not match the functor's declaration.
`commitL`, `commitR` and `commitB` (merge.h:74-76) hand a reference to a constructor that takes a
pointer; they are modelled as meant, with the address of the item.
-/
namespace LS.Merge
variable {α : Type}

/-- `MergeSplitResult` (merge.h:18-83). -/
structure Res (α : Type) where
  res : Option α
  cl : Bool
  cr : Bool
deriving DecidableEq, Repr

/-- A functor; `none`: a null pointer is dereferenced. -/
abbrev Fn (α : Type) := Option α → Option α → Option (Res α)

inductive R (β : Type) where
  | ok (b : β)
  /-- `IteratorNoMoreItems` -/
  | thrown
  /-- null pointer dereferenced -/
  | ub
  /-- does not return -/
  | hang
deriving DecidableEq, Repr

/-- Members (merge.h:183-187), initialised as in 144-149. -/
structure St (α : Type) where
  l : List α
  r : List α
  prepared : Bool := false
  cached : Res α := ⟨none, false, false⟩
deriving DecidableEq, Repr

/-- `skip` of a source. -/
def skip (b : Bool) (l : List α) : Option (List α) :=
  if b then
    match l with
    | [] => none
    | _ :: l => some l
  else some l

/-- `prepareNextItem` (merge.h:189-204); the number bounds the rounds. -/
def prepare (F : Fn α) : Nat → St α → R (St α)
  | 0, _ => .hang
  | n + 1, s =>
    match skip s.cached.cl s.l with
    | none => .thrown
    | some l =>
      match skip s.cached.cr s.r with
      | none => .thrown
      | some r =>
        match (if l.isEmpty && r.isEmpty then some ⟨none, false, false⟩ else F l.head? r.head?) with
        | none => .ub
        | some c =>
          if c.res.isNone && (c.cl || c.cr) then prepare F n ⟨l, r, true, c⟩ else .ok ⟨l, r, true, c⟩

/-- `if (!prepared) prepareNextItem()`; every round but the last one skips an item. -/
def ready (F : Fn α) (s : St α) : R (St α) :=
  if s.prepared then .ok s else prepare F (s.l.length + s.r.length + 2) s

/-- `hasItems` (merge.h:151-154). -/
def hasItems (F : Fn α) (s : St α) : R (Bool × St α) :=
  match ready F s with
  | .ok s => .ok (s.cached.res.isSome, s)
  | .thrown => .thrown
  | .ub => .ub
  | .hang => .hang

/-- `peek` (merge.h:160-165). -/
def peek (F : Fn α) (s : St α) : R (α × St α) :=
  match ready F s with
  | .ok s =>
    match s.cached.res with
    | some x => .ok (x, s)
    | none => .thrown
  | .thrown => .thrown
  | .ub => .ub
  | .hang => .hang

/-- `getNext` (merge.h:167-173). -/
def getNext (F : Fn α) (s : St α) : R (α × St α) :=
  match ready F s with
  | .ok s =>
    match s.cached.res with
    | some x => .ok (x, { s with prepared := false })
    | none => .thrown
  | .thrown => .thrown
  | .ub => .ub
  | .hang => .hang

/-- `MergeConcatFn` (merge.h:361-366). -/
def concatFn : Fn α := fun left right =>
  if left.isSome then some ⟨left, true, false⟩ else some ⟨right, false, true⟩

/-- A comparison of what two pointers refer to. -/
def onPtr (less : α → α → Bool) : Option α → Option α → Option Bool
  | some a, some b => some (less a b)
  | _, _ => none

/-- `MergeSortFn` (merge.h:333-340). -/
def sortFn (less : α → α → Bool) (dups : Bool) : Fn α := fun left right =>
  match (if right.isNone then some true else onPtr less left right) with
  | none => none
  | some true => some ⟨left, true, false⟩
  | some false =>
    match (if left.isNone then some true else onPtr less right left) with
    | none => none
    | some true => some ⟨right, false, true⟩
    | some false => some ⟨left, true, !dups⟩

/-- `SortedMergeFunctor` (arraySet.tcc:46-53). -/
def sortedFn (cmp : α → α → Bool) (dups : Bool) : Fn α := fun left right =>
  match left, right with
  | none, none => none
  | none, some y => some ⟨some y, false, true⟩
  | some x, none => some ⟨some x, true, false⟩
  | some x, some y =>
    if cmp x y then some ⟨some x, true, false⟩
    else if dups || cmp y x then some ⟨some y, false, true⟩
    else some ⟨some x, true, true⟩

end LS.Merge

import Verif.BTree
/-
B-tree iterator: base/containers/btree.h:343-590, `Reset`, `BeginFrom`, `More`, `Next`, `CurrentRank`.

The path is a list with the deepest node first.  `none` is undefined behaviour: an access out of `_path` (50 entries), out of the
arrays of a node, or to the null array of subtrees of a leaf.
-/
namespace LS.BTree

/-- btree.h:323-329 `PathStruct`. -/
structure Entry (α : Type) where
  h : Nat
  node : Node α h
  index : Int

/-- btree.h:583-586: `_path` and `_length`, `_index`. -/
structure Iter (α : Type) where
  path : List (Entry α)
  index : Int

section

variable {α : Type} (less : α → α → Bool)

/-- btree.h:378-386 `Reset`.  For a null root the path is empty here; `next` returns the null pointer in both cases. -/
def reset (t : Tree α) : Iter α :=
  match t.root with
  | none => ⟨[], -1⟩
  | some ⟨h, n⟩ => ⟨[⟨h, n, -1⟩], -1⟩

/-- btree.h:440 `More`. -/
def more (t : Tree α) (it : Iter α) : Bool := decide (it.index < t.size - 1)

/-- btree.h:462-469: the way down to the first leaf. -/
def leftmost : {h : Nat} → Node α h → List (Entry α) → Option (α × List (Entry α))
  | 0, n, p => if 50 ≤ p.length then none else (match NodeF.items n with | [] => none | a :: _ => some (a, ⟨0, n, 0⟩ :: p))
  | h + 1, n, p =>
    if 50 ≤ p.length then none
    else
      match NodeF.subs n with
      | [] => none
      | s :: _ => leftmost s (⟨h + 1, n, 0⟩ :: p)

/-- btree.h:478-492: the way up from the end of a leaf; the item and the path. -/
def moveUp : List (Entry α) → Option (Option α × List (Entry α))
  | [] => some (none, [])
  | e :: p =>
    if e.index ≥ ((items e.node).length : Int) then moveUp p
    else if e.index < 0 then none
    else
      match (items e.node)[e.index.toNat]? with
      | none => none
      | some a => some (some a, e :: p)

/-- btree.h:444-502 `Next`: the item or the null pointer. -/
def next (t : Tree α) (it : Iter α) : Option (Option α × Iter α) :=
  if it.index ≥ t.size then some (none, it)
  else
    match it.path with
    | [] => some (none, it)
    | ⟨0, n, ndx⟩ :: p =>
      if ndx ≥ ((NodeF.items n).length : Int) - 1 then
        (match moveUp p with | none => none | some (a, p) => some (a, ⟨p, it.index + 1⟩))
      else if ndx + 1 < 0 then none
      else (match (NodeF.items n)[(ndx + 1).toNat]? with | none => none | some a => some (some a, ⟨⟨0, n, ndx + 1⟩ :: p, it.index + 1⟩))
    | ⟨h + 1, n, ndx⟩ :: p =>
      if ndx + 1 < 0 then none
      else
        match (NodeF.subs n)[(ndx + 1).toNat]? with
        | none => none
        | some s => (match leftmost s (⟨h + 1, n, ndx + 1⟩ :: p) with | none => none | some (a, p) => some (some a, ⟨p, it.index + 1⟩))

/-- btree.h:404-421: the way down to the key; a key found in an inner node leads to 423-433, where the loop ends only with a null entry
of the null array of a leaf. -/
def seek (x : α) : {h : Nat} → Node α h → List (Entry α) → Int → Option (Iter α)
  | 0, n, p, index =>
    if 50 ≤ p.length then none
    else
      match search less x (NodeF.items n) with
      | none => none
      | some (found, pos) => some ⟨⟨0, n, (if found then pos else pos + 1) - 1⟩ :: p, index + (if found then pos else pos + 1)⟩
  | h + 1, n, p, index =>
    if 50 ≤ p.length then none
    else
      match search less x (NodeF.items n) with
      | none => none
      | some (true, _) => none
      | some (false, pos) =>
        match sizes (pos + 1).toNat (NodeF.subs n), (NodeF.subs n)[(pos + 1).toNat]? with
        | some c, some s => seek x s (⟨h + 1, n, pos + 1⟩ :: p) (index + (pos + 1) + c)
        | _, _ => none

/-- btree.h:392-437 `BeginFrom`. -/
def beginFrom (t : Tree α) (x : α) : Option (Iter α) :=
  if t.size ≤ 0 then some ⟨[], -1⟩
  else
    match t.root with
    | none => none
    | some ⟨_, n⟩ => seek less x n [] (-1)

end

end LS.BTree

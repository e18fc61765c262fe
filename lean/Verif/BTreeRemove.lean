import Verif.BTree
/-
B-tree, removal: base/containers/btree.h, `Remove`, `_DescendInto`, `_Adjust`, `updSubtree`.

For items which are plain data, where `move` (objmanip.h) copies.  As in BTree.lean a node holds exactly the used entries of
its arrays.  `none` is undefined behaviour: the null `_subtree` array of a leaf used by a rotation, an access out of the
arrays, or an inner node below the root which lost its last key.  The list of actions is not in the code; it records what
`_DescendInto` did.
-/
namespace LS.BTree

/-- btree.h:299 `DeleteActionEnum`, with the index given to `_Adjust`; `inner` is the removal of a key of an inner node, 975-990. -/
inductive Act
  | none
  | merge
  | right (index : Nat)
  | left
  | inner
deriving DecidableEq, Repr

section

variable {α : Type} (less : α → α → Bool)

/-- btree.h:1172-1177: the two nodes and the key between them, for two nodes of `order - 1` keys. -/
def join : {h : Nat} → Node α h → α → Node α h → Node α h
  | 0, c0, k, c1 => (⟨NodeF.size c0 + (NodeF.size c1 + 1), NodeF.items c0 ++ k :: NodeF.items c1, []⟩ : NodeF α Empty)
  | h + 1, c0, k, c1 => (⟨NodeF.size c0 + (NodeF.size c1 + 1), NodeF.items c0 ++ k :: NodeF.items c1, NodeF.subs c0 ++ NodeF.subs c1⟩ : NodeF α (Node α h))

/-- btree.h:1198-1212: rotation to the right; the nodes and the key which goes up.  A leaf has no array `_subtree`. -/
def rotR : {h : Nat} → Node α h → α → Node α h → Option (Node α h × α × Node α h)
  | 0, _, _, _ => none
  | h + 1, c0, k, c1 =>
    match (NodeF.items c0).getLast?, (NodeF.subs c0)[(NodeF.items c0).length]? with
    | some m, some p =>
      some ((⟨NodeF.size c0 - (size p + 1), (NodeF.items c0).dropLast, (NodeF.subs c0).dropLast⟩ : NodeF α (Node α h)), m,
        (⟨NodeF.size c1 + (size p + 1), k :: NodeF.items c1, p :: NodeF.subs c1⟩ : NodeF α (Node α h)))
    | _, _ => none

/-- btree.h:1214-1228: rotation to the left. -/
def rotL : {h : Nat} → Node α h → α → Node α h → Option (Node α h × α × Node α h)
  | 0, _, _, _ => none
  | h + 1, c0, k, c1 =>
    match NodeF.items c1, NodeF.subs c1 with
    | m :: I, p :: S =>
      some ((⟨NodeF.size c0 + (size p + 1), NodeF.items c0 ++ [k], NodeF.subs c0 ++ [p]⟩ : NodeF α (Node α h)), m,
        (⟨NodeF.size c1 - (size p + 1), I, S⟩ : NodeF α (Node α h)))
    | _, _ => none

/-- btree.h:1158-1229 `_Adjust`: the action, the node, and the child to go to with its index. -/
def adjust (order : Nat) {h : Nat} (n : NodeF α (Node α h)) (idx : Nat) (c0 c1 : Node α h) : Option (Act × NodeF α (Node α h) × Nat × Node α h) :=
  match n.items[idx]? with
  | none => none
  | some k =>
    if (items c0).length = order - 1 ∧ (items c1).length = order - 1 then
      some (.merge, ⟨n.size, n.items.eraseIdx idx, (n.subs.eraseIdx idx).set idx (join c0 k c1)⟩, idx, join c0 k c1)
    else if order ≤ (items c0).length then
      match rotR c0 k c1 with
      | none => none
      | some (c0, m, c1) => some (.right idx, ⟨n.size, n.items.set 0 m, (n.subs.set idx c0).set (idx + 1) c1⟩, idx + 1, c1)
    else
      match rotL c0 k c1 with
      | none => none
      | some (c0, m, c1) => some (.left, ⟨n.size, n.items.set idx m, (n.subs.set idx c0).set (idx + 1) c1⟩, idx, c0)

/-- btree.h:1129-1156 `_DescendInto`, for inner nodes. -/
def descendInto (order : Nat) {h : Nat} (n : NodeF α (Node α h)) (i : Nat) : Option (Act × NodeF α (Node α h) × Nat × Node α h) :=
  match n.subs[i]? with
  | none => none
  | some child =>
    if order ≤ (items child).length then some (.none, n, i, child)
    else if i = 0 then
      match n.subs[1]? with
      | none => none
      | some sibling => adjust order n 0 child sibling
    else
      match n.subs[i - 1]? with
      | none => none
      | some sibling => adjust order n (i - 1) sibling child

/-- btree.h:976-987: the way to the first leaf, the copy of its first key into its own place `idx` (985, dead storage behind the
last key), and the removal of the first key; 993 the sizes. -/
def takeFirst (order idx : Nat) : {h : Nat} → (sp : Nat) → Node α h → Option (List Act × Node α h)
  | 0, sp, n =>
    if 50 ≤ sp then none
    else
      match NodeF.items n with
      | [] => none
      | a :: r => some ([], (⟨NodeF.size n - 1, ((a :: r).set idx a).tail, []⟩ : NodeF α Empty))
  | h + 1, sp, n =>
    if 50 ≤ sp then none
    else
      match descendInto order n 0 with
      | none => none
      | some (act, n, j, q) =>
        if n.items = [] then none
        else
          match takeFirst order idx (sp + 1) q with
          | none => none
          | some (log, q) => some (act :: log, (⟨n.size - 1, n.items, n.subs.set j q⟩ : NodeF α (Node α h)))

/-- btree.h:931 `state`, and the index while `DESCENDING`. -/
inductive Seek
  | searching
  | descending (index : Nat)

/-- btree.h:935-939: `found` and `index` in a node. -/
def locate (x : α) (st : Seek) (l : List α) : Option (Bool × Int) :=
  match st with
  | .searching => search less x l
  | .descending i => if i < l.length then some (true, i) else none

/-- btree.h:961-969: the state for the next node. -/
def nextSeek (order : Nat) (found : Bool) (act : Act) : Seek :=
  if found then (match act with | .right _ => .descending 0 | _ => .descending (order - 1)) else .searching

/-- btree.h:933-995: the loop of `Remove` from the node on, the removal, and `updSubtree` (1030-1043).  `top` is the root, `sp` the
number of nodes in `stack`.  A root which lost its last key is left with the merged child as its only subtree. -/
def remove (order : Nat) (x : α) : {h : Nat} → (top : Bool) → (sp : Nat) → Seek → Node α h → Option (Bool × List Act × Node α h)
  | 0, _, sp, st, n =>
    match locate less x st (NodeF.items n) with
    | none => none
    | some (found, pos) =>
      if 50 ≤ sp then none
      else if found then
        let l := (NodeF.items n).eraseIdx pos.toNat
        some (true, [], (⟨if sp = 0 ∧ l.length = 0 then NodeF.size n else NodeF.size n - 1, l, []⟩ : NodeF α Empty))
      else some (false, [], n)
  | h + 1, top, sp, st, n =>
    match locate less x st (NodeF.items n) with
    | none => none
    | some (found, pos) =>
      match descendInto order n (pos + 1).toNat with
      | none => none
      | some (act, n, j, q) =>
        if 50 ≤ sp then none
        else if n.items.length = 0 ∧ top = false then none
        else if found ∧ act = .none then
          match takeFirst order pos.toNat (sp + 1) q with
          | none => none
          | some (log, q) => some (true, .inner :: log, (⟨n.size - 1, n.items, n.subs.set j q⟩ : NodeF α (Node α h)))
        else
          match remove order x false (if n.items.length = 0 then sp else sp + 1) (nextSeek order found act) q with
          | none => none
          | some (b, log, q) => some (b, act :: log, (⟨if b then n.size - 1 else n.size, n.items, n.subs.set j q⟩ : NodeF α (Node α h)))

/-- btree.h:1186-1189, 941-945: a root without keys is replaced by its child. -/
def collapse : {h : Nat} → Node α h → Option ((h : Nat) × Node α h)
  | 0, n => some ⟨0, n⟩
  | h + 1, n => if (NodeF.items n).length = 0 then (match NodeF.subs n with | [] => none | q :: _ => some ⟨h, q⟩) else some ⟨h + 1, n⟩

/-- btree.h:897-1002 `Remove`. -/
def removeKey (t : Tree α) (x : α) : Option (Bool × List Act × Tree α) :=
  match t.root with
  | none => some (false, [], t)
  | some ⟨_, n⟩ =>
    if (items n).length = 0 then some (false, [], t)
    else
      match remove less t.order x true 0 .searching n with
      | none => none
      | some (b, log, n) =>
        match collapse n with
        | none => none
        | some r => some (b, log, ⟨t.order, some r⟩)

end

end LS.BTree

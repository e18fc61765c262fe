/-
B-tree: base/containers/btree.h, `BTreeNode::Search`, `BTree::Find`, `ItemWithRank`, `RankOf`, `Add`, `_InsertNonFull`,
`_SplitChild`.

The arrays `_item` and `_subtree` are lists holding exactly the used entries; the shifting loops (`ShiftRightAt`,
`MoveSubNode`) are insertions and sections of these lists.  A node carries its height in its type, so `_isLeaf` is "the
height is 0": every operation keeps all leaves at the same depth, as the model type-checks.  `short` and `long` do not
overflow.  `none` is an access out of the arrays, in particular of the local `stack` of 50 nodes.
-/
namespace LS.BTree

/-- btree.h:40-56 `BTreeNode`: `_subtreeSize`, `_item`, `_subtree`. -/
structure NodeF (α β : Type) where
  size : Int
  items : List α
  subs : List β
deriving Repr

/-- A node with all leaves `h` levels below; a leaf has no subtrees (btree.h:96). -/
def Node (α : Type) : Nat → Type
  | 0 => NodeF α Empty
  | h + 1 => NodeF α (Node α h)

/-- btree.h:65 `_keyCount`, 67-77. -/
def items {α : Type} : {h : Nat} → Node α h → List α
  | 0, n => NodeF.items n
  | _ + 1, n => NodeF.items n

/-- btree.h:82 `_subtreeSize`. -/
def size {α : Type} : {h : Nat} → Node α h → Int
  | 0, n => NodeF.size n
  | _ + 1, n => NodeF.size n

section

variable {α : Type} (less : α → α → Bool)

/-! ## Search -/

/-- btree.h:612: the loop of the linear search. -/
def linear (x : α) : List α → Nat
  | [] => 0
  | y :: l => if less y x then linear x l + 1 else 0

/-- btree.h:631-646: the loop of the binary search; the result and `index`. -/
def binary (x : α) (l : List α) : (fuel lo hi : Nat) → (index : Int) → Option (Bool × Int)
  | 0, _, _, _ => none
  | fuel + 1, lo, hi, index =>
    if lo < hi then
      match l[(lo + hi) / 2]? with
      | none => none
      | some y =>
        if less x y then binary x l fuel lo ((lo + hi) / 2) (((lo + hi) / 2 : Nat) - 1)
        else if less y x then binary x l fuel ((lo + hi) / 2 + 1) hi ((lo + hi) / 2 : Nat)
        else some (true, ((lo + hi) / 2 : Nat))
    else some (false, index)

/-- btree.h:598-648 `BTreeNode::Search`: whether the key is there, and `index`. -/
def search (x : α) (l : List α) : Option (Bool × Int) :=
  if l.length ≤ 7 then
    if l.length = 0 then some (false, -1)
    else
      match l[linear less x l]? with
      | some y => if less x y = false then some (true, linear less x l) else some (false, (linear less x l : Int) - 1)
      | none => some (false, (linear less x l : Int) - 1)
  else binary less x l (l.length + 1) 0 l.length 0

/-- btree.h:722-742 `Find`. -/
def find (x : α) : {h : Nat} → Node α h → Option (Option α)
  | 0, n =>
    match search less x (NodeF.items n) with
    | none => none
    | some (true, pos) => (match (NodeF.items n)[pos.toNat]? with | none => none | some y => some (some y))
    | some (false, _) => some none
  | _ + 1, n =>
    match search less x (NodeF.items n) with
    | none => none
    | some (true, pos) => (match (NodeF.items n)[pos.toNat]? with | none => none | some y => some (some y))
    | some (false, pos) =>
      match (NodeF.subs n)[(pos + 1).toNat]? with
      | none => none
      | some s => find x s

/-! ## Rank -/

/-- btree.h:789-810: the loop over the subtrees and keys of an inner node; a key, or a subtree and the rank in it. -/
def pick {h : Nat} : List (Node α h) → List α → Int → Option (α ⊕ (Node α h × Int))
  | s :: _, [], r => some (.inr (s, r))
  | s :: S, i :: I, r =>
    if size s > r then some (.inr (s, r))
    else if r - size s = 0 then some (.inl i)
    else pick S I (r - size s - 1)
  | [], _, _ => none

/-- btree.h:777-811: the outer loop. -/
def itemAt : {h : Nat} → Node α h → Int → Option α
  | 0, n, r => if 0 ≤ r then (NodeF.items n)[r.toNat]? else none
  | _ + 1, n, r =>
    match pick (NodeF.subs n) (NodeF.items n) r with
    | none => none
    | some (.inl i) => some i
    | some (.inr (s, r)) => itemAt s r

/-- btree.h:767-812 `ItemWithRank`: the outer option is an access out of range, the inner one the null pointer. -/
def itemWithRank : {h : Nat} → Node α h → Int → Option (Option α)
  | _, n, r =>
    if (items n).length = 0 then some none
    else (itemAt n (min (max r 0) (size n - 1))).map some

/-- btree.h:836-841: sizes of the first `k` subtrees. -/
def sizes {h : Nat} : (k : Nat) → List (Node α h) → Option Int
  | 0, _ => some 0
  | _ + 1, [] => none
  | k + 1, s :: S => (sizes k S).map (size s + ·)

/-- btree.h:826-852: the loop of `RankOf`. -/
def rankIn (x : α) : {h : Nat} → Node α h → Option Int
  | 0, n =>
    match search less x (NodeF.items n) with
    | none => none
    | some (true, pos) => some pos
    | some (false, pos) => some (pos + 1)
  | _ + 1, n =>
    match search less x (NodeF.items n) with
    | none => none
    | some (found, pos) =>
      match sizes (pos + 1).toNat (NodeF.subs n) with
      | none => none
      | some c =>
        if found then some (c + pos)
        else
          match (NodeF.subs n)[(pos + 1).toNat]? with
          | none => none
          | some s => (rankIn x s).map (c + (pos + 1) + ·)

/-- btree.h:816-853 `RankOf`. -/
def rankOf (x : α) {h : Nat} (n : Node α h) : Option Int :=
  if (items n).length = 0 then some 0 else rankIn less x n

/-! ## Insertion -/

/-- btree.h:1110-1122: size of the new right node. -/
def sumSizes {h : Nat} : List (Node α h) → Int
  | [] => 0
  | s :: S => size s + sumSizes S

/-- btree.h:1099-1127 `_SplitChild`, the two halves of `y` and the key between them. -/
def halves (order : Nat) : {h : Nat} → Node α h → Option (Node α h × α × Node α h)
  | 0, y =>
    let zi := ((NodeF.items y).drop order).take (order - 1)
    match (NodeF.items y)[order - 1]? with
    | none => none
    | some m => some ((⟨NodeF.size y - ((zi.length : Int) + 1), (NodeF.items y).take (order - 1), []⟩ : NodeF α Empty), m, (⟨zi.length, zi, []⟩ : NodeF α Empty))
  | h + 1, y =>
    let zi := ((NodeF.items y).drop order).take (order - 1)
    let zs := ((NodeF.subs y).drop order).take order
    match (NodeF.items y)[order - 1]? with
    | none => none
    | some m => some ((⟨NodeF.size y - (sumSizes zs + zi.length + 1), (NodeF.items y).take (order - 1), (NodeF.subs y).take order⟩ : NodeF α (Node α h)), m, (⟨sumSizes zs + zi.length, zi, zs⟩ : NodeF α (Node α h)))

/-- btree.h:1099-1127 `_SplitChild` seen from the parent: the new key at `i`, the new right node at `i + 1`. -/
def splitChild (order : Nat) {h : Nat} (n : NodeF α (Node α h)) (i : Nat) (y : Node α h) : Option (NodeF α (Node α h)) :=
  match halves order y with
  | none => none
  | some (y, m, z) => some { n with items := n.items.insertIdx i m, subs := (n.subs.set i y).insertIdx (i + 1) z }

/-- btree.h:1051-1096 `_InsertNonFull`: whether the key was added, and the node.  `sp` is the number of nodes in `stack`; their
sizes grow when the key was added (1090-1093). -/
def insert (order : Nat) (x : α) : {h : Nat} → (sp : Nat) → Node α h → Option (Bool × Node α h)
  | 0, sp, n =>
    match search less x (NodeF.items n) with
    | none => none
    | some (true, _) => some (false, n)
    | some (false, pos) =>
      if 50 ≤ sp then none
      else some (true, (⟨NodeF.size n + 1, (NodeF.items n).insertIdx (pos + 1).toNat x, NodeF.subs n⟩ : NodeF α Empty))
  | h + 1, sp, n =>
    match search less x (NodeF.items n) with
    | none => none
    | some (true, _) => some (false, n)
    | some (false, pos) =>
      if 50 ≤ sp then none
      else
        let p := (pos + 1).toNat
        match (NodeF.subs n)[p]? with
        | none => none
        | some y =>
          if (items y).length = 2 * order - 1 then
            match splitChild order n p y with
            | none => none
            | some n' =>
              match n'.items[p]? with
              | none => none
              | some m =>
                let q := if less x m = false then p + 1 else p
                match n'.subs[q]? with
                | none => none
                | some y =>
                  match insert order x (sp + 1) y with
                  | none => none
                  | some (b, y) => some (b, (⟨if b then n'.size + 1 else n'.size, n'.items, n'.subs.set q y⟩ : NodeF α (Node α h)))
          else
            match insert order x (sp + 1) y with
            | none => none
            | some (b, y) => some (b, (⟨if b then NodeF.size n + 1 else NodeF.size n, NodeF.items n, (NodeF.subs n).set p y⟩ : NodeF α (Node α h)))

end

/-- btree.h:156-157, 178-181 `BTree`: `_root`, null before the first insertion. -/
structure Tree (α : Type) where
  order : Nat
  root : Option ((h : Nat) × Node α h)

section

variable {α : Type} (less : α → α → Bool)

/-- btree.h:178-181: the constructor. -/
def empty (α : Type) (order : Nat) : Tree α := ⟨if order > 2 then order else 2, none⟩

/-- btree.h:864-871: a root which is not full. -/
def addRoot (t : Tree α) (x : α) (h : Nat) (n : Node α h) : Option (Bool × Tree α) :=
  match insert less t.order x 0 n with
  | none => none
  | some (b, n) => some (b, ⟨t.order, some ⟨h, n⟩⟩)

/-- btree.h:858-884 `Add`. -/
def add (t : Tree α) (x : α) : Option (Bool × Tree α) :=
  match t.root with
  | none => addRoot less t x 0 (⟨0, [], []⟩ : NodeF α Empty)
  | some ⟨h, n⟩ =>
    if (items n).length < 2 * t.order - 1 then addRoot less t x h n
    else
      match splitChild t.order (⟨size n, [], [n]⟩ : NodeF α (Node α h)) 0 n with
      | none => none
      | some n => addRoot less t x (h + 1) n

/-- btree.h:722-742 on the tree. -/
def Tree.find (t : Tree α) (x : α) : Option (Option α) :=
  match t.root with
  | none => some none
  | some ⟨_, n⟩ => BTree.find less x n

/-- btree.h:767-812 on the tree. -/
def Tree.itemWithRank (t : Tree α) (r : Int) : Option (Option α) :=
  match t.root with
  | none => some none
  | some ⟨_, n⟩ => BTree.itemWithRank n r

/-- btree.h:816-853 on the tree. -/
def Tree.rankOf (t : Tree α) (x : α) : Option Int :=
  match t.root with
  | none => some 0
  | some ⟨_, n⟩ => BTree.rankOf less x n

/-- btree.h:254 `Size`. -/
def Tree.size (t : Tree α) : Int :=
  match t.root with
  | none => 0
  | some ⟨_, n⟩ => BTree.size n

end

end LS.BTree

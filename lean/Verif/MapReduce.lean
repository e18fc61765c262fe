import Verif.AvlTree
/-
`MapReduce`: an AVL tree whose nodes keep the reduced result of their subtrees.  base/containers/mapreduce.{h,tcc}, base/containers/avltreenode.{h,tcc}.

The functions of the tree are those of `AvlTree.lean` with the flag `dirty` and the member `rres` of the nodes.  `K` stands for key and value together; `f` is the constructor `ReducedResult(key, value)`,
`add` is `operator+`.
-/
namespace LS.MapReduce
open LS.Avl

/-- `KeyValue` (mapreduce.h:46-62) and the flag `dirty` of its node (avltreenode.h:222). -/
structure Item (K R : Type) where
  key : K
  dirty : Bool
  res : R
deriving DecidableEq, Repr

variable {K R : Type}

abbrev Node (K R : Type) := Tree (Item K R)

/-- `dirty = true` -/
def mark : Node K R → Node K R
  | .nil => .nil
  | .node l b i r => .node l b { i with dirty := true } r

/-- avltreenode.tcc:137-145 -/
def rotateSingle (d : Bool) (this : Node K R) : Except Err (Node K R) :=
  let save := this.link (!d)
  if save.isNil then .error .ub
  else .ok ((mark save).setLink d ((mark this).setLink (!d) (save.link d)))

/-- avltreenode.tcc:147-161; the middle node is not marked -/
def rotateDouble (d : Bool) (this : Node K R) : Except Err (Node K R) :=
  let n := this.link (!d)
  if n.isNil then .error .ub
  else
    let save := n.link d
    if save.isNil then .error .ub
    else
      let n := n.setLink d (save.link (!d))
      let save := mark (save.setLink (!d) n)
      .ok (save.setLink d ((mark this).setLink (!d) (save.link d)))

/-- avltreenode.tcc:181-193 -/
def insertBalance (d : Bool) (this : Node K R) : Except Err (Node K R) :=
  let n := this.link d
  if n.isNil then .error .ub
  else if n.bal = Tree.side d then
    rotateSingle (!d) ((this.setBal 0).setLink d (n.setBal 0))
  else
    match this.adjustBalance d (Tree.side d) with
    | .error e => .error e
    | .ok this => rotateDouble (!d) this

/-- avltreenode.tcc:195-212 -/
def removeBalance (d : Bool) (this : Node K R) : Except Err (Node K R × Bool) :=
  let n := this.link (!d)
  if n.isNil then .error .ub
  else if n.bal = -Tree.side d then
    (rotateSingle d ((this.setBal 0).setLink (!d) (n.setBal 0))).map (·, false)
  else if n.bal = Tree.side d then
    match this.adjustBalance (!d) (-Tree.side d) with
    | .error e => .error e
    | .ok this => (rotateDouble d this).map (·, false)
  else
    (rotateSingle d ((this.setBal (-Tree.side d)).setLink (!d) (n.setBal (Tree.side d)))).map (·, true)

/-- avltreenode.tcc:215-226 -/
def balanceAfterRemove (root : Node K R) (done : Bool) (d : Bool) : Except Err (Node K R × Bool) :=
  if done then .ok (root, true)
  else
    let b := root.bal - Tree.side d
    let root := root.setBal b
    if b.natAbs = 1 then .ok (root, true)
    else if b.natAbs > 1 then removeBalance d root
    else .ok (root, false)

/-- avltreenode.tcc:228-242: no node on the way is marked -/
def takeRightMost : Node K R → Except Err (Item K R × Node K R × Bool)
  | .nil => .error .ub
  | .node l b k r =>
    if r.isNil then .ok (k, l, false)
    else
      match takeRightMost r with
      | .error e => .error e
      | .ok (rm, r', done) =>
        match balanceAfterRemove (.node l b k r') done true with
        | .error e => .error e
        | .ok (t, done) => .ok (rm, t, done)

/-- avltreenode.tcc:244-268 -/
def removeRootNode (root : Node K R) : Except Err (Node K R × Bool) :=
  if (root.link false).isNil || (root.link true).isNil then
    .ok (root.link (root.link false).isNil, false)
  else
    match takeRightMost (root.link false) with
    | .error e => .error e
    | .ok (rm, newroot, done) =>
      balanceAfterRemove (mark (.node newroot root.bal rm (root.link true))) done false

/-- avltreenode.h:343-394; a new node is dirty (avltreenode.h:47), its `rres` is default constructed -/
def insert [Inhabited R] (lt : K → K → Bool) (x : K) : Node K R → Except Err (Option (Node K R × Bool))
  | .nil => .ok (some (.node .nil 0 ⟨x, true, default⟩ .nil, false))
  | .node l b k r =>
    let up (d : Bool) (res : Except Err (Option (Node K R × Bool))) :=
      match res with
      | .error e => .error e
      | .ok none => .ok none
      | .ok (some (nd, done)) =>
        let this := mark ((Tree.node l b k r).setLink d nd)
        if done then .ok (some (this, true))
        else
          let this := this.setBal (b + Tree.side d)
          if this.bal = 0 then .ok (some (this, true))
          else if this.bal < -1 ∨ this.bal > 1 then
            (insertBalance d this).map (fun t => some (t, true))
          else .ok (some (this, false))
    if lt x k.key then up false (insert lt x l)
    else if lt k.key x then up true (insert lt x r)
    else .ok none

/-- avltreenode.h:423-446 -/
def remove (lt : K → K → Bool) (x : K) : Node K R → Except Err (Node K R × Bool × Option (Item K R))
  | .nil => .ok (.nil, true, none)
  | .node l b k r =>
    let up (d : Bool) (res : Except Err (Node K R × Bool × Option (Item K R))) :=
      match res with
      | .error e => .error e
      | .ok (t, done, rm) =>
        match balanceAfterRemove (mark ((Tree.node l b k r).setLink d t)) done d with
        | .error e => .error e
        | .ok (t, done) => .ok (t, done, rm)
    if lt x k.key then up false (remove lt x l)
    else if lt k.key x then up true (remove lt x r)
    else
      match removeRootNode (.node l b k r) with
      | .error e => .error e
      | .ok (t, done) => .ok (t, done, some k)

/-- `updateNode` (mapreduce.tcc:35-49). -/
def updateNode (f : K → R) (add : R → R → R) : Node K R → Node K R
  | .nil => .nil
  | .node l b i r =>
    if i.dirty then
      let l' := updateNode f add l
      let r' := updateNode f add r
      let res := match l', r' with
        | .nil, .nil => f i.key
        | .node _ _ x _, .nil => add x.res (f i.key)
        | .nil, .node _ _ y _ => add (f i.key) y.res
        | .node _ _ x _, .node _ _ y _ => add (add x.res (f i.key)) y.res
      .node l' b ⟨i.key, false, res⟩ r'
    else .node l b i r

/-- The member `tree` with its count. -/
abbrev M (K R : Type) := Avl.St (Item K R)

/-- `insert` (mapreduce.h:104-106, avltree.h:165-173, 204-216): the flag `exist`. -/
def M.insert [Inhabited R] (lt : K → K → Bool) (m : M K R) (x : K) : Except Err (M K R × Bool) :=
  match MapReduce.insert lt x m.tree with
  | .error e => .error e
  | .ok none => .ok (m, true)
  | .ok (some (t, _)) => .ok ({ tree := t, count := m.count + 1 }, false)

/-- `erase(key)` (mapreduce.h:110-113, avltree.h:292-302). -/
def M.erase (lt : K → K → Bool) (m : M K R) (x : K) : Except Err (M K R × Bool) :=
  match MapReduce.remove lt x m.tree with
  | .error e => .error e
  | .ok (t, _, rm) =>
    if rm.isSome then .ok ({ tree := t, count := m.count - 1 }, true)
    else .ok ({ m with tree := t }, false)

/-- `reduce()` (mapreduce.tcc:52-59): the map with its nodes updated, and the result. -/
def M.reduce [Inhabited R] (f : K → R) (add : R → R → R) (m : M K R) : M K R × R :=
  let t := updateNode f add m.tree
  match t with
  | .nil => (m, default)
  | .node _ _ i _ => ({ m with tree := t }, i.res)

/-- Calls. -/
inductive Op (K : Type) where
  | insert (x : K)
  | erase (x : K)
  | clear
  | reduce
deriving DecidableEq, Repr

/-- Results of calls. -/
inductive Out (R : Type) where
  | flag (b : Bool)
  | unit
  | value (r : R)
deriving DecidableEq, Repr

def M.apply [Inhabited R] (lt : K → K → Bool) (f : K → R) (add : R → R → R) (m : M K R) : Op K → Except Err (M K R × Out R)
  | .insert x => (m.insert lt x).map fun p => (p.1, .flag p.2)
  | .erase x => (m.erase lt x).map fun p => (p.1, .flag p.2)
  | .clear => .ok ({}, .unit)
  | .reduce => .ok ((m.reduce f add).1, .value (m.reduce f add).2)

/-- A sequence of calls. -/
def M.run [Inhabited R] (lt : K → K → Bool) (f : K → R) (add : R → R → R) : M K R → List (Op K) → Except Err (M K R × List (Out R))
  | m, [] => .ok (m, [])
  | m, op :: ops =>
    match m.apply lt f add op with
    | .error e => .error e
    | .ok (m', o) =>
      match M.run lt f add m' ops with
      | .error e => .error e
      | .ok (m'', os) => .ok (m'', o :: os)

end LS.MapReduce

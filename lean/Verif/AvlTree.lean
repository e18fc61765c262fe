import Verif.Deque
/-!
# Model of `base/containers/avltreenode.{h,tcc}` and `avltree.h`

A tree of linked nodes is a value of type `Tree`; nodes are not shared between trees, so assigning a
link is replacing a subtree.  `K` is the type of the payload, `lt` is the ordering operator.  A call
of a member function on the null pointer (`tree->insert`, `link(dir)->insert`, `link(dir)->remove`)
is what the author expects it to be: the function tests `this` (`checkNull`).  Any other access
through a null pointer is the outcome `Err.ub`.  The flag `dirty` is left out.  A direction is a
`Bool`: `false` is 0 (left), `true` is 1 (right).
-/

namespace LS.Avl

/-- avltreenode.h:199-210: `left`, `balance`, `data`, `right`. -/
inductive Tree (K : Type) where
  | nil
  | node (l : Tree K) (b : Int) (k : K) (r : Tree K)
deriving DecidableEq, Repr

variable {K : Type}

namespace Tree

/-- avltreenode.h:190-191 `link(lnk)` for reading -/
def link (d : Bool) : Tree K → Tree K
  | nil => nil
  | node l _ _ r => if d then r else l

/-- avltreenode.h:190 `link(lnk) = v` -/
def setLink (this : Tree K) (d : Bool) (v : Tree K) : Tree K :=
  match this with
  | nil => nil
  | node l b k r => if d then node l b k v else node v b k r

def bal : Tree K → Int
  | nil => 0
  | node _ b _ _ => b

def setBal (b : Int) : Tree K → Tree K
  | nil => nil
  | node l _ k r => node l b k r

def isNil : Tree K → Bool
  | nil => true
  | node .. => false

/-- avltreenode.tcc:137-145 -/
def rotateSingle (d : Bool) (this : Tree K) : Except Err (Tree K) :=
  let save := this.link (!d)
  if save.isNil then .error .ub
  else .ok (save.setLink d (this.setLink (!d) (save.link d)))

/-- avltreenode.tcc:147-161 -/
def rotateDouble (d : Bool) (this : Tree K) : Except Err (Tree K) :=
  let n := this.link (!d)
  if n.isNil then .error .ub
  else
    let save := n.link d
    if save.isNil then .error .ub
    else
      let n := n.setLink d (save.link (!d))
      let save := save.setLink (!d) n
      .ok (save.setLink d (this.setLink (!d) (save.link d)))

/-- avltreenode.tcc:163-179 -/
def adjustBalance (d : Bool) (bal : Int) (this : Tree K) : Except Err (Tree K) :=
  let n := this.link d
  if n.isNil then .error .ub
  else
    let nn := n.link (!d)
    if nn.isNil then .error .ub
    else
      let (b, nb) := if nn.bal = 0 then (0, 0) else if nn.bal = bal then (-bal, 0) else (0, bal)
      .ok ((this.setBal b).setLink d ((n.setBal nb).setLink (!d) (nn.setBal 0)))

/-- `dir == 0 ? -1 : 1` -/
def side (d : Bool) : Int := if d then 1 else -1

/-- avltreenode.tcc:181-193 -/
def insertBalance (d : Bool) (this : Tree K) : Except Err (Tree K) :=
  let n := this.link d
  if n.isNil then .error .ub
  else if n.bal = side d then
    rotateSingle (!d) ((this.setBal 0).setLink d (n.setBal 0))
  else
    match adjustBalance d (side d) this with
    | .error e => .error e
    | .ok this => rotateDouble (!d) this

/-- avltreenode.tcc:195-212; the flag is `done` after the call (it is false before it). -/
def removeBalance (d : Bool) (this : Tree K) : Except Err (Tree K × Bool) :=
  let n := this.link (!d)
  if n.isNil then .error .ub
  else if n.bal = -side d then
    (rotateSingle d ((this.setBal 0).setLink (!d) (n.setBal 0))).map (·, false)
  else if n.bal = side d then
    match adjustBalance (!d) (-side d) this with
    | .error e => .error e
    | .ok this => (rotateDouble d this).map (·, false)
  else
    (rotateSingle d ((this.setBal (-side d)).setLink (!d) (n.setBal (side d)))).map (·, true)

/-- avltreenode.tcc:215-226 -/
def balanceAfterRemove (root : Tree K) (done : Bool) (d : Bool) : Except Err (Tree K × Bool) :=
  if done then .ok (root, true)
  else
    let b := root.bal - side d
    let root := root.setBal b
    if b.natAbs = 1 then .ok (root, true)
    else if b.natAbs > 1 then removeBalance d root
    else .ok (root, false)

/-- avltreenode.tcc:228-242: the rightmost node, the remaining tree, the flag. The function is not
called for the null pointer. -/
def takeRightMost : Tree K → Except Err (K × Tree K × Bool)
  | nil => .error .ub
  | node l b k r =>
    if r.isNil then .ok (k, l, false)
    else
      match takeRightMost r with
      | .error e => .error e
      | .ok (rm, r', done) =>
        match balanceAfterRemove (node l b k r') done true with
        | .error e => .error e
        | .ok (t, done) => .ok (rm, t, done)

/-- avltreenode.tcc:244-268 -/
def removeRootNode (root : Tree K) : Except Err (Tree K × Bool) :=
  if (root.link false).isNil || (root.link true).isNil then
    .ok (root.link (root.link false).isNil, false)
  else
    match takeRightMost (root.link false) with
    | .error e => .error e
    | .ok (rm, newroot, done) =>
      balanceAfterRemove (node newroot root.bal rm (root.link true)) done false

/-- avltreenode.h:343-394 without the path: the new root and `done`, or `none` (the null pointer) if
the key is in the tree. -/
def insert (lt : K → K → Bool) (x : K) : Tree K → Except Err (Option (Tree K × Bool))
  | nil => .ok (some (node nil 0 x nil, false))
  | node l b k r =>
    let up (d : Bool) (res : Except Err (Option (Tree K × Bool))) :=
      match res with
      | .error e => .error e
      | .ok none => .ok none
      | .ok (some (nd, done)) =>
        let this := (node l b k r).setLink d nd
        if done then .ok (some (this, true))
        else
          let this := this.setBal (b + side d)
          if this.bal = 0 then .ok (some (this, true))
          else if this.bal < -1 ∨ this.bal > 1 then
            (insertBalance d this).map (fun t => some (t, true))
          else .ok (some (this, false))
    if lt x k then up false (insert lt x l)
    else if lt k x then up true (insert lt x r)
    else .ok none

/-- avltreenode.h:423-446: the new root, `done`, the removed node. -/
def remove (lt : K → K → Bool) (x : K) : Tree K → Except Err (Tree K × Bool × Option K)
  | nil => .ok (nil, true, none)
  | node l b k r =>
    let up (d : Bool) (res : Except Err (Tree K × Bool × Option K)) :=
      match res with
      | .error e => .error e
      | .ok (t, done, rm) =>
        match balanceAfterRemove ((node l b k r).setLink d t) done d with
        | .error e => .error e
        | .ok (t, done) => .ok (t, done, rm)
    if lt x k then up false (remove lt x l)
    else if lt k x then up true (remove lt x r)
    else
      match removeRootNode (node l b k r) with
      | .error e => .error e
      | .ok (t, done) => .ok (t, done, some k)

/-- avltreenode.h:628-648 `initPathSearch` as far as `found` is concerned: the node found. -/
def find (lt : K → K → Bool) (x : K) : Tree K → Option K
  | nil => none
  | node l _ k r => if lt x k then find lt x l else if lt k x then find lt x r else some k

/-- avltreenode.tcc:293-305 -/
def maxHeight : Tree K → Nat
  | nil => 0
  | node l b _ r => 1 + if b = 1 then maxHeight r else maxHeight l

/-- avltreenode.tcc:321-327 (0 for the null pointer, which the function is not called for) -/
def count : Tree K → Nat
  | nil => 0
  | node l _ _ r => 1 + count l + count r

end Tree

/-! ## avltree.h: `AVLTree`; avltreenode.h: `AvlTreeBasic` -/

/-- avltree.h:396-399, avltreenode.h:606-608; the allocator is left out -/
structure St (K : Type) where
  tree : Tree K := .nil
  count : Nat := 0
deriving DecidableEq, Repr

namespace St

/-- avltree.h:204-216 `insert(nd, exist)`: the caller passes null or a pointer to a flag with some
value; the result is the value of the flag after the call. -/
def insertNode (lt : K → K → Bool) (s : St K) (x : K) (exist : Option Bool) :
    Except Err (St K × Bool) :=
  match s.tree.insert lt x with
  | .error e => .error e
  | .ok res =>
    match exist with
    | none => .error .ub
    | some e =>
      match res with
      | none => .ok (s, e)
      | some (t, _) => .ok ({ tree := t, count := s.count + 1 }, false)

/-- avltree.h:165-173 `insert(value, exist)`; if `exist` is null, a local flag is used -/
def insertValue (lt : K → K → Bool) (s : St K) (x : K) : Except Err (St K × Bool) :=
  s.insertNode lt x (some true)

/-- avltree.h:237-242 `find` -/
def find (lt : K → K → Bool) (s : St K) (x : K) : Option K := s.tree.find lt x

/-- avltree.h:292-302 `erase(value)` -/
def erase (lt : K → K → Bool) (s : St K) (x : K) : Except Err (St K × Bool) :=
  match s.tree.remove lt x with
  | .error e => .error e
  | .ok (t, _, rm) =>
    if rm.isSome then .ok ({ tree := t, count := s.count - 1 }, true)
    else .ok ({ s with tree := t }, false)

/-- avltree.h:346-350 `clear` -/
def clear (_ : St K) : St K := {}

/-- avltree.h:362-364 `size` -/
def size (s : St K) : Nat := s.count

end St
end LS.Avl

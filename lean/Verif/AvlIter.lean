import Verif.AvlTree
/-!
# Model of the iterator of `avltreenode.{h,tcc}`, `avltree.h`

A node is identified by its key (keys in a tree differ).  The array `path` (avltreenode.h:183-185)
is a list of keys, the last item (the current node) first.  Links of a node are looked up in the
tree as it is at the time of the call; a node which is not in the tree any more is `Err.ub`.
`d` is the direction: `false` forward, `true` backward (avltreenode.tcc:47-53).
-/

namespace LS.Avl

variable {K : Type} [DecidableEq K]

/-- avltreenode.h:183 -/
def maxPathLen : Nat := 64

namespace Tree

def root? : Tree K → Option K
  | nil => none
  | node _ _ k _ => some k

/-- The node with the given key. -/
def nodeOf : Tree K → K → Tree K
  | nil, _ => nil
  | node l b k r, x =>
    if x = k then node l b k r
    else if (nodeOf l x).isNil then nodeOf r x else nodeOf l x

/-- avltreenode.tcc:110-116 `initPath`: the nodes added to the path, `n` is the number of free
items. -/
def down (d : Bool) : Nat → Tree K → List K
  | 0, _ => []
  | _ + 1, nil => []
  | n + 1, node l _ k r => down d n (if d then r else l) ++ [k]

/-- avltreenode.tcc:125-132: the loop upwards. -/
def up (t : Tree K) (d : Bool) : K → List K → List K
  | _, [] => []
  | cur, nx :: rest =>
    if ((t.nodeOf nx).link d).root? = some cur then nx :: rest else up t d nx rest

/-- avltreenode.tcc:118-134 `goNext` -/
def goNext (t : Tree K) (d : Bool) (p : List K) : Except Err (List K) :=
  match p with
  | [] => .ok []
  | cur :: rest =>
    if (t.nodeOf cur).isNil then .error .ub
    else
      let far := (t.nodeOf cur).link (!d)
      if !far.isNil && decide (p.length < maxPathLen) then
        .ok (down d (maxPathLen - p.length) far ++ p)
      else .ok (up t d cur rest)

/-- avltreenode.h:628-647: the path of the search, `found`, the last direction (`e` before). -/
def search (lt : K → K → Bool) (x : K) : Bool → Tree K → List K × Bool × Bool
  | e, nil => ([], false, e)
  | _, node l _ k r =>
    if lt x k then let q := search lt x false l; (q.1 ++ [k], q.2)
    else if lt k x then let q := search lt x true r; (q.1 ++ [k], q.2)
    else ([k], true, false)

/-- avltreenode.h:628-648 `initPathSearch`; the array may overflow -/
def seek (lt : K → K → Bool) (x : K) (d : Bool) (t : Tree K) : Except Err (List K × Bool) :=
  let q := search lt x false t
  if q.1.length > maxPathLen then .error .ub
  else if q.2.1 then .ok (q.1, true)
  else if q.2.2 = d then .ok (q.1, false)
  else (goNext t d q.1).map (·, false)

/-- avltreenode.tcc:271-289 `remove(iter, done, pathIndex)`; the list is the rest of the path from
`pathIndex` on. -/
def removePath : Tree K → List K → Except Err (Tree K × Bool)
  | t, [] => if t.isNil then .error .ub else removeRootNode t
  | t, pos :: ps =>
    if t.root? = some pos then removePath t ps
    else if t.isNil then .error .ub
    else
      let d := !decide ((t.link false).root? = some pos)
      match removePath (t.link d) ps with
      | .error e => .error e
      | .ok (v, done) => balanceAfterRemove (t.setLink d v) done d

/-- avltreenode.h:343-394 `insert` with the path stored: the new root, `done`, and the nodes written
to the path from this node on (the last one first). The first call stores one more, see
`insertPath`. -/
def insertP (lt : K → K → Bool) (x : K) :
    Tree K → Except Err (Option (Tree K × Bool) × List K)
  | nil => .ok (some (node nil 0 x nil, false), [])
  | node l b k r =>
    let up (d : Bool) (res : Except Err (Option (Tree K × Bool) × List K)) :=
      match res with
      | .error e => .error e
      -- avltreenode.h:373-374
      | .ok (none, p) => .ok (none, p ++ (((node l b k r).link d).root?).toList)
      | .ok (some (nd, done), p) =>
        -- avltreenode.h:382
        let p := p ++ nd.root?.toList
        let this := (node l b k r).setLink d nd
        if done then .ok (some (this, true), p)
        else
          let this := this.setBal (b + side d)
          if this.bal = 0 then .ok (some (this, true), p)
          else if this.bal < -1 ∨ this.bal > 1 then
            (insertBalance d this).map (fun t => (some (t, true), p))
          else .ok (some (this, false), p)
    if lt x k then up false (insertP lt x l)
    else if lt k x then up true (insertP lt x r)
    else .ok (none, [])

/-- avltreenode.h:346-352 -/
def insertPath (lt : K → K → Bool) (x : K) (t : Tree K) :
    Except Err (Option (Tree K) × List K) :=
  match insertP lt x t with
  | .error e => .error e
  | .ok (some (t', _), p) => .ok (some t', p ++ t'.root?.toList)
  | .ok (none, p) => .ok (none, p ++ t.root?.toList)

/-- Calls `getNext` (avltreenode.tcc:77-83) until `hasItems` is false, at most `n` times. -/
def walk (t : Tree K) (d : Bool) : Nat → List K → Except Err (List K)
  | _, [] => .ok []
  | 0, _ => .ok []
  | n + 1, cur :: rest =>
    match goNext t d (cur :: rest) with
    | .error e => .error e
    | .ok p => (walk t d n p).map (cur :: ·)

/-- avltreenode.tcc:19-25: iterator at the beginning. -/
def begin (t : Tree K) (d : Bool) : List K := down d maxPathLen t

end Tree

namespace St

/-- avltree.h:323-331 `remove(iter)`: the new state and the new iterator. -/
def removeIter (lt : K → K → Bool) (s : St K) (d : Bool) (p : List K) :
    Except Err (St K × List K) :=
  match p with
  -- `peek` of an iterator without items throws an exception
  | [] => .error .thrown
  | cur :: _ =>
    match s.tree.removePath p.reverse with
    | .error e => .error e
    | .ok (t, _) =>
      match t.seek lt cur d with
      | .error e => .error e
      | .ok (p', _) => .ok ({ tree := t, count := s.count - 1 }, p')

/-- avltreenode.h:569-575 `AvlTreeBasic::remove(iter)` -/
def removeIterBasic (s : St K) (p : List K) : Except Err (St K) :=
  match p with
  | [] => .error .thrown
  | _ :: _ =>
    match s.tree.removePath p.reverse with
    | .error e => .error e
    | .ok (t, done) => .ok { tree := t, count := if done then s.count - 1 else s.count }

/-- avltreenode.h:582-587 `AvlTreeBasic::clear` -/
def clearBasic (s : St K) : St K := { s with tree := .nil }

end St
end LS.Avl

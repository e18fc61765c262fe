import Verif.Heap
import Verif.Deque
/-
Array set with an ordered prefix: base/containers/arraySet.{h,tcc}.

The array below (autoArray) is taken as a list; see C24 for the array itself.  `filter`, `merge`, `remove`, `crop` and `getOrdered` are not
modelled: they call constructors which do not exist (the third argument of `ArraySet(iter, cmp, *this)` should be an `OrderControl`), so no
program can use them.  `TSearchResult::found` and `operator->` have no body in the repository; the pointer (`operator Q`) is used instead.
-/
namespace LS.ArraySet

/-- arraySet.h:169-171 and the items. -/
structure St (α : Type) where
  items : List α
  oc : Nat
  dup : Bool

section

variable {α : Type} (less : α → α → Bool)

/-- Access to an item, the subscript is not checked (arrayt.h:61-63). -/
def item (l : List α) (i : Nat) : Except Err α :=
  match l[i]? with
  | none => .error .ub
  | some a => .ok a

/-- arraySet.h:43. -/
def empty (α : Type) : St α := ⟨[], 0, false⟩

/-- arraySet.tcc:311-323, the loop of `searchOrdered`; `none` for the bound of steps. -/
def bsearch (l : List α) (x : α) : Nat → Nat → Nat → Except Err (Bool × Nat)
  | 0, lo, hi => if lo < hi then .error .ub else .ok (false, lo)
  | k + 1, lo, hi =>
    if lo < hi then
      (item l ((lo + hi) / 2)).bind fun v =>
        if less x v then bsearch l x k lo ((lo + hi) / 2)
        else if less v x then bsearch l x k ((lo + hi) / 2 + 1) hi
        else .ok (true, (lo + hi) / 2)
    else .ok (false, lo)

/-- arraySet.tcc:309-326 `searchOrdered`. -/
def searchOrdered (s : St α) (x : α) : Except Err (Bool × Nat) := bsearch less s.items x s.items.length 0 (min s.oc s.items.length)

/-- arraySet.tcc:331-338, the loop of `searchUnordered` with `k` items to go. -/
def lsearch (l : List α) (x : α) : Nat → Nat → Except Err (Bool × Nat)
  | 0, _ => .ok (false, l.length)
  | k + 1, i => (item l i).bind fun v => if !less x v && !less v x then .ok (true, i) else lsearch l x k (i + 1)

/-- arraySet.tcc:330-341 `searchUnordered`. -/
def searchUnordered (s : St α) (x : α) : Except Err (Bool × Nat) :=
  lsearch less s.items x (s.items.length - min s.oc s.items.length) (min s.oc s.items.length)

/-- arraySet.tcc:19-26, 31-38 `find`: the item pointed to (null if not found) and the position. -/
def find (s : St α) (x : α) : Except Err (Option α × Nat) :=
  (searchOrdered less s x).bind fun r =>
    if r.1 then (item s.items r.2).map fun v => (some v, r.2)
    else (searchUnordered less s x).bind fun u =>
      if u.1 then (item s.items r.2).map fun v => (some v, u.2)
      else .ok (none, r.2)

/-- arraySet.tcc:88-91: the item `x` goes left. -/
def bubble : Nat → List α → Option (List α)
  | 0, l => some l
  | x + 1, l =>
    match l[x]?, l[x + 1]? with
    | some a, some b => if less a b then some l else (Heap.swap l x (x + 1)).bind (bubble x)
    | _, _ => none

/-- arraySet.tcc:86-93: `k` items to go, the next one is `i`. -/
def insLoop : Nat → Nat → List α → Option (List α)
  | 0, _, l => some l
  | k + 1, i, l => (bubble less i l).bind (insLoop k (i + 1))

def lift {β : Type} : Option β → Except Err β
  | none => .error .ub
  | some b => .ok b

/-- arraySet.tcc:356 the first line of `removeDuplicatesAfterOrder`; `rest` stands for the others (357-376), which are never reached from
`makeOrdered`. -/
def removeDuplicates (rest : St α → Except Err (St α)) (s : St α) : Except Err (St α) :=
  if s.items = [] ∨ s.oc < s.items.length then .ok s else rest s

/-- arraySet.tcc:76-101 `makeOrdered`. -/
def makeOrdered (rest : St α → Except Err (St α)) (s : St α) : Except Err (St α) :=
  if s.items = [] then .ok s
  else
    let oc := if s.oc = 0 then s.oc + 1 else s.oc
    if s.items.length ≤ oc then .ok { s with oc := oc }
    else if s.items.length - oc < 30 then
      (lift (insLoop less (s.items.length - oc) oc s.items)).map fun l => { s with items := l, oc := l.length }
    else
      (lift (Heap.sort less s.items)).bind fun l =>
        (if s.dup then .ok { s with items := l, oc := oc } else removeDuplicates rest { s with items := l, oc := oc }).map fun t => { t with oc := t.items.length }

/-- arraySet.tcc:104-106 `isOrdered`. -/
def isOrdered (s : St α) : Bool := s.oc == s.items.length

/-- arraySet.tcc:347-350, the loop of `checkOrder`; `s` is `length() - 1` in 64 bits. -/
def checkLoop (l : List α) (s : Nat) : Nat → Nat → Except Err Nat
  | 0, i => if i < s then .error .ub else .ok i
  | k + 1, i =>
    if i < s then
      (item l i).bind fun a => (item l (i + 1)).bind fun b => if less a b then checkLoop l s k (i + 1) else .ok i
    else .ok i

/-- arraySet.tcc:344-352 `checkOrder`. -/
def checkOrder (l : List α) : Except Err Nat := checkLoop less l (if l.length = 0 then 2 ^ 64 - 1 else l.length - 1) l.length 0

/-- arraySet.h:29-39. -/
inductive Order
  | detectOrder
  | orderNow
  | orderNowAllowDups
  | alreadyOrdered

/-- arraySet.h:47-67 the constructors from other data, arraySet.tcc:380-387 `orderControl`. -/
def create (rest : St α → Except Err (St α)) (l : List α) : Order → Except Err (St α)
  | .detectOrder => (checkOrder less l).map fun k => ⟨l, k, false⟩
  | .orderNow => makeOrdered less rest ⟨l, 0, false⟩
  | .orderNowAllowDups => makeOrdered less rest ⟨l, 0, true⟩
  | .alreadyOrdered => .ok ⟨l, l.length, false⟩

/-- autoArray `add`, `append` at the end: `orderedCount` stays. -/
def add (s : St α) (v : α) : St α := { s with items := s.items ++ [v] }

/-- arraySet.tcc:261-271 `insert(at, init)`. -/
def insert (s : St α) (i : Nat) (v : α) : Except Err (St α) :=
  if s.items.length < i then .error .thrown
  else
    let l := s.items.take i ++ v :: s.items.drop i
    if s.oc > i then
      (if i > 0 then (item l (i - 1)).bind fun a => (item l i).map fun b => !less a b else .ok false).bind fun bad =>
        if bad then .ok { s with items := l, oc := i }
        else
          (if i + 1 < l.length then (item l i).bind fun a => (item l (i + 1)).map fun b => !less a b else .ok false).map fun bad =>
            if bad then { s with items := l, oc := i } else { s with items := l, oc := s.oc + 1 }
    else .ok { s with items := l }

/-- arraySet.tcc:274-281 `insert(at, init, count)`. -/
def insertN (s : St α) (i : Nat) (v : α) (n : Nat) : Except Err (St α) :=
  if n = 1 then insert less s i v
  else if s.items.length < i then .error .thrown
  else .ok { s with items := s.items.take i ++ List.replicate n v ++ s.items.drop i, oc := i }

/-- arraySet.tcc:284-287 `erase(at)`. -/
def erase (s : St α) (i : Nat) : Except Err (St α) :=
  if s.items.length < i then .error .thrown
  else .ok { s with items := s.items.eraseIdx i, oc := if s.oc > i then s.oc - 1 else s.oc }

/-- arraySet.tcc:290-294 `erase(at, count)`: one item is erased; sums and differences in 64 bits. -/
def eraseN (s : St α) (i n : Nat) : Except Err (St α) :=
  if s.items.length < i then .error .thrown
  else
    let sum := (i + n) % 2 ^ 64
    .ok { s with items := s.items.eraseIdx i, oc := if s.oc > sum then (if n ≤ s.oc then s.oc - n else 2 ^ 64 - (n - s.oc)) else if s.oc > i then i else s.oc }

/-- arraySet.tcc:297-300 `trunc`. -/
def trunc (s : St α) (n : Nat) : St α :=
  let l := s.items.take (s.items.length - n)
  { s with items := l, oc := if s.oc > l.length then l.length else s.oc }

/-- arraySet.tcc:303-306 `clear`. -/
def clear (s : St α) : St α := { s with items := [], oc := 0 }

/-- autoArray.tcc:111-115 `resize`, not overridden by the set. -/
def resize (s : St α) (n : Nat) (v : α) : St α := { s with items := s.items.take n ++ List.replicate (n - s.items.length) v }

end

end LS.ArraySet

/-
Variables of threads: `TLSTable`, `ThreadVar` (base/sync/threadVar.h:26-465) and `TLSAllocator`
(base/sync/tlsalloc.h, tlsalloc.cpp:11-37).

Values are numbers, 0 is the null pointer. What the destructor of a value does with the table
of its thread is given by a function from values to lists of actions. Simplified: a growing
array on the heap is always moved (base/containers/autoArray.tcc:24-54; it may grow in place by luck), an array in a
block of fixed size (mt/linux/thread.cpp:185-191) is never moved and refuses to grow beyond it.
The list of free indexes gives the greatest one, as its filter does (see C109).
-/

namespace LS.Tls

/-- `TLSRecord`, threadVar.h:75-76: the pointer, and whether there is a delete function. -/
structure Rec where
  ptr : Nat
  del : Bool
deriving DecidableEq, Repr

/-- An unset record, threadVar.h:31. -/
def Rec.none : Rec := ⟨0, false⟩

/-- `isInited`, threadVar.h:32-34. -/
def Rec.inited (r : Rec) : Bool := r.del || r.ptr != 0

/-- A table, threadVar.h:172. `cap` is the size of a fixed block, `gen` counts the moves of the array,
`gave` the values that were registered with a delete function, `dels` the calls of the
delete functions. -/
structure Tab where
  recs : List Rec
  cap : Option Nat
  gen : Nat
  gave : List Nat
  dels : List Nat
deriving DecidableEq, Repr

/-- A new table, threadVar.h:99-100. -/
def start (cap : Option Nat) : Tab := ⟨[], cap, 0, [], []⟩

/-- What a destructor does with thread variables: `ThreadVar::set` with a delete function, or `unset`. -/
inductive Act where
  | set (i v : Nat)
  | unset (i : Nat)
deriving DecidableEq, Repr

inductive Res where
  | ok (t : Tab)
  | exn (t : Tab)
  | ub
  | fuel
deriving DecidableEq, Repr

def Res.bind : Res → (Tab → Res) → Res
  | .ok t, f => f t
  | r, _ => r

/-- `getVar`, threadVar.h:131-134. -/
def getVar (t : Tab) (i : Nat) : Nat := match t.recs[i]? with | some r => r.ptr | none => 0

/-- `dynamicTable.resize(index+1)` when the index is behind the end, threadVar.h:148-149; `none` is an exception. -/
def grow (t : Tab) (i : Nat) : Option Tab :=
  if i < t.recs.length then some t
  else
    let r := t.recs ++ List.replicate (i + 1 - t.recs.length) Rec.none
    match t.cap with
    | some c => if i + 1 ≤ c then some { t with recs := r } else none
    | none => some { t with recs := r, gen := t.gen + 1 }

inductive Cmd where
  | unset (i : Nat)
  | setVar (i v : Nat) (d : Bool)
  | acts (l : List Act)

/-- `unsetVar` with `TLSRecord::unset` (threadVar.h:155-160, 43-61): the record is emptied before the delete
function is called; `setVar` with `TLSRecord::set` (threadVar.h:143-152, 37-41): the record is written
behind the call of the delete function, which is undefined when the array was moved meanwhile; and a
list of actions: `ThreadVar::set` is `unsetVar` and `setVar` (threadVar.h:250-253). -/
def exec (beh : Nat → List Act) : Nat → Cmd → Tab → Res
  | 0, _, _ => .fuel
  | f + 1, .unset i, t =>
    match t.recs[i]? with
    | none => .ok t
    | some r =>
      let t1 := { t with recs := t.recs.set i Rec.none }
      if r.del then exec beh f (.acts (beh r.ptr)) { t1 with dels := t1.dels ++ [r.ptr] } else .ok t1
  | f + 1, .setVar i v d, t =>
    if v == 0 && !d && decide (t.recs.length ≤ i) then .ok t
    else match grow t i with
    | none => .exn t
    | some t1 =>
      match exec beh f (.unset i) t1 with
      | .ok t2 =>
        if t2.gen = t1.gen then .ok { t2 with recs := t2.recs.set i ⟨v, d⟩, gave := if d then t2.gave ++ [v] else t2.gave }
        else .ub
      | o => o
  | _ + 1, .acts [], t => .ok t
  | f + 1, .acts (.set i v :: l), t =>
    ((exec beh f (.unset i) t).bind (exec beh f (.setVar i v true))).bind (exec beh f (.acts l))
  | f + 1, .acts (.unset i :: l), t => (exec beh f (.unset i) t).bind (exec beh f (.acts l))

/-- `ThreadVar::set`, threadVar.h:236-253. -/
def tvSet (beh : Nat → List Act) (f : Nat) (i v : Nat) (d : Bool) (t : Tab) : Res :=
  (exec beh f (.unset i) t).bind (exec beh f (.setVar i v d))

/-- `setValue`, threadVar.h:272-276: `v` is the new object. -/
def setValue (beh : Nat → List Act) (f : Nat) (i v : Nat) (t : Tab) : Res := tvSet beh f i v true t

/-- `ThreadVarInit::init`, threadVar.h:401-413: an exception destroys the new object. -/
def init (beh : Nat → List Act) (f : Nat) (i v : Nat) (t : Tab) : Res :=
  match tvSet beh f i v true t with
  | .exn t1 => (exec beh f (.acts (beh v)) { t1 with gave := t1.gave ++ [v], dels := t1.dels ++ [v] }).bind .exn
  | o => o

/-- `ThreadVarInitBase::operator[]`, threadVar.h:305-312; `v` is the object that is made when there is none. -/
def access (beh : Nat → List Act) (f : Nat) (i v : Nat) (t : Tab) : Res :=
  if getVar t i = 0 then init beh f i v t else .ok t

/-- One round of `clear`, threadVar.h:114-120. -/
def pass (beh : Nat → List Act) (f : Nat) : List Nat → Bool → Tab → Res × Bool
  | [], rep, t => (.ok t, rep)
  | x :: xs, rep, t =>
    match t.recs[x]? with
    | some r =>
      if r.inited then
        match exec beh f (.unset x) t with
        | .ok t1 => pass beh f xs true t1
        | o => (o, true)
      else pass beh f xs rep t
    | none => pass beh f xs rep t

/-- `clear`, threadVar.h:102-123. -/
def clear (beh : Nat → List Act) (f : Nat) : Nat → Tab → Res
  | 0, _ => .fuel
  | n + 1, t =>
    match pass beh f (List.range t.recs.length) false t with
    | (.ok t1, true) => clear beh f n t1
    | (.ok t1, false) => .ok t1
    | (o, _) => o

/-- The loop of `moveTo`, threadVar.h:166-169. -/
def moveLoop (beh : Nat → List Act) (f : Nat) : List Rec → Nat → Tab → Res
  | [], _, n => .ok n
  | r :: rs, i, n => (exec beh f (.setVar i r.ptr r.del) n).bind (moveLoop beh f rs (i + 1))

/-- `dynamicTable.clear()` with `~TLSRecord`, threadVar.h:170, 66-68, for destructors that do nothing with the table. -/
def destroy (t : Tab) : Tab :=
  { t with recs := [], dels := t.dels ++ (t.recs.filter (·.del)).map (·.ptr) }

/-- `moveTo`, threadVar.h:164-171: the old table and the result of the new one. -/
def moveTo (t n : Tab) (f : Nat) : Tab × Res := (destroy t, moveLoop (fun _ => []) f t.recs 0 n)

/-- `TLSAllocator` with the indexes of the variables that exist. -/
structure Alloc where
  next : Nat
  free : List Nat
  live : List Nat
deriving DecidableEq, Repr

/-- The greatest of the free indexes. -/
def top : List Nat → Nat
  | [] => 0
  | x :: r => max x (top r)

/-- `allocIndex` in the constructor of `ThreadVar`, tlsalloc.cpp:13-21, threadVar.h:204. -/
def alloc (a : Alloc) : Nat × Alloc :=
  if a.free.isEmpty then (a.next, { a with next := a.next + 1, live := a.next :: a.live })
  else (top a.free, { a with free := a.free.erase (top a.free), live := top a.free :: a.live })

/-- `freeIndex` in the destructor, tlsalloc.cpp:24-31, threadVar.h:211-213. -/
def release (a : Alloc) (i : Nat) : Alloc :=
  let a1 := { a with live := a.live.erase i }
  if i + 1 = a.next then { a1 with next := a.next - 1 }
  else if i < a.next then { a1 with free := i :: a.free }
  else a1

/-- `getMaxIndex`, tlsalloc.cpp:33-35, with the size of the block of a new thread, mt/linux/thread.cpp:185: in 64 bits. -/
def blockSize (a : Alloc) : Nat := ((a.next + 18446744073709551615) % 18446744073709551616 + 1) % 18446744073709551616

end LS.Tls

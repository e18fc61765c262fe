/-
A variable that may hold a value or nothing: `Optional`,
base/containers/optional.h:31-231.

The values are objects that may hold an object of their own kind inside (a list whose
tail is again such a list), so that a reference may point into a value. A variable is
a buffer and a flag: the buffer holds an object (`buf`) or raw memory, the flag is the
pointer `_x`. The lifetime of the objects is explicit: destroying raw memory, copying
from raw memory and constructing over an object are undefined (`ub`). A constructor of
a value may throw. Not modelled: the construction by a `Constructor` object (the same
steps as by a value), the assignment from a temporary `Optional`
(optional.h:136-149 calls `constuct`, which does not exist).
-/

namespace LS.OptVal

/-- An object: empty, or a number with a further object inside. -/
abbrev Val := List Nat

/-- `buffer` and `_x`, optional.h:192-193; `made` is false before the constructor and
after the destructor of the variable. -/
structure Slot where
  made : Bool
  buf : Option Val
  armed : Bool
deriving DecidableEq

abbrev St := Nat → Slot

/-- A reference to a value: to an object outside of all the variables, or to the value
of a variable, or to the object that lies `d` levels inside of it. -/
inductive Ref where
  | ext (v : Val)
  | at (i d : Nat)
deriving DecidableEq

inductive Op where
  | newNil (i : Nat)
  | newVal (i : Nat) (r : Ref)
  | newMoveVal (i : Nat) (r : Ref)
  | newCopy (i j : Nat)
  | newMove (i j : Nat)
  | del (i : Nat)
  | setNil (i : Nat)
  | setVal (i : Nat) (r : Ref)
  | setMoveVal (i : Nat) (r : Ref)
  | setCopy (i j : Nat)
  | value (i : Nat)
  | isNil (i : Nat)
deriving DecidableEq

/-- How an operation ends. -/
inductive Out where
  | done (s : St)
  | thrown (s : St)
  | null (s : St)
  | val (v : Val) (s : St)
  | bool (b : Bool) (s : St)
  | ub

def put (s : St) (i : Nat) (x : Slot) : St := fun k => if k = i then x else s k

/-- The object of a reference: its value when it is alive. -/
def deref (s : St) : Ref → Option Val
  | .ext v => some v
  | .at i d =>
    match (s i).buf with
    | some v => if d ≤ v.length then some (v.drop d) else none
    | none => none

/-- What a move leaves in the object that was moved from. -/
def hollow (s : St) : Ref → St
  | .ext _ => s
  | .at i d =>
    match (s i).buf with
    | some v => put s i { s i with buf := some (v.take d ++ [0]) }
    | none => s

/-- `disarm`, optional.h:198-200. -/
def disarm (s : St) (i : Nat) : St := put s i { s i with armed := false }

/-- `arm`, optional.h:195-197. -/
def arm (s : St) (i : Nat) : St := put s i { s i with armed := true }

/-- `destruct`, optional.h:211-213. -/
def destruct (s : St) (i : Nat) : Option St :=
  match (s i).buf with
  | some _ => some (put s i { s i with buf := none })
  | none => none

/-- `if (_x) { disarm(); destruct(); }`, optional.h:63-66, 72-75, 97-100. -/
def clear (s : St) (i : Nat) : Option St :=
  if (s i).armed then destruct (disarm s i) i else some s

/-- `construct`, then `arm`, optional.h:37-38, 215-226: the object is read when it is
copied; `mv` is a move. -/
def construct (fails mv : Bool) (s : St) (i : Nat) (r : Ref) : Out :=
  match (s i).buf with
  | some _ => .ub
  | none =>
    match deref s r with
    | none => .ub
    | some v =>
      if fails then .thrown s
      else
        let s1 := if mv then hollow s r else s
        .done (arm (put s1 i { s1 i with buf := some v }) i)

/-- A constructor of the variable that throws leaves no variable. -/
def born (i : Nat) : Out → Out
  | .thrown s => .thrown (put s i { s i with made := false })
  | o => o

/-- The start of a constructor: the memory of the variable, with whatever was in the place
of the flag. -/
def raw (s : St) (i : Nat) : St := put s i { s i with made := true }

/-- `operator=(NullType)`, optional.h:62-68. -/
def setNil (s : St) (i : Nat) : Out :=
  match clear s i with
  | some s' => .done s'
  | none => .ub

/-- `operator=(const T &)` and `operator=(T &&)`, optional.h:70-81, 111-122. -/
def assign (fails mv : Bool) (s : St) (i : Nat) (r : Ref) : Out :=
  if r = .at i 0 then .done s
  else match clear s i with
  | some s' => construct fails mv s' i r
  | none => .ub

/-- The operations. `fails`: the constructor of the value throws. -/
def step (fails : Bool) (s : St) : Op → Out
  /- optional.h:35, 45 -/
  | .newNil i => .done (disarm (raw s i) i)
  /- optional.h:36-39 -/
  | .newVal i r => born i (construct fails false (raw s i) i r)
  /- optional.h:132-135 -/
  | .newMoveVal i r => born i (construct fails true (raw s i) i r)
  /- optional.h:46-53 -/
  | .newCopy i j =>
    if (s j).armed then born i (construct fails false (raw s i) i (.at j 0))
    else .done (disarm (raw s i) i)
  /- optional.h:123-131 -/
  | .newMove i j =>
    if (s j).armed then
      match born i (construct fails true (raw s i) i (.at j 0)) with
      | .done s' => setNil s' j
      | o => o
    else setNil (disarm (raw s i) i) j
  /- optional.h:55-59 -/
  | .del i =>
    match (if (s i).armed then destruct s i else some s) with
    | some s' => .done (put s' i { s' i with made := false })
    | none => .ub
  | .setNil i => setNil s i
  | .setVal i r => assign fails false s i r
  | .setMoveVal i r => assign fails true s i r
  /- optional.h:95-107 -/
  | .setCopy i j =>
    if i = j then .done s
    else match clear s i with
    | some s' => if (s' j).armed then construct fails false s' i (.at j 0) else .done s'
    | none => .ub
  /- optional.h:153-161, 171-188 -/
  | .value i =>
    if (s i).armed then
      match (s i).buf with
      | some v => .val v s
      | none => .ub
    else .null s
  /- optional.h:163-169 -/
  | .isNil i => .bool (!(s i).armed) s

end LS.OptVal

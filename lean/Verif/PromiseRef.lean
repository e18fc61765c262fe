/-!
# Model of the references of `Promise` objects (promise.tcc:563-596, 813-817, promise.h:976-1075)

A `Promise` object is a number, it refers to a future (`ptr`). Futures are numbers.
-/

namespace LS.PromiseRef

structure St where
  /-- live `Promise` objects and their `ptr` -/
  objs : List (Nat × Nat) := []
  /-- `resultRefCnt` of every future -/
  cnt : Nat → Int := fun _ => 0
  /-- futures on which `releaseResultRef` called `cancel()`, in order -/
  canceled : List Nat := []

inductive Op where
  /-- promise.tcc:578-583, 813-817 `Promise(Value *)`, `Promise(const Future &)` -/
  | make (p v : Nat)
  /-- promise.tcc:591-596 copy constructor of `p` from `q` -/
  | copy (p q : Nat)
  /-- promise.tcc:585-589 destructor -/
  | destroy (p : Nat)
  /-- the copy assignment `p = q`; the class declares none (promise.h:976-1075), so the members are
  assigned -/
  | assign (p q : Nat)
deriving Repr

/-- `ptr` of object `p`. -/
def St.ptr (s : St) (p : Nat) : Option Nat := s.objs.lookup p

/-- promise.tcc:563-567 `addResultRef`. -/
def St.add (s : St) (v : Nat) : St := { s with cnt := fun w => if w = v then s.cnt w + 1 else s.cnt w }

/-- promise.tcc:569-575 `releaseResultRef`. -/
def St.release (s : St) (v : Nat) : St :=
  let s := { s with cnt := fun w => if w = v then s.cnt w - 1 else s.cnt w }
  if s.cnt v = 0 then { s with canceled := s.canceled ++ [v] } else s

/-- A new object needs an unused name; other objects must be live. -/
def step (s : St) : Op → Option St
  | .make p v => if (s.ptr p).isSome then none else some (St.add { s with objs := (p, v) :: s.objs } v)
  | .copy p q =>
    if (s.ptr p).isSome then none
    else match s.ptr q with
      | none => none
      | some v => some (St.add { s with objs := (p, v) :: s.objs } v)
  | .destroy p => match s.ptr p with
    | none => none
    | some v => some (St.release { s with objs := s.objs.filter (·.1 ≠ p) } v)
  | .assign p q => match s.ptr p, s.ptr q with
    | some _, some v => some { s with objs := (p, v) :: s.objs.filter (·.1 ≠ p) }
    | _, _ => none

/-- Runs the operations. -/
def run (s : St) : List Op → Option St
  | [] => some s
  | o :: l => match step s o with
    | none => none
    | some s' => run s' l

end LS.PromiseRef

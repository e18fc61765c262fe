/-
Iterators that count: `CountIterator` and `CountWriteIterator`, base/iter/counters.h:19-96, over the sources and targets of
`Verif/IterOps.lean`.

Simplified: the counter is a `natural`, a number below 2^64.
-/
import Verif.IterOps

namespace LS.Counters

open LS.IterOps

/-- Counters are below this. -/
def M : Nat := 2 ^ 64

/-- A counting source, counters.h:52-53. -/
structure Rd where
  src : Src
  cnt : Nat
deriving DecidableEq

/-- `getNext` and `getNextMutable`, counters.h:29-39; `none`: the exception of the source. -/
def Rd.next (c : Rd) : Option (Nat × Rd) :=
  match getNext c.src with
  | none => none
  | some (x, s) => some (x, ⟨s, (c.cnt + 1) % M⟩)

/-- `peek`, counters.h:34. -/
def Rd.peek (c : Rd) : Option Nat := LS.IterOps.peek c.src

/-- `blockRead`, counters.h:40-45: an exception goes by the counter. -/
def Rd.block (c : Rd) (sz : Nat) (all : Bool) : Ans × List Nat × Rd :=
  match blockRead sz all c.src with
  | (.ok n, b, s) => (.ok n, b, ⟨s, (c.cnt + n) % M⟩)
  | (.exn, b, s) => (.exn, b, ⟨s, c.cnt⟩)

/-- A counting target, counters.h:93-94. -/
structure Wr where
  dst : Dst
  cnt : Nat

/-- `write`, counters.h:78-81. -/
def Wr.write (c : Wr) (x : Nat) : Option Wr :=
  match c.dst.write x with
  | none => none
  | some d => some ⟨d, (c.cnt + 1) % M⟩

/-- `blockWrite`, counters.h:82-87. -/
def Wr.block (c : Wr) (all : Bool) (b : List Nat) : Ans × Wr :=
  match blockWrite all b c.dst with
  | (.ok n, d) => (.ok n, ⟨d, (c.cnt + n) % M⟩)
  | (.exn, d) => (.exn, ⟨d, c.cnt⟩)

/-- Reading calls. -/
inductive ROp where
  | next
  | peek
  | block (sz : Nat) (all : Bool)

/-- A reading call: the items, and whether there was an exception. -/
def Rd.op (c : Rd) : ROp → Ans × List Nat × Rd
  | .next =>
    match c.next with
    | none => (.exn, [], c)
    | some (x, c') => (.ok 1, [x], c')
  | .peek => (.ok 0, [], c)
  | .block sz all => c.block sz all

/-- Reading calls one after another: the items, the rest. -/
def Rd.run : List ROp → Rd → List Nat × Rd
  | [], c => ([], c)
  | o :: l, c =>
    let r := c.op o
    let q := Rd.run l r.2.2
    (r.2.1 ++ q.1, q.2)

/-- Writing calls. -/
inductive WOp where
  | write (x : Nat)
  | block (all : Bool) (b : List Nat)

/-- A writing call; an exception leaves the target as it is then. -/
def Wr.op (c : Wr) : WOp → Wr
  | .write x => (c.write x).getD c
  | .block all b => (c.block all b).2

/-- Writing calls one after another. -/
def Wr.run : List WOp → Wr → Wr
  | [], c => c
  | o :: l, c => Wr.run l (c.op o)

end LS.Counters

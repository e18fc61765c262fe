/-
String pools.  base/containers/stringpool.h, base/containers/stringpool.tcc.

The pool is an `AutoArray`; whether an operation moves its block to another address is not fixed here: every operation that may move it carries a flag.  A block has a number, `poolRef` is the number
of the block it points to.  `z` is `StringBase<T>::needZeroChar` (true for `char` and `wchar_t`).
-/
namespace LS.StrPool

abbrev Str := List Nat

/-- `pool`, the address of its block, `poolRef` (stringpool.h:169-170); `none`: without value. -/
structure S where
  pool : Str := []
  blk : Nat := 0
  ref : Option Nat := none
deriving DecidableEq, Repr

/-- `StringPoolStrRef` into the pool (stringpool.h:53-55): offset and length have 32 bits. -/
structure Ref where
  off : Nat
  len : Nat
deriving DecidableEq, Repr

/-- `Bin::natural32(x)` -/
def n32 (x : Nat) : Nat := x % 4294967296

def mkRef (off len : Nat) : Ref := ⟨n32 off, n32 len⟩

/-- Items appended to the pool. -/
def S.grow (s : S) (x : Str) (mv : Bool) : S := { s with pool := s.pool ++ x, blk := if mv then s.blk + 1 else s.blk }

/-- `poolRef = pool.data()` -/
def S.sync (s : S) : S := { s with ref := some s.blk }

/-- The zero behind a string (`writeZeroChar`, constStr.h:41-46). -/
def zero (z : Bool) : Str := if z then [0] else []

/-- `add(ConstStringT)` (stringpool.tcc:19-33) of a text outside of the pool. -/
def S.add (z : Bool) (s : S) (t : Str) (mv : Bool) : S × Ref :=
  if t.length = 0 then (s, mkRef 0 0)
  else ((s.grow (t ++ zero z) mv).sync, mkRef s.pool.length t.length)

/-- The same of a text inside of the pool (stringpool.tcc:22-24), at a position. -/
def S.addInside (s : S) (pos len : Nat) : S × Ref :=
  if len = 0 then (s, mkRef 0 0) else (s, mkRef pos len)

/-- `add(IIterator &)` (stringpool.tcc:73-84). -/
def S.addIter (z : Bool) (s : S) (t : Str) (mv : Bool) : S × Ref :=
  let s' := (s.grow (t ++ zero z) mv).sync
  (s', mkRef s.pool.length (s'.pool.length - s.pool.length))

/-- `add(const IIterator &)` (stringpool.tcc:88-101). -/
def S.addIterC (z : Bool) (s : S) (t : Str) (mv : Bool) : S × Ref :=
  ((s.grow (t ++ zero z) mv).sync, mkRef s.pool.length ((s.pool ++ t).length - s.pool.length))

/-- `fromMark` (stringpool.tcc:36-38). -/
def S.fromMark (s : S) (m : Nat) : Ref := mkRef m (s.pool.length - m)

/-- `clear` (stringpool.tcc:41-44). -/
def S.clear (s : S) : S := S.sync { s with pool := [] }

/-- `freeExtra` (stringpool.tcc:53-56). -/
def S.freeExtra (s : S) (mv : Bool) : S := S.sync (s.grow [] mv)

/-- `release` (stringpool.tcc:64-69). -/
def S.release (s : S) (m : Nat) : S := if m < s.pool.length then S.sync { s with pool := s.pool.take m } else s

/-- `WriteIterator::write` (stringpool.h:155), several times: `poolRef` is not set. -/
def S.writes : S → List (Nat × Bool) → S
  | s, [] => s
  | s, x :: xs => S.writes (s.grow [x.1] x.2) xs

/-- `WriteIterator::finish` (stringpool.tcc:104-115); `start` is `startMark`. -/
def S.finish (z : Bool) (s : S) (start : Nat) (mv : Bool) : S × Ref :=
  ((s.grow (zero z) mv).sync, mkRef start (s.pool.length - start))

/-- Reading a string (stringpool.h:47-48): `none` is undefined, an access through an old or missing address or behind the end. -/
def S.read (s : S) (r : Ref) : Option Str :=
  if r.len = 0 then some []
  else if s.ref = some s.blk ∧ r.off + r.len ≤ s.pool.length then some ((s.pool.drop r.off).take r.len)
  else none

/-- Calls of the owner. -/
inductive Op where
  | add (t : Str) (mv : Bool)
  | addInside (pos len : Nat)
  | addIter (t : Str) (mv : Bool)
  | addIterC (t : Str) (mv : Bool)
  | clear
  | freeExtra (mv : Bool)
  | release (m : Nat)
  /-- a `WriteIterator` with its `write`s and `finish` -/
  | write (xs : List (Nat × Bool)) (mv : Bool)
  /-- a `WriteIterator` with its `write`s, not finished (yet) -/
  | begin (xs : List (Nat × Bool))
deriving DecidableEq, Repr

def S.apply (z : Bool) (s : S) : Op → S × Option Ref
  | .add t mv => let p := s.add z t mv; (p.1, some p.2)
  | .addInside pos len => let p := s.addInside pos len; (p.1, some p.2)
  | .addIter t mv => let p := s.addIter z t mv; (p.1, some p.2)
  | .addIterC t mv => let p := s.addIterC z t mv; (p.1, some p.2)
  | .clear => (s.clear, none)
  | .freeExtra mv => (s.freeExtra mv, none)
  | .release m => (s.release m, none)
  | .write xs mv => let p := (s.writes xs).finish z s.pool.length mv; (p.1, some p.2)
  | .begin xs => (s.writes xs, none)

end LS.StrPool

import Verif.Deque
/-!
# Model of `base/containers/buffer.h` (`ReadBuffer`, `WriteBuffer`)

The device behind a buffer is adversarial: a script says how many items it accepts or delivers in each
call (as many as possible when the script is over).  `buffArr` is an array of fixed length; an access
outside of it is undefined behaviour (`ub`), C++ exceptions are `thrown`.  Positions are unbounded
naturals.  The source calls `expr()` and `size()` of the array, which the present containers do not
have; they are taken as `ref()` and `length()`.
-/

namespace LS.Buffer

variable {α : Type}

/-- Reading of `buffArr[i]`. -/
def rd (b : List α) (i : Nat) : Except Err α :=
  match b[i]? with
  | some v => .ok v
  | none => .error .ub

/-- `buffArr(i) = v`. -/
def wr (b : List α) (i : Nat) (v : α) : Except Err (List α) :=
  if i < b.length then .ok (b.set i v) else .error .ub

/-- buffer.h:354, 414-417: `while (rdpos < wrpos) buffArr(x++) = buffArr[rdpos++];`, with `n` rounds
to go. Returns the array; `x` ends as `x + n`. -/
def compact (b : List α) (x rdpos : Nat) : Nat → Except Err (List α)
  | 0 => .ok b
  | n + 1 => do
    let v ← rd b rdpos
    let b ← wr b x v
    compact b (x + 1) (rdpos + 1) n

/-! ## WriteBuffer -/

/-- The output device: what it accepted so far and how many items it accepts in the coming calls. -/
structure OutDev (α : Type) where
  out : List α := []
  script : List Nat := []
deriving DecidableEq, Repr

/-- `wrIter.blockWrite(block)`: a part of the block is taken. -/
def OutDev.blockWrite (d : OutDev α) (blk : List α) : Nat × OutDev α :=
  match d.script with
  | [] => (blk.length, { d with out := d.out ++ blk })
  | k :: s => ((blk.take k).length, { out := d.out ++ blk.take k, script := s })

/-- buffer.h:277-280. -/
structure WBuf (α : Type) where
  buff : List α
  dev : OutDev α := {}
  rdpos : Nat := 0
  wrpos : Nat := 0
deriving DecidableEq, Repr

/-- buffer.h:435-437 `isEmpty`. -/
def WBuf.isEmpty (s : WBuf α) : Bool := s.rdpos ≥ s.wrpos

/-- buffer.h:440-442 `isFull`. -/
def WBuf.isFull (s : WBuf α) : Bool := s.wrpos ≥ s.buff.length

/-- buffer.h:404-422 `__fastflush`. -/
def WBuf.fastflush (s : WBuf α) (nodatashift : Bool) : Except Err (WBuf α) :=
  if s.isEmpty then .ok { s with rdpos := 0, wrpos := 0 }
  else
    let r := s.dev.blockWrite ((s.buff.take s.wrpos).drop s.rdpos)
    let rdpos := s.rdpos + r.1
    if rdpos = s.wrpos then .ok { s with dev := r.2, rdpos := 0, wrpos := 0 }
    else if nodatashift = false then do
      let b ← compact s.buff 0 rdpos (s.wrpos - rdpos)
      return { buff := b, dev := r.2, rdpos := 0, wrpos := s.wrpos - (s.wrpos - rdpos) }
    else .ok { s with dev := r.2, rdpos := rdpos }

/-- buffer.h:394: `if (isFull()) __fastflush(false);`. -/
def WBuf.room (s : WBuf α) : Except Err (WBuf α) := if s.isFull then s.fastflush false else .ok s

/-- buffer.h:393-396 `write`. -/
def WBuf.write (s : WBuf α) (v : α) : Except Err (WBuf α) := do
  let s ← s.room
  let b ← wr s.buff s.wrpos v
  return { s with buff := b, wrpos := s.wrpos + 1 }

/-- buffer.h:399, the loop of `flush`; it runs out of `fuel` only if the device refuses for ever. -/
def WBuf.flushLoop (s : WBuf α) : Nat → Except Err (WBuf α)
  | 0 => .error .thrown
  | fuel + 1 =>
    if s.isEmpty then .ok s
    else do
      let s ← s.fastflush true
      s.flushLoop fuel

/-- buffer.h:398-401 `flush`. Each round of the loop uses up an entry of the script or empties the
buffer. -/
def WBuf.flush (s : WBuf α) : Except Err (WBuf α) := do
  let s ← s.flushLoop (s.dev.script.length + 2)
  s.fastflush false

/-- buffer.h:444-450 `unwrite`. -/
def WBuf.unwrite (s : WBuf α) : Except Err (α × WBuf α) :=
  if s.wrpos > s.rdpos then do
    let v ← rd s.buff (s.wrpos - 1)
    return (v, { s with wrpos := s.wrpos - 1 })
  else .error .thrown

/-! ## ReadBuffer -/

/-- The input device: the items to come and how many of them it delivers in the coming calls (at least
one); at the end it throws `IteratorNoMoreItems` or, like `SeqFileInput::blockRead` (fileio.h:114-121),
reads nothing. -/
structure InDev (α : Type) where
  src : List α
  script : List Nat := []
  endThrows : Bool := true
deriving DecidableEq, Repr

/-- `rdIter.blockRead(block of n items, false)`; `none` = `IteratorNoMoreItems`. -/
def InDev.blockRead (d : InDev α) (n : Nat) : Option (List α × InDev α) :=
  if d.src.isEmpty then (if d.endThrows then none else some ([], d))
  else
    match d.script with
    | [] => some (d.src.take n, { d with src := d.src.drop n })
    | k :: s => some (d.src.take (min (k + 1) n), { d with src := d.src.drop (min (k + 1) n), script := s })

/-- buffer.h:131-135. -/
structure RBuf (α : Type) where
  buff : List α
  dev : InDev α
  rdpos : Nat := 0
  wrpos : Nat := 0
  noItems : Bool := false
deriving DecidableEq, Repr

/-- buffer.h:370-372 `isEmpty`. -/
def RBuf.isEmpty (s : RBuf α) : Bool := s.rdpos ≥ s.wrpos

/-- Storing of a block at the position `i` of the array. -/
def store (b : List α) (i : Nat) (l : List α) : List α := b.take i ++ l ++ b.drop (i + l.length)

/-- buffer.h:361-367, the part of `load` with free space. The flag says that `IteratorNoMoreItems`
leaves the function. -/
def RBuf.loadTail (s : RBuf α) : Bool × RBuf α :=
  match s.dev.blockRead (s.buff.length - s.wrpos) with
  | some (l, d) =>
    (false, { s with buff := store s.buff s.wrpos l, dev := d, wrpos := s.wrpos + l.length, noItems := false })
  | none => (s.isEmpty, s)

/-- buffer.h:349-368 `load`. The recursion at 357 is the part with free space: the compaction at
354-356 left `wrpos < length`. -/
def RBuf.load (s : RBuf α) : Except Err (Bool × RBuf α) :=
  if s.buff.length - s.wrpos = 0 then
    if s.rdpos = 0 then .ok (false, s)
    else do
      let b ← compact s.buff 0 s.rdpos (s.wrpos - s.rdpos)
      return RBuf.loadTail { s with buff := b, rdpos := 0, wrpos := s.wrpos - s.rdpos }
  else .ok s.loadTail

/-- buffer.h:317, 323: `if (isEmpty()) load();`. -/
def RBuf.fill (s : RBuf α) : Except Err (Bool × RBuf α) := if s.isEmpty then s.load else .ok (false, s)

/-- buffer.h:316-319 `getNext`; no item = `IteratorNoMoreItems`. -/
def RBuf.getNext (s : RBuf α) : Except Err (Option α × RBuf α) := do
  let r ← s.fill
  if r.1 then .ok (none, r.2)
  else do
    let v ← rd r.2.buff r.2.rdpos
    return (some v, { r.2 with rdpos := r.2.rdpos + 1 })

/-- buffer.h:322-325 `peek`. -/
def RBuf.peek (s : RBuf α) : Except Err (Option α × RBuf α) := do
  let r ← s.fill
  if r.1 then .ok (none, r.2)
  else do
    let v ← rd r.2.buff r.2.rdpos
    return (some v, r.2)

/-- buffer.h:328-338 `hasItems`. -/
def RBuf.hasItems (s : RBuf α) : Except Err (Bool × RBuf α) :=
  if s.isEmpty then
    if s.noItems then .ok (false, s)
    else do
      let r ← s.load
      if r.1 then return (!r.2.isEmpty, { r.2 with noItems := true })
      else return (!r.2.isEmpty, r.2)
  else .ok (true, s)

/-- buffer.h:375-381 `unget(item)`. -/
def RBuf.unget (s : RBuf α) (v : α) : Except Err (RBuf α) :=
  if s.rdpos > 0 then do
    let b ← wr s.buff (s.rdpos - 1) v
    return { s with buff := b, rdpos := s.rdpos - 1 }
  else .error .thrown

/-- buffer.h:384-390 `unget()`. -/
def RBuf.ungetLast (s : RBuf α) : Except Err (RBuf α) :=
  if s.rdpos > 0 then .ok { s with rdpos := s.rdpos - 1 } else .error .thrown

/-- buffer.h:341-344, 453-455 `getRemain`, `getBufferRemain`. -/
def RBuf.getRemain (s : RBuf α) : Nat := s.wrpos - s.rdpos

/-- buffer.h:468-470, the loop of `peek(n)`; `none` = still running after `fuel` rounds. -/
def RBuf.peekLoop (s : RBuf α) (n : Nat) : Nat → Option (Except Err (RBuf α))
  | 0 => none
  | fuel + 1 =>
    if n ≥ s.getRemain then
      match s.load with
      | .ok (false, s) => s.peekLoop n fuel
      | .ok (true, _) => some (.error .thrown)
      | .error e => some (.error e)
    else some (.ok s)

/-- buffer.h:464-472 `peek(n)`. -/
def RBuf.peekAt (s : RBuf α) (n fuel : Nat) : Option (Except Err (α × RBuf α)) :=
  if n ≥ s.buff.length then some (.error .thrown)
  else
    match s.peekLoop n fuel with
    | none => none
    | some (.error e) => some (.error e)
    | some (.ok s) =>
      match rd s.buff n with
      | .ok v => some (.ok (v, s))
      | .error e => some (.error e)

end LS.Buffer

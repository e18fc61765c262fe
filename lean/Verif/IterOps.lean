/-
What every iterator inherits: the default operations of `IteratorBase` and `WriteIteratorBase`, base/iter/iterator.h:422-610,
and `IteratorLimiterBase`, base/iter/limiter.h:7-133.

Simplified: items are numbers. A source is the list of its items; `none` stands for an item that `getNext` cannot give: it
throws and the source stays. A target has what was written, the room that is left and a test of acceptable items; writing
without room throws. Buffers are the lists of what was put into them. `limit` is `none` for `naturalNull`. The block
operations of the limiter (limiter.h:38-47, 91-100) do not compile when they are used (a temporary for `FlatArray &`,
`blockRead` called with two arguments) and are not modelled.
-/

namespace LS.IterOps

/-- A source. -/
abbrev Src := List (Option Nat)

/-- A target. -/
structure Dst where
  out : List Nat
  room : Nat
  ok : Nat → Bool

/-- The result of an operation, or an exception. -/
inductive Ans where
  | ok (n : Nat)
  | exn
deriving DecidableEq

/-- `getNext` of a source. -/
def getNext : Src → Option (Nat × Src)
  | some x :: s => some (x, s)
  | _ => none

/-- `write` of a target. -/
def Dst.write (d : Dst) (x : Nat) : Option Dst :=
  if d.room = 0 then none else some { d with out := d.out ++ [x], room := d.room - 1 }

/-- `hasItems` of a target. -/
def Dst.has (d : Dst) : Bool := d.room != 0

/-- The loop of `blockRead`, iterator.h:446-454: `sz` is what is left of the buffer, `rd` what was read. Gives whether an
exception goes on, the items, the rest. -/
def readLoop (all : Bool) : Nat → Nat → Src → Bool × List Nat × Src
  | 0, _, s => (false, [], s)
  | sz + 1, rd, s =>
    if s.isEmpty then (false, [], s)
    else match getNext s with
    | none => (rd == 0 || all, [], s)
    | some (x, s') =>
      let r := readLoop all sz (rd + 1) s'
      (r.1, x :: r.2.1, r.2.2)

/-- `blockRead`, iterator.h:441-459. -/
def blockRead (sz : Nat) (all : Bool) (s : Src) : Ans × List Nat × Src :=
  if sz = 0 then (.ok 0, [], s)
  else
    let r := readLoop all sz 0 s
    if r.1 then (.exn, r.2.1, r.2.2)
    else if all && r.2.1.length != sz then (.exn, r.2.1, r.2.2)
    else (.ok r.2.1.length, r.2.1, r.2.2)

/-- Is `count < limit`? -/
def under (count : Nat) : Option Nat → Bool
  | none => true
  | some l => count < l

/-- The loop of `copy`, iterator.h:534-537. -/
def copyLoop (limit : Option Nat) : Nat → Nat → Src → Dst → Ans × Src × Dst
  | 0, count, s, d => (.ok count, s, d)
  | f + 1, count, s, d =>
    if under count limit && !s.isEmpty && d.has then
      match getNext s with
      | none => (.exn, s, d)
      | some (x, s') =>
        match d.write x with
        | none => (.exn, s', d)
        | some d' => copyLoop limit f (count + 1) s' d'
    else (.ok count, s, d)

/-- `copy`, iterator.h:532-539. Every turn takes an item of the source. -/
def copy (limit : Option Nat) (s : Src) (d : Dst) : Ans × Src × Dst := copyLoop limit (s.length + 1) 0 s d

/-- `peek` of a source. -/
def peek : Src → Option Nat
  | some x :: _ => some x
  | _ => none

/-- `canAccept` of a target; the default is `hasItems`, iterator.h:526-529. -/
def Dst.canAccept (d : Dst) (x : Nat) : Bool := d.has && d.ok x

/-- The loop of `copyAccepted`, iterator.h:561-565. -/
def acceptLoop (limit : Option Nat) : Nat → Nat → Src → Dst → Ans × Src × Dst
  | 0, count, s, d => (.ok count, s, d)
  | f + 1, count, s, d =>
    if under count limit && !s.isEmpty then
      match peek s with
      | none => (.exn, s, d)
      | some y =>
        if d.canAccept y then
          match getNext s with
          | none => (.exn, s, d)
          | some (x, s') =>
            match d.write x with
            | none => (.exn, s', d)
            | some d' => acceptLoop limit f (count + 1) s' d'
        else (.ok count, s, d)
    else (.ok count, s, d)

/-- `copyAccepted`, iterator.h:559-567. -/
def copyAccepted (limit : Option Nat) (s : Src) (d : Dst) : Ans × Src × Dst := acceptLoop limit (s.length + 1) 0 s d

/-- The loop of `blockWrite`, iterator.h:575-578: the number of items written, the target; `none` is an exception of `write`,
which does not come after `hasItems`. -/
def writeLoop : List Nat → Nat → Dst → Option (Nat × Dst)
  | [], wr, d => some (wr, d)
  | x :: b, wr, d =>
    if d.has then
      match d.write x with
      | none => none
      | some d' => writeLoop b (wr + 1) d'
    else some (wr, d)

/-- `blockWrite`, iterator.h:570-582. -/
def blockWrite (all : Bool) (b : List Nat) (d : Dst) : Ans × Dst :=
  match writeLoop b 0 d with
  | none => (.exn, d)
  | some (wr, d') => if wr != b.length && all then (.exn, d') else (.ok wr, d')

/-- How much one turn of `blockCopy` reads, iterator.h:550. -/
def toread (buf : Nat) : Option Nat → Nat
  | none => buf
  | some l => if buf < l then buf else l

/-- The loop of `blockCopy`, iterator.h:549-555. The counter is never changed. -/
def blockLoop (buf : Nat) : Nat → Option Nat → Nat → Src → Dst → Ans × Src × Dst
  | 0, _, count, s, d => (.ok count, s, d)
  | f + 1, limit, count, s, d =>
    if limit = some 0 then (.ok count, s, d)
    else
      match blockRead (toread buf limit) false s with
      | (.exn, _, s') => (.exn, s', d)
      | (.ok 0, _, s') => (.ok count, s', d)
      | (.ok (rd + 1), b, s') =>
        match blockWrite true b d with
        | (.exn, d') => (.exn, s', d')
        | (.ok _, d') => blockLoop buf f (limit.map (· - (rd + 1))) count s' d'

/-- `blockCopy`, iterator.h:546-557. -/
def blockCopy (buf : Nat) (limit : Option Nat) (s : Src) (d : Dst) : Ans × Src × Dst :=
  blockLoop buf (s.length + 1) limit 0 s d

/-- A limiter of a source, limiter.h:104-105. -/
structure Lim where
  src : Src
  count : Nat
deriving DecidableEq

/-- The skipping of the constructor, limiter.h:16-19; `none`: `skip` throws. -/
def skips : Nat → Src → Option Src
  | 0, s => some s
  | n + 1, s =>
    if s.isEmpty then some s
    else match getNext s with
    | none => none
    | some (_, s') => skips n s'

/-- The constructor, limiter.h:15-20. The argument has the name of the member: when `Iter` is a value it is the argument that
is moved, when it is a reference both are the same. -/
def Lim.new (ref : Bool) (s : Src) (count off : Nat) : Option Lim :=
  match skips off s with
  | none => none
  | some s' => some ⟨if ref then s' else s, count⟩

/-- `hasItems`, limiter.h:22. -/
def Lim.has (l : Lim) : Bool := decide (0 < l.count) && !l.src.isEmpty

/-- `getRemain`, limiter.h:23-26, of a source that knows the number of its items. -/
def Lim.remain (l : Lim) : Nat := if l.src.length < l.count then l.src.length else l.count

/-- `getNext`, limiter.h:27-32; `none` is an exception. `skip` (49-53) is the same without the item. -/
def Lim.next (l : Lim) : Option (Nat × Lim) :=
  if l.count = 0 then none
  else match getNext l.src with
  | none => none
  | some (x, s) => some (x, ⟨s, l.count - 1⟩)

/-- `peek`, limiter.h:34-37. -/
def Lim.peek (l : Lim) : Option Nat := if l.count = 0 then none else LS.IterOps.peek l.src

/-- Reads while there are items: `while (i.hasItems()) i.getNext()`. -/
def Lim.all : Nat → Lim → List Nat × Lim
  | 0, l => ([], l)
  | f + 1, l =>
    if l.has then
      match l.next with
      | none => ([], l)
      | some (x, l') => (x :: (Lim.all f l').1, (Lim.all f l').2)
    else ([], l)

/-- A limiter of a target. -/
structure WLim where
  dst : Dst
  count : Nat

/-- `write`, limiter.h:67-71. -/
def WLim.write (w : WLim) (x : Nat) : Option WLim :=
  if w.count = 0 then none else (w.dst.write x).map (fun d => ⟨d, w.count - 1⟩)

/-- `hasItems`, limiter.h:22. -/
def WLim.has (w : WLim) : Bool := decide (0 < w.count) && w.dst.has

/-- `canAccept`, limiter.h:72-74: the count is not asked. -/
def WLim.canAccept (w : WLim) (x : Nat) : Bool := w.dst.canAccept x

/-- `limit > count`. -/
def cap (limit : Option Nat) (count : Nat) : Nat :=
  match limit with
  | none => count
  | some l => if count < l then count else l

/-- `copy`, limiter.h:76-82. -/
def WLim.copy (w : WLim) (limit : Option Nat) (s : Src) : Ans × Src × WLim :=
  match LS.IterOps.copy (some (cap limit w.count)) s w.dst with
  | (.ok n, s', d) => (.ok n, s', ⟨d, w.count - n⟩)
  | (.exn, s', d) => (.exn, s', ⟨d, w.count⟩)

/-- `copyAccepted`, limiter.h:84-90. -/
def WLim.copyAccepted (w : WLim) (limit : Option Nat) (s : Src) : Ans × Src × WLim :=
  match LS.IterOps.copyAccepted (some (cap limit w.count)) s w.dst with
  | (.ok n, s', d) => (.ok n, s', ⟨d, w.count - n⟩)
  | (.exn, s', d) => (.exn, s', ⟨d, w.count⟩)

end LS.IterOps

import Verif.Buffer
/-!
# Model of `base/streams/fileiobuff.{h,tcc}` (`IOBuffer`)

One array serves as the buffer of both directions: the bytes `[rdpos, rdend)` were read from the
source and not yet delivered, the bytes `[wrbeg, wrpos)` were accepted and not yet written to the
target.  The streams behind the buffer are adversarial: scripts say how many bytes they transfer in
each call, and the target may close itself at any time (it then accepts nothing more).  An access
outside of the array is undefined behaviour (`ub`).  `natural` subtraction wraps (`wsub`).  Not
modelled: exceptions of the streams, `autoflush` (taken as nil), the null checks of `targetIn` and
`targetOut` (both streams are present).
-/

namespace LS.IOBuffer

open LS.Buffer (store)

variable {α : Type}

/-- Subtraction of the type `natural` (64 bits). -/
def wsub (a b : Nat) : Nat := if b ≤ a then a - b else a + 2 ^ 64 - b

/-- The source and the target, with a log: how many bytes the target had when the source was asked. -/
structure Dev (α : Type) where
  src : List α := []
  rscript : List Nat := []
  ready : List Bool := []
  out : List α := []
  wscript : List Nat := []
  log : List Nat := []
deriving DecidableEq, Repr

/-- fileio_ifc.h:30-80 `IInputStream::read`: up to `n` bytes, at least one unless the end is reached. -/
def Dev.read (d : Dev α) (n : Nat) : List α × Dev α :=
  match d.rscript with
  | [] => (d.src.take n, { d with src := d.src.drop n, log := d.log ++ [d.out.length] })
  | k :: s => (d.src.take (min (k + 1) n), { d with src := d.src.drop (min (k + 1) n), rscript := s, log := d.log ++ [d.out.length] })

/-- `IInputStream::dataReady`, any answer (`true` = not zero). -/
def Dev.dataReady (d : Dev α) : Bool × Dev α :=
  match d.ready with
  | [] => (false, d)
  | b :: s => (b, { d with ready := s })

/-- fileio_ifc.h:112-121 `IOutputStream::write`: a part of the block; nothing when the target is
closed (zero in the script, it stays there). -/
def Dev.write (d : Dev α) (l : List α) : Nat × Dev α :=
  match d.wscript with
  | [] => (l.length, { d with out := d.out ++ l })
  | 0 :: _ => (0, d)
  | (k + 1) :: s => ((l.take (k + 1)).length, { d with out := d.out ++ l.take (k + 1), wscript := s })

/-- fileio_ifc.h:175-184 `writeAll`; every round shortens the block. -/
def Dev.writeAllLoop (d : Dev α) (l : List α) : Nat → Nat × Dev α
  | 0 => (0, d)
  | fuel + 1 =>
    if l.length = 0 then (0, d)
    else
      let r := d.write l
      if r.1 = 0 then (0, r.2)
      else
        let q := r.2.writeAllLoop (l.drop r.1) fuel
        (r.1 + q.1, q.2)

def Dev.writeAll (d : Dev α) (l : List α) : Nat × Dev α := d.writeAllLoop l l.length

/-- fileiobuff.h:198-221. -/
structure IOBuf (α : Type) where
  buff : List α
  dev : Dev α
  rdpos : Nat
  wrpos : Nat
  rdend : Nat
  wrbeg : Nat
  eof : Bool := false
  outputClosed : Bool := false
  writeReserve : Nat := 0
deriving DecidableEq, Repr

/-- `bufferSize`. -/
def IOBuf.size (s : IOBuf α) : Nat := s.buff.length

/-- fileiobuff.tcc:26-27, the constructor for both directions. -/
def IOBuf.new (buff : List α) (dev : Dev α) : IOBuf α :=
  { buff := buff, dev := dev, rdpos := buff.length, wrpos := 0, rdend := buff.length, wrbeg := 0 }

/-- `memcpy` out of the buffer. -/
def fromBuf (b : List α) (i n : Nat) : Except Err (List α) :=
  if i + n ≤ b.length then .ok ((b.drop i).take n) else .error .ub

/-- `memcpy` into the buffer. -/
def toBuf (b : List α) (i : Nat) (l : List α) : Except Err (List α) :=
  if i + l.length ≤ b.length then .ok (store b i l) else .error .ub

/-- fileiobuff.tcc:254-263 `adjustWritePos`. -/
def IOBuf.adjustWritePos (s : IOBuf α) : IOBuf α :=
  if s.rdend > s.rdpos ∧ wsub s.size s.rdend > s.rdpos then { s with wrbeg := s.rdend, wrpos := s.rdend }
  else { s with wrbeg := 0, wrpos := 0 }

/-- fileiobuff.tcc:239-251 `intFlush`. -/
def IOBuf.intFlush (s : IOBuf α) : Except Err (IOBuf α) :=
  if s.wrpos > s.wrbeg then do
    let l ← fromBuf s.buff s.wrbeg (s.wrpos - s.wrbeg)
    let r := s.dev.writeAll l
    return IOBuf.adjustWritePos { s with dev := r.2, outputClosed := s.outputClosed || r.1 == 0 }
  else .ok s

/-- fileiobuff.tcc:71-79, `intFetch` from the setup of the pointers on. -/
def IOBuf.fetchHead (s : IOBuf α) : Except Err (IOBuf α) := do
  let r := s.dev.read (s.size - s.writeReserve)
  let b ← toBuf s.buff s.writeReserve r.1
  return IOBuf.adjustWritePos { s with buff := b, dev := r.2, rdpos := s.writeReserve, rdend := s.writeReserve + r.1.length, eof := r.1.length == 0 }

/-- fileiobuff.tcc:63-80 `intFetch`. -/
def IOBuf.intFetch (s : IOBuf α) : Except Err (IOBuf α) :=
  if s.eof then .ok s
  else do
    let s ← s.intFlush
    s.fetchHead

/-- fileiobuff.tcc:39-47, the delivery of buffered bytes. -/
def IOBuf.deliver (s : IOBuf α) (n : Nat) : Except Err (List α × IOBuf α) := do
  let k := min (s.rdend - s.rdpos) n
  let l ← fromBuf s.buff s.rdpos k
  return (l, { s with rdpos := s.rdpos + k })

/-- fileiobuff.tcc:35-59 `read`. The recursion at 57 finds either data or the end. -/
def IOBuf.read (s : IOBuf α) (n : Nat) : Except Err (List α × IOBuf α) :=
  if s.rdpos < s.rdend then s.deliver n
  else if s.eof then .ok ([], s)
  else do
    let s ← s.intFetch
    if s.rdpos < s.rdend then s.deliver n else .ok ([], s)

/-- fileiobuff.tcc:83-85 `getWriteSpace`. -/
def IOBuf.getWriteSpace (s : IOBuf α) : Nat :=
  wsub (if s.wrbeg < s.rdpos ∧ s.rdpos < s.rdend then s.rdpos else s.size) s.wrpos

/-- fileiobuff.tcc:102, 109: the write goes straight to the target. -/
def IOBuf.direct (s : IOBuf α) (l : List α) : Nat × IOBuf α :=
  let r := s.dev.write l
  (r.1, { s with dev := r.2 })

/-- fileiobuff.tcc:106-119, `write` with space in the buffer. -/
def IOBuf.writeSome (s : IOBuf α) (l : List α) (sp : Nat) : Except Err (Nat × IOBuf α) :=
  if s.wrpos = s.wrbeg ∧ sp ≤ l.length then .ok (s.direct l)
  else do
    let b ← toBuf s.buff s.wrpos (l.take sp)
    return ((l.take sp).length, { s with buff := b, wrpos := s.wrpos + (l.take sp).length })

/-- fileiobuff.tcc:88-120 `write`, without the repetition. -/
def IOBuf.writeOnce (s : IOBuf α) (l : List α) : Except Err (Nat × IOBuf α) :=
  if s.getWriteSpace = 0 then .ok (s.direct l) else s.writeSome l s.getWriteSpace

/-- fileiobuff.tcc:88-120 `write`. After the flush at 97 nothing is left to be flushed. -/
def IOBuf.write (s : IOBuf α) (l : List α) : Except Err (Nat × IOBuf α) :=
  if s.getWriteSpace = 0 ∧ s.wrpos > s.wrbeg then do
    let s ← s.intFlush
    s.writeOnce l
  else s.writeOnce l

/-- fileiobuff.tcc:135-143, the move in `fetch`. -/
def IOBuf.moveDown (s : IOBuf α) : Except Err (IOBuf α) :=
  if s.rdend = s.size then do
    let l ← fromBuf s.buff s.rdpos (s.rdend - s.rdpos)
    let b ← toBuf s.buff 0 l
    return { s with buff := b, rdpos := 0, rdend := s.rdend - s.rdpos }
  else .ok s

/-- fileiobuff.tcc:145-155, the reading in `fetch`. -/
def IOBuf.fetchTail (s : IOBuf α) : Except Err (Nat × IOBuf α) := do
  let r := s.dev.read (s.size - s.rdend)
  let b ← toBuf s.buff s.rdend r.1
  let s := IOBuf.adjustWritePos { s with buff := b, dev := r.2, rdend := s.rdend + r.1.length }
  return (r.1.length, { s with eof := s.eof || r.1.length == 0 })

/-- fileiobuff.tcc:123-156 `fetch`. -/
def IOBuf.fetch (s : IOBuf α) : Except Err (Nat × IOBuf α) :=
  if s.eof then .ok (0, s)
  else do
    let s ← s.intFlush
    if s.rdend = s.size ∧ s.rdpos = 0 then .ok (0, s)
    else do
      let s ← s.moveDown
      s.fetchTail

/-- fileiobuff.tcc:170-177, the loop of `peek`; `av` is its `s`. It runs out of `fuel` only when `fetch`
brings nothing or more than asked for. -/
def IOBuf.peekLoop (s : IOBuf α) (n av : Nat) : Nat → Except Err (Nat × IOBuf α)
  | 0 => .ok (av, s)
  | fuel + 1 =>
    if av < n then
      let r := if av = 0 then (true, s.dev) else s.dev.dataReady
      if r.1 then do
        let q ← IOBuf.fetch { s with dev := r.2 }
        if q.1 = 0 then .ok (av, q.2) else q.2.peekLoop n (av + q.1) fuel
      else .ok (av, { s with dev := r.2 })
    else .ok (av, s)

/-- fileiobuff.tcc:210-225 `canRead`. -/
def IOBuf.canRead (s : IOBuf α) : Except Err (Bool × IOBuf α) :=
  if s.rdpos < s.rdend then .ok (true, s)
  else if s.eof then .ok (false, s)
  else do
    let s ← s.intFetch
    return (!s.eof, s)

/-- fileiobuff.tcc:167-184 `peek` of a positive count. -/
def IOBuf.peek (s : IOBuf α) (n : Nat) : Except Err (List α × IOBuf α) := do
  let r ← s.peekLoop n (s.rdend - s.rdpos) (n + 1)
  let l ← fromBuf r.2.buff r.2.rdpos (min r.1 n)
  return (l, r.2)

/-- fileiobuff.tcc:162-165 `peek` of zero bytes: it returns a number. -/
def IOBuf.peek0 (s : IOBuf α) : Except Err (Nat × IOBuf α) := do
  let r ← s.canRead
  return (if r.1 then wsub r.2.rdpos r.2.rdend else 0, r.2)

/-- fileiobuff.tcc:233-236 `flush`. -/
def IOBuf.flush (s : IOBuf α) : Except Err (IOBuf α) := s.intFlush

/-- fileiobuff.tcc:296-300, the flush in `putBack`. -/
def IOBuf.putFlush (s : IOBuf α) (n : Nat) : Except Err (IOBuf α) :=
  if s.wrpos < s.rdpos ∧ s.wrpos + n > s.rdpos then s.intFlush else .ok s

/-- fileiobuff.tcc:288-313 `putBack`; false = `WriteIteratorNoSpace`. -/
def IOBuf.putBack (s : IOBuf α) (l : List α) : Except Err (Bool × IOBuf α) :=
  if s.size - (s.rdend - s.rdpos) < l.length then .ok (false, s)
  else if s.rdpos > l.length then do
    let s ← s.putFlush l.length
    let b ← toBuf s.buff (s.rdpos - l.length) l
    return (true, { s with buff := b, rdpos := s.rdpos - l.length })
  else .ok (false, s)

/-- fileiobuff.tcc:328-331 `reserveWrite`. -/
def IOBuf.reserveWrite (s : IOBuf α) (n : Nat) : IOBuf α := { s with writeReserve := min n (s.size / 2) }

/-- fileiobuff.h:172-176 `discardInput`. -/
def IOBuf.discardInput (s : IOBuf α) (n : Nat) : IOBuf α :=
  { s with rdpos := s.rdpos + min n (s.rdend - s.rdpos) }

/-- fileiobuff.h:184-187 `discardOutput`. -/
def IOBuf.discardOutput (s : IOBuf α) (n : Nat) : IOBuf α :=
  if n > s.wrpos - s.wrbeg then { s with wrpos := s.wrbeg } else { s with wrpos := s.wrpos - n }

end LS.IOBuffer

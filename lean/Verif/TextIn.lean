/-
Model of the line reader (base/text/textLineReader.h), of the look-ahead buffer
(base/text/textInBuffer.{h,tcc}) and of `TextIn::readLine` (base/text/textIn.h).

Characters are numbers, the source iterator is the list of characters not read yet.  Simplified:
buffers have no limit (`StdAlloc`), the source does not throw, positions stay below 2^64.
-/
namespace LS.TextIn

/-- Outcome of a call. -/
inductive R (α : Type) where
  | ok (a : α)
  /-- `IteratorNoMoreItems` -/
  | thrown
  /-- an item outside of an array -/
  | ub
deriving DecidableEq, Repr

/-! ## TextLineReader -/

/-- `buffer.tail(n)` (arrayt.h:289-292). -/
def tail (l : List Nat) (n : Nat) : List Nat :=
  let n := if n > l.length then l.length else n
  l.drop (l.length - n)

/-- Members (textLineReader.h:45-50); `tmp` is the buffer whenever it is used. -/
structure Reader where
  src : List Nat
  buffer : List Nat := []
  needFetch : Bool := true
deriving DecidableEq, Repr

/-- The loop of `fetchLine` (textLineReader.h:62-70): new buffer and rest of the source. -/
def fetchLoop (sep : List Nat) : List Nat → List Nat → List Nat × List Nat
  | b, [] => (b, [])
  | b, ch :: src =>
    let b := b ++ [ch]
    if tail b sep.length = sep then (b.take (b.length - sep.length), src)
    else fetchLoop sep b src

/-- `fetchLine` (textLineReader.h:57-80). -/
def Reader.fetchLine (sep : List Nat) (s : Reader) : Bool × Reader :=
  if s.needFetch then
    if s.src ≠ [] then
      let (b, r) := fetchLoop sep [] s.src
      (true, ⟨r, b, false⟩)
    else (false, s)
  else (true, s)

/-- `hasItems` (textLineReader.h:83-86). -/
def Reader.hasItems (sep : List Nat) (s : Reader) : Bool × Reader := s.fetchLine sep

/-- `getNext` (textLineReader.h:89-96). -/
def Reader.getNext (sep : List Nat) (s : Reader) : R (List Nat × Reader) :=
  let (ok, s) := s.fetchLine sep
  if ok then .ok (s.buffer, { s with needFetch := true }) else .thrown

/-- `peek` (textLineReader.h:99-105). -/
def Reader.peek (sep : List Nat) (s : Reader) : R (List Nat × Reader) :=
  let (ok, s) := s.fetchLine sep
  if ok then .ok (s.buffer, s) else .thrown

/-! ## TextInBuffer -/

/-- Members (textInBuffer.h:132-135): `cc` is `commitCounter`, `cp` is `commitPos`. -/
structure Buf where
  buf : List Nat := []
  src : List Nat
  cc : Nat := 0
  cp : Nat := 0
deriving DecidableEq, Repr

/-- `TextInBuffer::Iterator` (textInBuffer.h:53-56). -/
structure It where
  pos : Nat
  automark : Bool
deriving DecidableEq, Repr

/-- `preload` (textInBuffer.tcc:46-53): items move from the source to the buffer. -/
def preloadLoop (n : Nat) : List Nat → List Nat → List Nat × List Nat
  | b, [] => (b, [])
  | b, x :: src => if b.length < n + 1 then preloadLoop n (b ++ [x]) src else (b, x :: src)

def Buf.preload (s : Buf) (n : Nat) : Buf :=
  { s with buf := (preloadLoop n s.buf s.src).1, src := (preloadLoop n s.buf s.src).2 }

/-- `absPos` (textInBuffer.h:58-61). -/
def absPos (s : Buf) (i : It) : Nat := if i.pos < s.cc then 0 else i.pos - s.cc

/-- `mark` (textInBuffer.tcc:36-44). -/
def Buf.mark (s : Buf) (i : It) : Buf := if i.pos < s.cc then { s with cp := 0 } else { s with cp := i.pos - s.cc }

/-- `commit()` (textInBuffer.tcc:28-34). -/
def Buf.commit (s : Buf) : Buf := { s with buf := s.buf.drop s.cp, cc := s.cc + s.cp, cp := 0 }

/-- `commit(pos)` (textInBuffer.tcc:21-26). -/
def Buf.commitAt (s : Buf) (i : It) : Buf := (s.mark i).commit

/-- `getFwIter` (textInBuffer.h:113-124). -/
def Buf.iter (s : Buf) (automark : Bool) : It := ⟨s.cc, automark⟩

/-- `Iterator::getNext` (textInBuffer.tcc:55-65): the test lets `avail = absp` pass. -/
def itNext (s : Buf) (i : It) : R (Nat × It × Buf) :=
  let absp := absPos s i
  let s := s.preload absp
  if s.buf.length < absp then .thrown
  else
    let i := { i with pos := i.pos + 1 }
    let s := if i.automark then s.mark i else s
    match s.buf[absp]? with
    | some x => .ok (x, i, s)
    | none => .ub

/-- `Iterator::peek` (textInBuffer.tcc:66-74). -/
def itPeek (s : Buf) (i : It) : R (Nat × Buf) :=
  let absp := absPos s i
  let s := s.preload absp
  if s.buf.length ≤ absp then .thrown
  else match s.buf[absp]? with
    | some x => .ok (x, s)
    | none => .ub

/-- `Iterator::hasItems` (textInBuffer.tcc:75-81). -/
def itHas (s : Buf) (i : It) : Bool :=
  let absp := absPos s i
  if s.buf.length > absp then true
  else if s.buf.length = absp then !s.src.isEmpty else false

/-- `hasItems` of the buffer (textInBuffer.h:130), `getCharCount` (133). -/
def Buf.hasItems (s : Buf) : Bool := !s.buf.isEmpty || !s.src.isEmpty
def Buf.charCount (s : Buf) : Nat := s.cc

/-! ## TextIn -/

/-- The loop of `peekLine` (textIn.h:151-166); the number is the limit of rounds.  Result: the line, `hasdata`, the buffer. -/
def lineLoop (nl : List Nat) : Nat → Buf → It → List Nat → Nat → Bool → R (Bool × List Nat × Buf)
  | 0, _, _, _, _, _ => .ub
  | f + 1, s, i, data, nlpos, has =>
    if itHas s i then
      match itNext s i with
      | .ok (item, i, s) =>
        match nl[nlpos]? with
        | none => .ub
        | some c =>
          if c = item then
            if nlpos + 1 = nl.length then .ok (true, data, s)
            else lineLoop nl f s i data (nlpos + 1) true
          else if nlpos > 0 then lineLoop nl f s i (data ++ nl.take nlpos ++ [item]) 0 true
          else lineLoop nl f s i (data ++ [item]) nlpos true
      | .thrown => .thrown
      | .ub => .ub
    else .ok (has, data, s)

/-- `peekLine` (textIn.h:145-169). -/
def peekLine (nl : List Nat) (s : Buf) : R (Bool × List Nat × Buf) :=
  lineLoop nl (s.buf.length + s.src.length + 1) s (s.iter true) [] 0 false

/-- `readLine` (textIn.h:176-180). -/
def readLine (nl : List Nat) (s : Buf) : R (Bool × List Nat × Buf) :=
  match peekLine nl s with
  | .ok (h, d, s) => .ok (h, d, s.commit)
  | .thrown => .thrown
  | .ub => .ub

/-- `getNext` of `TextIn` (textIn.h:119-124). -/
def getNext (s : Buf) : R (Nat × Buf) :=
  match itNext s (s.iter true) with
  | .ok (x, _, s) => .ok (x, s.commit)
  | .thrown => .thrown
  | .ub => .ub

end LS.TextIn

/-
Model of `MemFile` and `MemFileStr` (base/streams/memfile.{h,tcc,cpp}): a file in memory.

A byte is `some b`, or `none` when it was never written (gap made by `resize`).
Simplified: allocation does not fail; buffers of the caller are large enough.
-/
namespace LS.MemFile

abbrev Byte := Option Nat

/-- `memcpy` from the buffer; `none`: outside of it (undefined behaviour). -/
def load (buf : List Byte) (p n : Nat) : Option (List Byte) :=
  if p + n ≤ buf.length then some ((buf.drop p).take n) else none

/-- Overwrites from the beginning. -/
def over : List Byte → List Nat → List Byte
  | buf, [] => buf
  | [], d => d.map some
  | _ :: buf, x :: d => some x :: over buf d

/-- `memcpy` to the buffer. -/
def store (buf : List Byte) (p : Nat) (d : List Nat) : Option (List Byte) :=
  if p + d.length ≤ buf.length then some (buf.take p ++ over (buf.drop p) d) else none

/-- `filebuffer.resize(n)`. -/
def resize (buf : List Byte) (n : Nat) : List Byte := buf.take n ++ List.replicate (n - buf.length) none

/-- Members (memfile.h:54-58); `append = none`: not set yet, the constructor (37) does not. -/
structure Mem where
  buf : List Byte := []
  pos : Nat := 0
  append : Option Bool := none
  readOnly : Bool := false

/-- Addition of `natural` numbers. -/
def add (a b : Nat) : Nat := if a + b < 2 ^ 64 then a + b else a + b - 2 ^ 64

/-- Subtraction. -/
def sub (a b : Nat) : Nat := if b ≤ a then a - b else a + 2 ^ 64 - b

/-- `read(buffer, size, offset)` (memfile.tcc:75-84); `none` is undefined behaviour. -/
def readAt (s : Mem) (n off : Nat) : Option (List Byte) :=
  let l := s.buf.length
  if off ≥ l then some []
  else
    let endrd := add off n
    let endrd := if endrd ≥ l then l else endrd
    load s.buf off (sub endrd off)

/-- `read(buffer, size)` (memfile.tcc:21-31). -/
def read (s : Mem) (n : Nat) : Option (List Byte × Mem) :=
  let l := s.buf.length
  if s.pos ≥ l then some ([], s)
  else
    let endrd := add s.pos n
    let endrd := if endrd ≥ l then l else endrd
    let rdl := sub endrd s.pos
    (load s.buf s.pos rdl).map fun d => (d, { s with pos := add s.pos rdl })

/-- `peek` (memfile.tcc:52-56). -/
def peek (s : Mem) (n : Nat) : Option (List Byte) := readAt s n s.pos

/-- `write(buffer, size, offset)` (memfile.tcc:88-98). -/
def writeAt (s : Mem) (d : List Nat) (off : Nat) : Option (Nat × Mem) :=
  let l := s.buf.length
  let endrd := add off d.length
  let b := if endrd ≥ l then resize s.buf endrd else s.buf
  (store b off d).map fun b => (d.length, { s with buf := b })

/-- `write(buffer, size)` (memfile.tcc:36-47).  A member without value is read: undefined
behaviour. -/
def write (s : Mem) (d : List Nat) : Option (Nat × Mem) :=
  match s.append with
  | none => none
  | some a =>
    let wrpos := if a then s.buf.length else s.pos
    let l := s.buf.length
    let endrd := add wrpos d.length
    let b := if endrd ≥ l then resize s.buf endrd else s.buf
    (store b wrpos d).map fun b => (d.length, { s with buf := b, pos := add s.pos d.length })

/-- `setSize` (memfile.tcc:102-105). -/
def setSize (s : Mem) (n : Nat) : Mem := { s with buf := resize s.buf n }

/-- `closeOutput` (memfile.h:35), `canWrite` (memfile.tcc:67-70). -/
def closeOutput (s : Mem) : Mem := { s with readOnly := true }
def canWrite (s : Mem) : Bool := !s.readOnly

/-- `canRead` (memfile.tcc:60-63). -/
def canRead (s : Mem) : Bool := decide (s.pos < s.buf.length)

/-- Calls of the interface. -/
inductive Op where
  | read (n : Nat)
  | peek (n : Nat)
  | readAt (n off : Nat)
  | write (d : List Nat)
  | writeAt (d : List Nat) (off : Nat)
  | setSize (n : Nat)
  | size
  | setPos (p : Nat)
  | canRead
  | clear

/-- What a call returns. -/
inductive Out where
  | data (d : List Byte)
  | num (n : Nat)
  | flag (b : Bool)
  | unit
deriving DecidableEq

/-- A call (`size`: memfile.tcc:109-112; `setPos`, `clear`: memfile.h:32, 41). -/
def exec (s : Mem) : Op → Option (Out × Mem)
  | .read n => (MemFile.read s n).map fun r => (.data r.1, r.2)
  | .peek n => (MemFile.peek s n).map fun r => (.data r, s)
  | .readAt n off => (MemFile.readAt s n off).map fun r => (.data r, s)
  | .write d => (MemFile.write s d).map fun r => (.num r.1, r.2)
  | .writeAt d off => (MemFile.writeAt s d off).map fun r => (.num r.1, r.2)
  | .setSize n => some (.unit, MemFile.setSize s n)
  | .size => some (.num s.buf.length, s)
  | .setPos p => some (.unit, { s with pos := p })
  | .canRead => some (.flag (MemFile.canRead s), s)
  | .clear => some (.unit, { s with buf := [], pos := 0 })

/-- Calls one after another. -/
def execAll (s : Mem) : List Op → Option (List Out × Mem)
  | [] => some ([], s)
  | o :: os => (exec s o).bind fun r => (execAll r.2 os).map fun q => (r.1 :: q.1, q.2)

/-! ## Constant text -/

/-- `MemFileStr` (memfile.h:86-87). -/
structure Str where
  text : List Byte
  pos : Nat := 0

/-- `read` (memfile.cpp:17-23). -/
def Str.read (s : Str) (n : Nat) : Option (List Byte × Str) :=
  let remain := sub s.text.length s.pos
  let n := if remain < n then remain else n
  (load s.text s.pos n).map fun d => (d, { s with pos := add s.pos n })

/-- `peek` (memfile.cpp:29-34). -/
def Str.peek (s : Str) (n : Nat) : Option (List Byte) :=
  let remain := sub s.text.length s.pos
  let n := if remain < n then remain else n
  load s.text s.pos n

/-- `read` at an offset (memfile.cpp:44-53). -/
def Str.readAt (s : Str) (n off : Nat) : Option (List Byte) :=
  if off > s.text.length then some []
  else
    let remain := sub s.text.length off
    let n := if remain < n then remain else n
    load s.text off n

end LS.MemFile

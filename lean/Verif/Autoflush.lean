/-
Flushing the output before the input is read: `IOutputControl`, `AutoflushWriter` and `AutoflushReader`,
base/streams/autoflush.h:21-260.

Simplified: one writer and one reader. The iterator behind the writer is a buffer that is emptied into the output by its
`flush` only. Items are numbers, `T()` is 0. All reading operations (hasItems, getRemain, peek, getNext, skip, blockRead,
autoflush.h:194-224) do the same before they read; `read` is any of them.
-/

namespace LS.Autoflush

/-- Where the dirty flag is, autoflush.h:77. -/
inductive Addr where
  | own
  /-- another flag -/
  | ext
  | null
deriving DecidableEq

/-- The writer, what is behind it, and the reader. -/
structure St where
  /-- in the buffer -/
  buf : List Nat
  /-- in the output -/
  out : List Nat
  /-- `dirtyFlag` and the other flag -/
  own : Bool
  ext : Bool
  dirty : Addr
  flushChar : Option Nat
  /-- `flushIfc` of the reader is the writer -/
  conn : Bool
  /-- how many times the buffer was flushed -/
  flushes : Nat
deriving DecidableEq

/-- The constructors, autoflush.h:72, 111, 190. -/
def init : St := ⟨[], [], false, false, .own, none, false, 0⟩

/-- `flush` of the iterator. -/
def flushed (s : St) : St := { s with buf := [], out := s.out ++ s.buf, flushes := s.flushes + 1 }

/-- `isDirty`, autoflush.h:65; `none`: there is no flag, undefined behaviour. -/
def isDirty (s : St) : Option Bool :=
  match s.dirty with
  | .own => some s.own
  | .ext => some s.ext
  | .null => none

/-- `setDirty`, autoflush.h:67-69. -/
def setDirty (s : St) (b : Bool) : Option St :=
  match s.dirty with
  | .own => some { s with own := b }
  | .ext => some { s with ext := b }
  | .null => none

/-- `write` of the writer, autoflush.h:118-124. -/
def write (s : St) (x : Nat) : Option St :=
  if s.flushChar = some x then some (flushed { s with buf := s.buf ++ [x] })
  else setDirty { s with buf := s.buf ++ [x] } true

/-- `skip` of the writer, autoflush.h:125: the iterator writes `T()`, iterator.h:600-602. -/
def skip (s : St) : St := { s with buf := s.buf ++ [0] }

/-- `flushBeforeRead` of the reader, autoflush.h:253-258. -/
def read (s : St) : Option St :=
  if s.conn then
    match isDirty s with
    | none => none
    | some false => some s
    | some true => setDirty (flushed s) false
  else some s

/-- `setDirtyFlagAddr`, autoflush.h:45-48: the second assignment is done also for NULL. -/
def setAddr (s : St) (a : Option Unit) : St :=
  match a with
  | none => { s with dirty := .null }
  | some _ => { s with dirty := .ext }

/-- Operations. -/
inductive Op where
  | write (x : Nat)
  | skip
  | flush
  | setChar (c : Nat)
  | unsetChar
  | connect (b : Bool)
  | read
  | setAddr (a : Option Unit)
deriving DecidableEq

/-- One operation; flush, autoflush.h:126, setFlushChar, 132, unsetFlushChar, 137, connectOutput, 236-238. -/
def step (s : St) : Op → Option St
  | .write x => write s x
  | .skip => some (skip s)
  | .flush => some (flushed s)
  | .setChar c => some { s with flushChar := some c }
  | .unsetChar => some { s with flushChar := none }
  | .connect b => some { s with conn := b }
  | .read => read s
  | .setAddr a => some (setAddr s a)

/-- A history; `none`: undefined behaviour. -/
def run : List Op → Option St → Option St
  | [], s => s
  | _ :: _, none => none
  | o :: os, some s => run os (step s o)

end LS.Autoflush

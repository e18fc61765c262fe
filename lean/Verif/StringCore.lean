/-
The string class: a reference counted buffer that is shared between copies
(copy on write), and the iterator that fills a new buffer.

Sources: /repo/src/lightspeed/base/containers/stringBase.h:12-413,
containers/constStr.h:17-60 (the terminating zero), memory/refCntPtr.h:60-290
and memory/allocPointer.h:86-100 (the counted pointer), memory/sharedResource.h
(the ring of the copies of an iterator, property C49).

Simplified: characters are numbers; one thread; the allocator never fails;
`sizeof(StringBufferHdrBase)` is 40; the ring of the copies of an iterator is
modelled by a number all copies carry (`C49` is about the ring itself); the
character type is described by its size and by whether a zero is appended
(`char` and `wchar_t`: yes, every other type: no).
-/
namespace LS.StringCore

/-- What the program can do wrong: undefined behaviour, or the exception
`throwWriteIteratorNoSpace`. -/
inductive Err where
  | ub
  | noSpace
  deriving DecidableEq, Repr

/-- The character type: its size and whether strings end with a zero
(constStr.h:17-60, `StringBase<T>::needZeroChar`). -/
structure Cfg where
  w : Nat
  z : Bool

/-- constStr.h:43 and 28: characters in the buffer beside the text. -/
def Cfg.zl (c : Cfg) : Nat := if c.z then 1 else 0

/-- stringBase.h:12-17 the header and the characters: capacity, allocated bytes,
references, initialised characters (`initCount` is their number). -/
structure Buf where
  cap : Nat
  bytes : Nat
  refs : Nat
  chars : List Nat
  deriving DecidableEq, Repr

/-- The memory, the string variables (`strBuff` of each; `none` is nil) and the
iterators (ring, buffer; `none` is an unused slot). -/
structure St where
  bufs : Nat → Option Buf
  next : Nat
  strs : List (Option Nat)
  its : List (Option (Nat × Nat))
  nextG : Nat

/-- Natural numbers of 64 bits. -/
def u64 (n : Nat) : Nat := n % 2 ^ 64

/-- `a - b` in 64 bits, `b ≤ 2^64`. -/
def sub64 (a b : Nat) : Nat := u64 (a + 2 ^ 64 - b)

def upd (f : Nat → Option Buf) (b : Nat) (o : Option Buf) : Nat → Option Buf :=
  fun x => if x = b then o else f x

/-- stringBase.h:44-53 and 80-83 createStringBuffer with the pointer that takes
it (145-149): the size is computed in 64 bits. -/
def alloc (c : Cfg) (s : St) (cap : Nat) (chars : List Nat) : St :=
  { s with bufs := upd s.bufs s.next (some ⟨cap, u64 (40 + cap * c.w), 1, chars⟩), next := s.next + 1 }

/-- refCntPtr.h:286-290 addRefPtr. -/
def addRef (s : St) : Option Nat → Except Err St
  | none => .ok s
  | some b =>
    match s.bufs b with
    | none => .error .ub
    | some B => .ok { s with bufs := upd s.bufs b (some { B with refs := B.refs + 1 }) }

/-- refCntPtr.h:292-304 releasePtr: the last reference destroys the buffer
(stringBase.h:55-70). -/
def release (s : St) : Option Nat → Except Err St
  | none => .ok s
  | some b =>
    match s.bufs b with
    | none => .error .ub
    | some B =>
      if B.refs = 1 then .ok { s with bufs := upd s.bufs b none }
      else .ok { s with bufs := upd s.bufs b (some { B with refs := B.refs - 1 }) }

/-- `strBuff` of variable `i`. -/
def var (s : St) (i : Nat) : Option Nat := (s.strs[i]?).join

def setVar (s : St) (i : Nat) (o : Option Nat) : St := { s with strs := s.strs.set i o }

def setIt (s : St) (k : Nat) (o : Option (Nat × Nat)) : St := { s with its := s.its.set k o }

/-- refCntPtr.h:150-156 assignment from another pointer, given by how to read it
(`src` may be this very variable): addRef of the source, release of this one,
which leaves null (300, `detach`; allocPointer.h:110-117), and only then the
source is read. -/
def assignFrom (s : St) (i : Nat) (src : St → Option Nat) : Except Err St := do
  let s ← addRef s (src s)
  let s ← release s (var s i)
  let s := setVar s i none
  .ok (setVar s i (src s))

/-- string.h:122-125 `si = sj`. -/
def assign (s : St) (i j : Nat) : Except Err St := assignFrom s i (fun s => var s j)

/-- stringBase.h:329-331 and 173-176 clear. -/
def clear (s : St) (i : Nat) : Except Err St := do
  let s ← release s (var s i)
  .ok (setVar s i none)

/-- stringBase.h:157-162, 350-354 and 93-98: isolate copies the initialised
characters into a new buffer when the buffer has another owner. -/
def isolate (c : Cfg) (s : St) (i : Nat) : Except Err St :=
  match var s i with
  | none => .ok s
  | some b =>
    match s.bufs b with
    | none => .error .ub
    | some B =>
      if B.refs > 1 then do
        let n := s.next
        let s := alloc c s B.chars.length B.chars
        let s ← assignFrom s i (fun _ => some n)
        release s (some n)
      else .ok s

/-- stringBase.h:106-111 add of one character: nothing when the buffer is full.
Writing behind the allocated memory is undefined. -/
def addChar (c : Cfg) (s : St) (b : Nat) (x : Nat) : Except Err St :=
  match s.bufs b with
  | none => .error .ub
  | some B =>
    if B.chars.length ≥ B.cap then .ok s
    else if 40 + (B.chars.length + 1) * c.w > B.bytes then .error .ub
    else .ok { s with bufs := upd s.bufs b (some { B with chars := B.chars ++ [x] }) }

/-- stringBase.h:100-105 add of several characters, as many as fit. -/
def addChars (c : Cfg) (s : St) (b : Nat) (xs : List Nat) : Except Err St :=
  match s.bufs b with
  | none => .error .ub
  | some B =>
    let n := if u64 (xs.length + B.chars.length) > B.cap then sub64 B.cap B.chars.length else xs.length
    if n > xs.length ∨ 40 + (B.chars.length + n) * c.w > B.bytes then .error .ub
    else .ok { s with bufs := upd s.bufs b (some { B with chars := B.chars ++ xs.take n }) }

/-- stringBase.h:290-299 createBufferIter: a new buffer for `n` characters and
the zero, held by the local, by the string and by the iterator; the local goes
away at the end. The iterator is put to slot `k`. -/
def openIter (c : Cfg) (s : St) (i k n : Nat) : Except Err St := do
  let b := s.next
  let s := alloc c s (u64 (n + c.zl)) []
  let s ← assignFrom s i (fun _ => some b)
  let s ← addRef s (some b)
  let s := setIt s k (some (s.nextG, b))
  let s := { s with nextG := s.nextG + 1 }
  release s (some b)

/-- Iterator in slot `k`. -/
def it (s : St) (k : Nat) : Option (Nat × Nat) := (s.its[k]?).join

/-- stringBase.h:207-209 write. -/
def write (c : Cfg) (s : St) (k x : Nat) : Except Err St :=
  match it s k with
  | none => .error .ub
  | some (_, b) => addChar c s b x

/-- stringBase.h:203-205 hasItems. -/
def hasItems (c : Cfg) (s : St) (k : Nat) : Option Bool :=
  (it s k).bind fun p => (s.bufs p.2).map fun B => decide (B.chars.length < sub64 B.cap c.zl)

/-- stringBase.h:216-218 getRemain. -/
def getRemain (c : Cfg) (B : Buf) : Nat := sub64 (sub64 B.cap B.chars.length) c.zl

/-- stringBase.h:234-246 blockWrite. -/
def blockWrite (c : Cfg) (s : St) (k : Nat) (xs : List Nat) (all : Bool) : Except Err St :=
  match it s k with
  | none => .error .ub
  | some (_, b) =>
    match s.bufs b with
    | none => .error .ub
    | some B =>
      if xs.length > getRemain c B then
        if all then .error .noSpace
        else addChars c s b (xs.take (getRemain c B))
      else addChars c s b xs

/-- Copy of an iterator: the copy joins the ring (sharedResource.h:36-38) and has
its own pointer to the buffer. -/
def dupIter (s : St) (k k' : Nat) : Except Err St :=
  match it s k with
  | none => .error .ub
  | some (g, b) => do
    let s ← addRef s (some b)
    .ok (setIt s k' (some (g, b)))

/-- sharedResource.h:77-79 isShared: another iterator of the ring exists. -/
def shared (s : St) (k g : Nat) : Bool :=
  (s.its.set k none).any (fun o => decide (o.map Prod.fst = some g))

/-- stringBase.h:211-214 the destructor: the last copy appends the zero. Then the
iterator leaves the ring and releases the buffer. -/
def dropIter (c : Cfg) (s : St) (k : Nat) : Except Err St :=
  match it s k with
  | none => .error .ub
  | some (g, b) => do
    let s ← if !shared s k g && c.z then write c s k 0 else .ok s
    let s := setIt s k none
    release s (some b)

/-- Writing characters one after another, the rendering of an array
(arrayt.h, property C80). -/
def writes (c : Cfg) (s : St) (k : Nat) : List Nat → Except Err St
  | [] => .ok s
  | x :: xs => do
    let s ← write c s k x
    writes c s k xs

/-- stringBase.h:403-407 loadArray, all constructors from a text: a local
iterator (a new slot), the characters, the end of the local. -/
def load (c : Cfg) (s : St) (i : Nat) (t : List Nat) : Except Err St := do
  let k := s.its.length
  let s := { s with its := s.its ++ [none] }
  let s ← openIter c s i k t.length
  let s ← writes c s k t
  let s ← dropIter c s k
  .ok { s with its := s.its.dropLast }

/-- `p[k] = x` through a pointer into buffer `b`; behind the memory it is
undefined. -/
def pokeAt (c : Cfg) (s : St) (b k x : Nat) : Except Err St :=
  match s.bufs b with
  | none => .error .ub
  | some B =>
    if 40 + (k + 1) * c.w > B.bytes then .error .ub
    else .ok { s with bufs := upd s.bufs b (some { B with chars := B.chars.set k x }) }

/-- stringBase.h:319-323 data() of a changeable string and the assignment
`s.data()[k] = x`. -/
def poke (c : Cfg) (s : St) (i k x : Nat) : Except Err St := do
  let s ← isolate c s i
  match var s i with
  | none => .error .ub
  | some b => pokeAt c s b k x

/-- stringBase.h:119-124 init: default characters, as many as fit. -/
def initChars (c : Cfg) (s : St) (b n : Nat) : Except Err St :=
  addChars c s b (List.replicate n 0)

/-- stringBase.h:301-305 createBuffer: the iterator is a local and lives until
the end. -/
def createBuffer (c : Cfg) (s : St) (i n : Nat) : Except Err St := do
  let k := s.its.length
  let s := { s with its := s.its ++ [none] }
  let s ← openIter c s i k n
  let s ← match var s i with
    | none => .error .ub
    | some b => initChars c s b n
  let s ← isolate c s i
  let s ← dropIter c s k
  .ok { s with its := s.its.dropLast }

/-- stringBase.h:313-316 length. -/
def length (c : Cfg) (s : St) (i : Nat) : Option Nat :=
  match var s i with
  | none => some 0
  | some b => (s.bufs b).map fun B => sub64 B.chars.length c.zl

/-- `s[k]` of a constant string: the character at `k`, if it is initialised. -/
def charAt (s : St) (i k : Nat) : Option Nat :=
  (var s i).bind fun b => (s.bufs b).bind fun B => B.chars[k]?

/-- Reading characters up to the zero, as `strlen` does (constStr.h:37-42);
`none` when the initialised characters end before. -/
def cText : List Nat → Option (List Nat)
  | [] => none
  | x :: xs => if x = 0 then some [] else (cText xs).map (x :: ·)

/-- stringBase.h:280-283 c_str, and what a reader of it gets. The constant for
empty strings is a single zero. -/
def cStr (c : Cfg) (s : St) (i : Nat) : Option (List Nat) :=
  match length c s i with
  | none => none
  | some 0 => some []
  | some _ => (var s i).bind fun b => (s.bufs b).bind fun B => cText B.chars

/-- Variables and iterator slots without content. -/
def start (nv ni : Nat) : St := ⟨fun _ => none, 0, List.replicate nv none, List.replicate ni none, 0⟩

/-- The operations of a history. -/
inductive Op where
  | load (i : Nat) (t : List Nat)
  | assign (i j : Nat)
  | clear (i : Nat)
  | isolate (i : Nat)
  | poke (i k x : Nat)
  | openIter (i k n : Nat)
  | write (k x : Nat)
  | blockWrite (k : Nat) (xs : List Nat) (all : Bool)
  | dupIter (k k' : Nat)
  | dropIter (k : Nat)
  deriving DecidableEq, Repr

def step (c : Cfg) (s : St) : Op → Except Err St
  | .load i t => load c s i t
  | .assign i j => assign s i j
  | .clear i => clear s i
  | .isolate i => isolate c s i
  | .poke i k x => poke c s i k x
  | .openIter i k n => openIter c s i k n
  | .write k x => write c s k x
  | .blockWrite k xs all => blockWrite c s k xs all
  | .dupIter k k' => dupIter s k k'
  | .dropIter k => dropIter c s k

/-- A history. The exception of an operation leaves the state as it was. -/
def run (c : Cfg) (s : St) : List Op → Except Err St
  | [] => .ok s
  | o :: os =>
    match step c s o with
    | .error .ub => .error .ub
    | .error .noSpace => run c s os
    | .ok s' => run c s' os

end LS.StringCore

import Verif.Basic
/-!
# Model of `base/iter/iteratorFilter.{h,tcc}` (`IteratorFilterBase`, `FilterRead`, `FilterWrite`, `NullFilter`)

A filter is any value of `Flt`: the five functions that a filter class supplies (iteratorFilter.h:44-150).  The chained reading
iterator is the list of the items that it still gives; the chained writing iterator is the list of items written and the number of items it takes.

Simplified: an exception ends the run (the state left behind is not described); the address that a 1:1 filter keeps of its input item
(iteratorFilter.h:331) is the item itself; types that need no construction (the raw memory of `buffer`, iteratorFilter.h:452, is a cell).
Not modelled: `FltChain`, `equalTo`/`lessThan` of `IteratorChain`, the copying of a `FilterRead` (its implicit copy constructor copies the bytes
of the item in `buffer`, which both destructors then destroy), the source that has no items for a while and then has again.
-/

namespace LS.FilterIter

/-- What a call ends with, when it does not return. -/
inductive Fail where
  /-- undefined behaviour -/
  | ub
  /-- `IteratorNoMoreItems` -/
  | noItems
  /-- `WriteIteratorNoSpace` -/
  | noSpace
  /-- the filter does not take the item (iteratorFilter.h:73) -/
  | busy
  /-- the call does not end (within the steps given) -/
  | long
deriving DecidableEq, Repr

/-- iteratorFilter.h:69-143: `needItems`, `input`, `hasItems`, `output`, `flush`. -/
structure Flt (S A B : Type) where
  need : S → Bool
  inp : S → A → Except Fail S
  has : S → Bool
  out : S → Except Fail (B × S)
  flush : S → S

variable {S A B : Type}

/-- The loop of `blockFetch` (iteratorFilter.h:181-184, 192-195): the filter and what the source still has. -/
def fetchLoop (F : Flt S A B) : S → List A → Except Fail (S × List A)
  | s, [] => .ok (s, [])
  | s, x :: r =>
    if F.need s = true then
      match F.inp s x with
      | .ok s' => fetchLoop F s' r
      | .error e => .error e
    else .ok (s, x :: r)

/-- `blockFetch` (iteratorFilter.h:179-200). -/
def blockFetch (F : Flt S A B) (s : S) (src : List A) : Except Fail (S × List A) :=
  match fetchLoop F s src with
  | .ok (s', r) => if F.need s' = true then .ok (F.flush s', r) else .ok (s', r)
  | .error e => .error e

/-- `blockOutput` (iteratorFilter.h:229-235) into an array of `n` items: what is written from its begin on. -/
def blockOutput (F : Flt S A B) : S → Nat → Except Fail (List B × S)
  | s, 0 =>
    match F.out s with
    | .ok _ => .error .ub
    | .error e => .error e
  | s, n + 1 =>
    match F.out s with
    | .error e => .error e
    | .ok (b, s1) =>
      if n ≠ 0 ∧ F.has s1 = true then
        match blockOutput F s1 n with
        | .ok (bs, s2) => .ok (b :: bs, s2)
        | .error e => .error e
      else .ok ([b], s1)

/-- The buffer of `FilterRead` with `fetched` (iteratorFilter.h:450-454): 0, 1 or 2. -/
inductive Cell (B : Type) where
  | empty
  | ready (b : B)
  | used (b : B)
deriving DecidableEq, Repr

/-- `FilterRead` (iteratorFilter.h:399-460). -/
structure Rd (S A B : Type) where
  flt : S
  src : List A
  cell : Cell B

/-- The constructor (iteratorFilter.tcc:36-41). -/
def rd (s : S) (src : List A) : Rd S A B := ⟨s, src, .empty⟩

/-- `fetched == 1`. -/
def ready (r : Rd S A B) : Bool :=
  match r.cell with
  | .ready _ => true
  | _ => false

/-- `hasItems` (iteratorFilter.tcc:49-52). -/
def hasItems (F : Flt S A B) (r : Rd S A B) : Bool := ready r || F.has r.flt || (!r.src.isEmpty && F.need r.flt)

/-- `if (!flt.hasItems()) flt.blockFetch(iter)` (iteratorFilter.tcc:72-73, 137-139). -/
def fill (F : Flt S A B) (s : S) (src : List A) : Except Fail (S × List A) := if F.has s = true then .ok (s, src) else blockFetch F s src

/-- The rest of `getBuffer` (iteratorFilter.tcc:74-78). -/
def takeOne (F : Flt S A B) (s : S) (src : List A) : Except Fail (B × Rd S A B) :=
  if F.has s = true then
    match F.out s with
    | .error e => .error e
    | .ok (b, s') => .ok (b, ⟨s', src, .ready b⟩)
  else .error .noItems

/-- `getBuffer` (iteratorFilter.tcc:67-82). -/
def getBuffer (F : Flt S A B) (r : Rd S A B) : Except Fail (B × Rd S A B) :=
  match r.cell with
  | .ready b => .ok (b, r)
  | _ =>
    match fill F r.flt r.src with
    | .error e => .error e
    | .ok (s, src) => takeOne F s src

/-- `peek` (iteratorFilter.tcc:54-58). -/
def peek (F : Flt S A B) (r : Rd S A B) : Except Fail (B × Rd S A B) := getBuffer F r

/-- `getNext` (iteratorFilter.tcc:59-65), with `prefreeBuffer` (92-94). -/
def getNext (F : Flt S A B) (r : Rd S A B) : Except Fail (B × Rd S A B) :=
  match getBuffer F r with
  | .error e => .error e
  | .ok (b, r') => .ok (b, { r' with cell := .used b })

/-- `getRemain` (iteratorFilter.h:425) with the `calcToRead` of the base (iteratorFilter.h:164). -/
def getRemain (r : Rd S A B) : Nat := r.src.length

/-- The loop of `blockRead` (iteratorFilter.tcc:136-143): the position and the array. -/
def readLoop (F : Flt S A B) (readAll : Bool) : Nat → S → List A → Nat → List B → Except Fail (Nat × List B × S × List A)
  | 0, _, _, _, _ => .error .long
  | f + 1, s, src, pos, buf =>
    match fill F s src with
    | .error e => .error e
    | .ok (s1, src1) =>
      match blockOutput F s1 (buf.length - pos) with
      | .error e => .error e
      | .ok (bs, s2) =>
        if readAll = false ∧ pos + bs.length < buf.length then readLoop F readAll f s2 src1 (pos + bs.length) (buf.take pos ++ bs ++ buf.drop (pos + bs.length))
        else .ok (pos + bs.length, buf.take pos ++ bs ++ buf.drop (pos + bs.length), s2, src1)

/-- `blockRead` (iteratorFilter.tcc:127-145): `buf` is the array before the call; the result is the number returned, the array and the iterator. -/
def blockRead (F : Flt S A B) (r : Rd S A B) (buf : List B) (readAll : Bool) : Except Fail (Nat × List B × Rd S A B) :=
  if buf.length = 0 then .ok (0, buf, r)
  else
    match r.cell with
    | .ready b =>
      if buf.length ≤ 1 then .error .ub
      else
        match readLoop F readAll buf.length r.flt r.src 1 (buf.set 1 b) with
        | .error e => .error e
        | .ok (n, buf', s, src) => .ok (n, buf', ⟨s, src, .used b⟩)
    | c =>
      match readLoop F readAll buf.length r.flt r.src 0 buf with
      | .error e => .error e
      | .ok (n, buf', s, src) => .ok (n, buf', ⟨s, src, c⟩)

/-- `FilterWrite` (iteratorFilter.h:468-518): the filter, the items written to the chained iterator, and how many it takes. -/
structure Wr (S B : Type) where
  flt : S
  out : List B
  cap : Nat

/-- The loop of `blockFeed` (iteratorFilter.h:204-207); `first`: `cnt == 0`. -/
def feedLoop (F : Flt S A B) : Nat → Bool → Wr S B → Except Fail (Wr S B)
  | 0, _, _ => .error .long
  | f + 1, first, w =>
    if F.has w.flt = true ∧ (first = true ∨ w.out.length < w.cap) then
      match F.out w.flt with
      | .error e => .error e
      | .ok (b, s') => if w.out.length < w.cap then feedLoop F f false ⟨s', w.out ++ [b], w.cap⟩ else .error .noSpace
    else .ok w

/-- `blockFeed` (iteratorFilter.h:202-209): there are at most `cap` writes, then the loop ends. -/
def feed (F : Flt S A B) (w : Wr S B) : Except Fail (Wr S B) := feedLoop F (w.cap + 2) true w

/-- `if (!flt.needItems()) flushCycle()` (iteratorFilter.tcc:20, 27, 153, 161). -/
def feedFull (F : Flt S A B) (w : Wr S B) : Except Fail (Wr S B) := if F.need w.flt = true then .ok w else feed F w

/-- `write` (iteratorFilter.tcc:17-33). -/
def write (F : Flt S A B) (w : Wr S B) (a : A) : Except Fail (Wr S B) :=
  match feedFull F w with
  | .error e => .error e
  | .ok w1 =>
    match F.inp w1.flt a with
    | .error e => .error e
    | .ok s => feedFull F { w1 with flt := s }

/-- `flush` (iteratorFilter.tcc:121-125). -/
def flush (F : Flt S A B) (w : Wr S B) : Except Fail (Wr S B) := feed F { w with flt := F.flush w.flt }

/-- `blockInput` (iteratorFilter.h:220-226): the filter and the number of items taken. -/
def blockInput (F : Flt S A B) : S → List A → Except Fail (S × Nat)
  | _, [] => .error .ub
  | s, x :: r =>
    match F.inp s x with
    | .error e => .error e
    | .ok s' =>
      if r ≠ [] ∧ F.need s' = true then
        match blockInput F s' r with
        | .ok (s'', n) => .ok (s'', n + 1)
        | .error e => .error e
      else .ok (s', 1)

/-- The loop of `blockWrite` (iteratorFilter.tcc:151-159, 169-177); `more` is the condition on `writeAll`. -/
def writeLoop (F : Flt S A B) (more : Bool) : Nat → Wr S B → List A → Nat → Except Fail (Nat × Wr S B)
  | 0, _, _, _ => .error .long
  | f + 1, w, buf, pos =>
    match feedFull F w with
    | .error e => .error e
    | .ok w1 =>
      match blockInput F w1.flt (buf.drop pos) with
      | .error e => .error e
      | .ok (s, c) => if more = true ∧ pos + c < buf.length then writeLoop F more f { w1 with flt := s } buf (pos + c) else .ok (pos + c, { w1 with flt := s })

/-- Both functions `blockWrite` from there on (iteratorFilter.tcc:149-163, 167-181). -/
def blockWriteIf (F : Flt S A B) (more : Bool) (w : Wr S B) (buf : List A) : Except Fail (Nat × Wr S B) :=
  if buf.length = 0 then .ok (0, w)
  else
    match writeLoop F more buf.length w buf 0 with
    | .error e => .error e
    | .ok (n, w1) =>
      match feedFull F w1 with
      | .error e => .error e
      | .ok w2 => .ok (n, w2)

/-- `blockWrite` of an array of mutable items (iteratorFilter.tcc:147-164): `while (!writeAll && …)`. -/
def blockWriteM (F : Flt S A B) (w : Wr S B) (buf : List A) (writeAll : Bool) : Except Fail (Nat × Wr S B) := blockWriteIf F (!writeAll) w buf

/-- `blockWrite` of an array of const items (iteratorFilter.tcc:165-182): `while (writeAll && …)`. -/
def blockWriteC (F : Flt S A B) (w : Wr S B) (buf : List A) (writeAll : Bool) : Except Fail (Nat × Wr S B) := blockWriteIf F writeAll w buf

/-- `NullFilter` (iteratorFilter.h:325-344): `output` without an item follows a null pointer. -/
def null (A : Type) : Flt (Option A) A A where
  need := fun s => s.isNone
  inp := fun _ x => .ok (some x)
  has := fun s => s.isSome
  out := fun s => match s with
    | none => .error .ub
    | some x => .ok (x, none)
  flush := fun s => s

/-- `TypeConversionFilter` (iteratorFilter.h:361-383) over a filter. -/
def conv {C : Type} (F : Flt S A B) (f : B → C) : Flt S A C where
  need := F.need
  inp := F.inp
  has := F.has
  out := fun s => match F.out s with
    | .error e => .error e
    | .ok (b, s') => .ok (f b, s')
  flush := fun s => s

/-- `HexEncoder` (utils/base64.h:190-208, 232-259): `buff` and `idx`. -/
structure Hex where
  b0 : Nat
  b1 : Nat
  idx : Nat

/-- The functions of `HexEncoder`; `output` outside of `buff` reads outside of the array. -/
def hex : Flt Hex Nat Nat where
  need := fun s => s.idx == 2
  inp := fun _ x => .ok ⟨x / 16, x % 16, 0⟩
  has := fun s => s.idx != 2
  out := fun s => if s.idx = 0 then .ok (s.b0, { s with idx := 1 }) else if s.idx = 1 then .ok (s.b1, { s with idx := 2 }) else .error .ub
  flush := fun s => s

end LS.FilterIter

/-
Binary archives.  base/serialize/binFormat.h, serializer.h, basicTypes.h, lightSpeedTypes.h.

Types of serialized things are codes `Ty`, `Ty.Den` gives the values.  `write` is what `BinaryWriter` sends to its iterator, `read` is `BinaryReader` on the bytes left.  `long` and `natural` have 64 bits.
Named sections (`openSection`) write nothing (binFormat.h:86-88, 234-236) and are left out.  Memory is left out: `AutoArray::reserve` of a count read from the stream and the buffers of strings.
-/
import Verif.CompressNumb
import Verif.UtfFilter
namespace LS.BinFormat
open LS.CompressNumb LS.UtfFilter

abbrev Name := List Nat

/-- What is serialized. -/
inductive Ty where
  | unit
  /-- `bool` -/
  | bool
  /-- `char`, `unsigned char` and `signed char`, as a byte -/
  | byte
  /-- signed integers of `w` bytes -/
  | sint (w : Nat)
  /-- unsigned integers of `w` bytes -/
  | uint (w : Nat)
  /-- `float` and `double`, as their bytes -/
  | raw (n : Nat)
  | wchar
  /-- one after another -/
  | pair (a b : Ty)
  /-- `AutoArray` -/
  | arr (t : Ty)
  /-- strings -/
  | str (t : Ty)
  /-- a section with a default value; `none` is the default -/
  | dflt (t : Ty)
  /-- a dynamic section with one of two names, tried in this order -/
  | alt (n1 : Name) (t1 : Ty) (n2 : Name) (t2 : Ty)
deriving DecidableEq, Repr

/-- Values. -/
abbrev Ty.Den : Ty → Type
  | .unit => Unit
  | .bool => Bool
  | .byte => Nat
  | .sint _ => Int
  | .uint _ => Nat
  | .raw _ => List Nat
  | .wchar => Int
  | .pair a b => a.Den × b.Den
  | .arr t => List t.Den
  | .str t => List t.Den
  | .dflt t => Option t.Den
  | .alt _ t1 _ t2 => t1.Den ⊕ t2.Den

/-- `openDynSection` of the writer (binFormat.h:90-101), with a name. -/
def writeOpen (n : Name) : List Nat := 0x55 :: (n ++ [0])

/-- The loop of `SerializableString` (lightSpeedTypes.h:33-40): `arr.next()` is called in the condition and again at the end of the body.  The number is what `Array` has remaining. -/
def strLoop {α : Type} (wr : α → List Nat) : Nat → List α → List Nat
  | _, [] => []
  | 0, _ :: _ => []
  | n + 1, x :: xs => wr x ++ strLoop wr (n - 1) xs

/-- The loop of `Serializable<AutoArray>` (lightSpeedTypes.h:79-85). -/
def arrLoop {α : Type} (wr : α → List Nat) : Nat → List α → List Nat
  | _, [] => []
  | 0, _ :: _ => []
  | n + 1, x :: xs => wr x ++ arrLoop wr n xs

/-- `BinaryWriter` (binFormat.h:35-148); arrays are `openArray`, items, `closeArray` (serializer.h:288-352). -/
def write : (t : Ty) → t.Den → List Nat
  | .unit, _ => []
  | .bool, b => [if b then 1 else 0]
  | .byte, b => [b]
  | .sint _, z => compressSigned z
  | .uint _, n => compress n
  | .raw _, l => l
  | .wchar, c => encode c
  | .pair a b, v => write a v.1 ++ write b v.2
  | .arr t, l => 0xAA :: (compress l.length ++ (arrLoop (write t) l.length l ++ [0xEA]))
  | .str t, l => 0xAA :: (compress l.length ++ (strLoop (write t) l.length l ++ [0xEA]))
  | .dflt _, none => [0]
  | .dflt t, some v => 1 :: write t v
  | .alt n1 t1 _ _, .inl v => writeOpen n1 ++ (write t1 v ++ [0xE5])
  | .alt _ _ n2 t2, .inr v => writeOpen n2 ++ (write t2 v ++ [0xE5])

/-- Exceptions of the reader. -/
inductive Err where
  /-- `BinReaderSyncException` -/
  | sync
  /-- no more bytes -/
  | eof
  /-- `InvalidUTF8Character` -/
  | utf
  /-- the script found no section with a name it knows -/
  | section
deriving DecidableEq, Repr

/-- Bytes left and `dynSection` (binFormat.h:309-310). -/
structure St where
  bytes : List Nat
  dyn : Name := []
deriving DecidableEq, Repr

/-- `readByte` (binFormat.h:312-314). -/
def St.byte (s : St) : Except Err (Nat × St) :=
  match s.bytes with
  | [] => .error .eof
  | b :: bs => .ok (b, { s with bytes := bs })

/-- `readBytes` (binFormat.h:317-321). -/
def St.take : Nat → St → Except Err (List Nat × St)
  | 0, s => .ok ([], s)
  | n + 1, s =>
    match s.byte with
    | .error e => .error e
    | .ok (b, s) =>
      match St.take n s with
      | .error e => .error e
      | .ok (l, s) => .ok (b :: l, s)

/-- The buffer filled by `readSigned` and `readUnsigned` (binFormat.h:322-335): the first byte tells the length. -/
def St.number (s : St) : Except Err (List Nat × St) :=
  match s.byte with
  | .error e => .error e
  | .ok (b, s) =>
    match St.take (numberLength b - 1) s with
    | .error e => .error e
    | .ok (l, s) => .ok (b :: l, s)

/-- `readUnsigned` (binFormat.h:329-335); the buffer is never too short. -/
def St.unsigned (s : St) : Except Err (Nat × St) :=
  match s.number with
  | .error e => .error e
  | .ok (l, s) =>
    match decompress l with
    | some (n, _) => .ok (n, s)
    | none => .error .eof

/-- `readSigned` (binFormat.h:322-328). -/
def St.signed (s : St) : Except Err (Int × St) :=
  match s.number with
  | .error e => .error e
  | .ok (l, s) =>
    match decompressSigned l with
    | some (n, _) => .ok (n, s)
    | none => .error .eof

/-- Cast to an unsigned type of `w` bytes. -/
def castU (w : Nat) (n : Nat) : Nat := n % 256 ^ w

/-- Cast to a signed type of `w` bytes. -/
def castS (w : Nat) (z : Int) : Int :=
  if 2 * (z % (256 ^ w : Nat)) < (256 ^ w : Nat) then z % (256 ^ w : Nat) else z % (256 ^ w : Nat) - (256 ^ w : Nat)

/-- Reading of a `wchar_t` (binFormat.h:223-229), the list of bytes walked. -/
def wideLoop : F → List Nat → Except Err (Int × List Nat)
  | _, [] => .error .eof
  | f, b :: bs =>
    match f.input b with
    | none => .error .utf
    | some f => if f.hasItems then .ok (f.output.1, bs) else wideLoop f bs

/-- A name up to the zero (binFormat.h:247-253). -/
def nameLoop : List Nat → Except Err (Name × List Nat)
  | [] => .error .eof
  | 0 :: bs => .ok ([], bs)
  | b :: bs =>
    match nameLoop bs with
    | .error e => .error e
    | .ok (n, bs) => .ok (b :: n, bs)

/-- The head of a section, when none is known (binFormat.h:241-257). -/
def St.head (s : St) : Except Err St :=
  if s.dyn = [] then
    match s.byte with
    | .error e => .error e
    | .ok (b, s) =>
      if b ≠ 0x55 then .error .sync
      else
        match nameLoop s.bytes with
        | .error e => .error e
        | .ok (n, bs) => .ok ⟨bs, n⟩
  else .ok s

/-- `openDynSection` (binFormat.h:238-276); `none` asks for the name. -/
def St.openDyn (want : Option Name) (s : St) : Except Err (Option Name × St) :=
  match s.head with
  | .error e => .error e
  | .ok s =>
    match want with
    | none => if s.dyn = [] then .ok (none, s) else .ok (some s.dyn, s)
    | some n => if s.dyn = n then .ok (some n, { s with dyn := [] }) else .ok (none, s)

/-- `closeDynSection`, `closeArray`, `openArray` begin with a byte that has to be there (binFormat.h:279-306). -/
def St.mark (m : Nat) (s : St) : Except Err St :=
  match s.byte with
  | .error e => .error e
  | .ok (b, s) => if b ≠ m then .error .sync else .ok s

/-- `while (arr.next())` with a count (serializer.h:328-332, lightSpeedTypes.h:24-28, 74-78). -/
def readN {α : Type} (rd : St → Except Err (α × St)) : Nat → St → Except Err (List α × St)
  | 0, s => .ok ([], s)
  | n + 1, s =>
    match rd s with
    | .error e => .error e
    | .ok (x, s) =>
      match readN rd n s with
      | .error e => .error e
      | .ok (l, s) => .ok (x :: l, s)

/-- Loading of an array: `openArray`, the items, `closeArray`. -/
def readArr {α : Type} (rd : St → Except Err (α × St)) (s : St) : Except Err (List α × St) :=
  match s.mark 0xAA with
  | .error e => .error e
  | .ok s =>
    match s.unsigned with
    | .error e => .error e
    | .ok (n, s) =>
      match readN rd n s with
      | .error e => .error e
      | .ok (l, s) =>
        match s.mark 0xEA with
        | .error e => .error e
        | .ok s => .ok (l, s)

/-- `exchange(bool &)` (binFormat.h:178-183). -/
def St.bool (s : St) : Except Err (Bool × St) :=
  match s.byte with
  | .error e => .error e
  | .ok (b, s) => if b = 0 then .ok (false, s) else if b = 1 then .ok (true, s) else .error .sync

/-- The rest of a section: content and closing. -/
def readSect {α β : Type} (f : α → β) (rd : St → Except Err (α × St)) (s : St) : Except Err (β × St) :=
  match rd s with
  | .error e => .error e
  | .ok (v, s) =>
    match s.mark 0xE5 with
    | .error e => .error e
    | .ok s => .ok (f v, s)

/-- `BinaryReader` (binFormat.h:178-335). -/
def read : (t : Ty) → St → Except Err (t.Den × St)
  | .unit, s => .ok ((), s)
  | .bool, s => s.bool
  | .byte, s => s.byte
  | .sint w, s =>
    match s.signed with
    | .error e => .error e
    | .ok (z, s) => .ok (castS w z, s)
  | .uint w, s =>
    match s.unsigned with
    | .error e => .error e
    | .ok (n, s) => .ok (castU w n, s)
  | .raw n, s => St.take n s
  | .wchar, s =>
    match wideLoop {} s.bytes with
    | .error e => .error e
    | .ok (c, bs) => .ok (c, { s with bytes := bs })
  | .pair a b, s =>
    match read a s with
    | .error e => .error e
    | .ok (x, s) =>
      match read b s with
      | .error e => .error e
      | .ok (y, s) => .ok ((x, y), s)
  | .arr t, s => readArr (read t) s
  | .str t, s => readArr (read t) s
  | .dflt t, s =>
    match s.bool with
    | .error e => .error e
    | .ok (false, s) => .ok (none, s)
    | .ok (true, s) =>
      match read t s with
      | .error e => .error e
      | .ok (v, s) => .ok (some v, s)
  | .alt n1 t1 n2 t2, s =>
    match s.openDyn (some n1) with
    | .error e => .error e
    | .ok (some _, s) => readSect Sum.inl (read t1) s
    | .ok (none, s) =>
      match s.openDyn (some n2) with
      | .error e => .error e
      | .ok (some _, s) => readSect Sum.inr (read t2) s
      | .ok (none, _) => .error .section

end LS.BinFormat

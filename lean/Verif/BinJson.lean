/-
Binary JSON: utils/json/binjson.cpp, `JsonToBinary` and `BinaryToJson`.

Documents are those of Json.lean.  A real number travels as the eight bytes of a `double`; the conversion between the number
and the bytes is a parameter.  The opcodes of the stack (`opcPush`, `opcPop`, `opcPick*`, `opcRemove1`), `opcFloat32`,
names which are not in the table ("Undefined…", "Key…") and a lonely `opcEnd` are never written by `JsonToBinary`; for these
the reader of the model stops with `outside`.  `convertToText` is not modelled.
-/
import Verif.Json

namespace LS.BinJson

open Json (Doc Docs Fields addField addItem takeWide)

/-- What may happen instead of a result. -/
inductive RErr
  | err (e : Err)
  | outside
deriving DecidableEq, Repr

/-- The conversion of a `double` to its bytes and back (binjson.cpp:77-81, 422-426). -/
structure Dbl where
  bytes : List Nat → List Nat
  text : List Nat → List Nat

/-! ## Writer -/

/-- binjson.cpp:131-156: `k` bytes of `v`, the low byte first. -/
def le : (k : Nat) → Nat → List Nat
  | 0, _ => []
  | k + 1, v => v % 256 :: le k (v >>> 8)

/-- binjson.cpp:131-156 `writeNumber`. -/
def writeNumber (op v : Nat) : List Nat :=
  if v ≤ 255 then op :: le 1 v
  else if v ≤ 0xFFFF then (op + 1) :: le 2 v
  else if v ≤ 0xFFFFFFFF then (op + 2) :: le 4 v
  else (op + 3) :: le 8 v

/-- binjson.cpp:125-127: a code as one character of UTF-8 (Utf, `WideToUtf8Convert`). -/
def writeCode (c : Nat) : Except Err (List Nat) :=
  match Utf.enc.run 7 {} [c] with
  | none => .error .thrown
  | some t => .ok t

/-- binjson.cpp:114-129 `writeString`.  `addEnum` (38-40) numbers the strings from 40 on; `Map::insert` keeps the first
number of a string which is added again. -/
def writeString (tab : List (List Nat)) (s : List Nat) : Except Err (List Nat) :=
  if s = [] then .ok [21]
  else if s ∈ tab then writeCode (40 + tab.idxOf s)
  else .ok (writeNumber 8 s.length ++ s)

/-- binjson.cpp:83-94 `serializeInteger`, with the value `-v` in both branches; `-v` overflows for the least `linteger`. -/
def serInt (v : Int) : Except Err (List Nat) :=
  if v < 0 then (if v = -2 ^ 63 then .error .ub else .ok (writeNumber 16 (-v).toNat))
  else if v > 0 then .ok (writeNumber 12 (2 ^ 64 - v.toNat))
  else .ok [20]

mutual

/-- binjson.cpp:42-57 `serializeValue`, 59-112. -/
def ser (F : Dbl) (tab : List (List Nat)) : Doc → Except Err (List Nat)
  | .null => .ok [0]
  | .bool true => .ok [2]
  | .bool false => .ok [1]
  | .int v => serInt v
  | .flt t => .ok (23 :: F.bytes t)
  | .str s => writeString tab s
  | .arr l =>
    match serItems F tab l with
    | .error e => .error e
    | .ok t => .ok (3 :: t ++ [5])
  | .obj m =>
    match serFields F tab m with
    | .error e => .error e
    | .ok t => .ok (4 :: t ++ [5])

/-- binjson.cpp:61-63. -/
def serItems (F : Dbl) (tab : List (List Nat)) : Docs → Except Err (List Nat)
  | .nil => .ok []
  | .cons d l =>
    match ser F tab d with
    | .error e => .error e
    | .ok t =>
      match serItems F tab l with
      | .error e => .error e
      | .ok u => .ok (t ++ u)

/-- binjson.cpp:69-73. -/
def serFields (F : Dbl) (tab : List (List Nat)) : Fields → Except Err (List Nat)
  | .nil => .ok []
  | .cons k d m =>
    match writeString tab k with
    | .error e => .error e
    | .ok s =>
      match ser F tab d with
      | .error e => .error e
      | .ok t =>
        match serFields F tab m with
        | .error e => .error e
        | .ok u => .ok (s ++ t ++ u)

end

/-! ## Reader -/

/-- binjson.cpp:431-450: `k` bytes, the low byte first; `getNext` throws at the end (fileio.h). -/
def getLe : (k : Nat) → List Nat → Except RErr (Nat × List Nat)
  | 0, l => .ok (0, l)
  | _ + 1, [] => .error (.err .thrown)
  | k + 1, b :: l =>
    match getLe k l with
    | .error e => .error e
    | .ok (n, l) => .ok (b + 256 * n, l)

/-- binjson.cpp:428-452 `readNumber`: nothing is read for an opcode other than 0, 1, 2, 3. -/
def readNumber (op : Nat) (l : List Nat) : Except RErr (Nat × List Nat) :=
  if op = 0 then getLe 1 l
  else if op = 1 then getLe 2 l
  else if op = 2 then getLe 4 l
  else if op = 3 then getLe 8 l
  else .ok (0, l)

/-- fileio.h:123-131 `blockRead` of all `n` bytes. -/
def block (n : Nat) (l : List Nat) : Except RErr (List Nat × List Nat) :=
  if n ≤ l.length then .ok (l.take n, l.drop n) else .error (.err .thrown)

/-- Conversion of `lnatural` to `linteger`. -/
def signed (n : Nat) : Int := if n < 2 ^ 63 then n else (n : Int) - 2 ^ 64

/-- binjson.cpp:454-462 `parseNumber`; a number node keeps a `linteger` (json.cpp:481, 652-658). -/
def parseNumber (op : Nat) (neg : Bool) (l : List Nat) : Except RErr (Doc × List Nat) :=
  match readNumber op l with
  | .error e => .error e
  | .ok (n, l) =>
    if neg then (if n = 2 ^ 63 then .error (.err .ub) else .ok (.int (-signed n), l))
    else .ok (.int (signed n), l)

/-- binjson.cpp:464-470 `parseString`. -/
def parseString (op : Nat) (l : List Nat) : Except RErr (Doc × List Nat) :=
  match readNumber op l with
  | .error e => .error e
  | .ok (n, l) =>
    match block n l with
    | .error e => .error e
    | .ok (s, l) => .ok (.str s, l)

/-- binjson.cpp:422-426 `parseFloat64`. -/
def parseFloat64 (F : Dbl) (l : List Nat) : Except RErr (Doc × List Nat) :=
  match block 8 l with
  | .error e => .error e
  | .ok (s, l) => .ok (.flt (F.text s), l)

/-- binjson.cpp:269-281: a name of the table. -/
def parseEnum (tab : List (List Nat)) (c : Nat) (l : List Nat) : Except RErr (Doc × List Nat) :=
  if c < 40 then .error (.err .thrown)
  else
    match tab[c - 40]? with
    | none => .error .outside
    | some s => .ok (.str s, l)

/-- binjson.cpp:396-409: the key of a field.  `code-opcString1` is a `natural`. -/
def parseKey (tab : List (List Nat)) (c : Nat) (l : List Nat) : Except RErr (List Nat × List Nat) :=
  if c < 40 then
    match readNumber (if 8 ≤ c then c - 8 else 2 ^ 64 - (8 - c)) l with
    | .error e => .error e
    | .ok (n, l) => block n l
  else
    match tab[c - 40]? with
    | none => .error .outside
    | some s => .ok (s, l)

mutual

/-- binjson.cpp:224-286 `parse`.  The opcode is read as a character of UTF-8. -/
def parse (F : Dbl) (tab : List (List Nat)) : (fuel : Nat) → List Nat → Except RErr (Doc × List Nat)
  | 0, _ => .error .outside
  | fuel + 1, l =>
    match takeWide {} l with
    | .error e => .error (.err e)
    | .ok (c, l) =>
      if c = 3 then parseArray F tab fuel .nil l
      else if c = 21 then .ok (.str [], l)
      else if c = 1 then .ok (.bool false, l)
      else if c = 23 then parseFloat64 F l
      else if 16 ≤ c ∧ c ≤ 19 then parseNumber (c - 16) true l
      else if c = 0 then .ok (.null, l)
      else if c = 4 then parseObject F tab fuel .nil l
      else if 12 ≤ c ∧ c ≤ 15 then parseNumber (c - 12) false l
      else if 8 ≤ c ∧ c ≤ 11 then parseString c l
      else if c = 2 then .ok (.bool true, l)
      else if c = 20 then .ok (.int 0, l)
      else if c = 5 ∨ c = 6 ∨ c = 7 ∨ c = 22 ∨ (28 ≤ c ∧ c ≤ 31) then .error .outside
      else parseEnum tab c l

/-- binjson.cpp:379-388 `parseArray`: `opcEnd` is seen by `peek` and stays in the stream. -/
def parseArray (F : Dbl) (tab : List (List Nat)) : (fuel : Nat) → Docs → List Nat → Except RErr (Doc × List Nat)
  | 0, _, _ => .error .outside
  | _ + 1, _, [] => .error (.err .thrown)
  | fuel + 1, a, b :: l =>
    if b = 5 then .ok (.arr a, b :: l)
    else
      match parse F tab fuel (b :: l) with
      | .error e => .error e
      | .ok (d, l) => parseArray F tab fuel (addItem d a) l

/-- binjson.cpp:390-414 `parseObject`.  The reader of the codes is between characters again after each code. -/
def parseObject (F : Dbl) (tab : List (List Nat)) : (fuel : Nat) → Fields → List Nat → Except RErr (Doc × List Nat)
  | 0, _, _ => .error .outside
  | fuel + 1, m, l =>
    match takeWide {} l with
    | .error e => .error (.err e)
    | .ok (c, l) =>
      if c = 5 then .ok (.obj m, l)
      else
        match parseKey tab c l with
        | .error e => .error e
        | .ok (k, l) =>
          match parse F tab fuel l with
          | .error e => .error e
          | .ok (d, l) => parseObject F tab fuel (addField k d m) l

end

/-- The reader on a whole stream: each call of `parse`, `parseArray`, `parseObject` other than the last one takes a byte. -/
def parseDoc (F : Dbl) (tab : List (List Nat)) (l : List Nat) : Except RErr (Doc × List Nat) := parse F tab (2 * l.length + 2) l

end LS.BinJson

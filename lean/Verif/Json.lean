/-
JSON text: utils/json/jsonserializer.tcc (`Serializer`), utils/json/jsonparser.tcc (`Parser`), and the containers of
utils/json/json.cpp as far as they matter for it.

A document is a tree; nodes which the code shares (`sharedTrue`, `sharedZero`, …) are not told apart.  The cycle
detector (jsonserializer.tcc:195-203) never fires on a tree and is left out, wide strings (`serializeString(ConstStrW)`),
custom nodes and deleted nodes as well.  Real numbers are not modelled: a `flt` node carries its text, and the
conversion of the text, which may throw, is left out.  `isspace` on a negative `char` counts as false.
-/
import Verif.NumText
import Verif.Utf

namespace LS.Json

mutual

/-- A node (json.h:41-60 `NodeType`, jsonimpl.h). -/
inductive Doc
  | null
  | bool (b : Bool)
  | int (v : Int)
  | flt (text : List Nat)
  | str (s : List Nat)
  | arr (l : Docs)
  | obj (m : Fields)

/-- jsonimpl.h:93-129 `Array`: the items. -/
inductive Docs
  | nil
  | cons (d : Doc) (l : Docs)

/-- jsonimpl.h:21-89 `Object`: the fields as the iterator of the tree gives them (AvlTree, C18 and C20). -/
inductive Fields
  | nil
  | cons (k : List Nat) (d : Doc) (m : Fields)

end

/-! ## Serializer -/

/-- textFormat.tcc:216-262, 322-357: the pattern `%{04}1`, zeros in front up to four characters. -/
def pad4 (t : List Nat) : List Nat := List.replicate (4 - t.length) 48 ++ t

/-- jsonserializer.tcc:236-238, 111-113: `fmt.setBase(16); fmt("\\u%{04}1") << (unsigned int)c`; the text of the number is
that of `numberToString` (NumText, `c92_unsigned_partial`). -/
def escU (c : Nat) : Except Err (List Nat) :=
  match NumText.toStrU c 16 true with
  | none => .error .ub
  | some t => .ok (92 :: 117 :: pad4 t)

/-- jsonserializer.tcc:223-243 `writeChar` with `char`. -/
def writeChar (c : Nat) : Except Err (List Nat) :=
  if c = 13 then .ok [92, 114]
  else if c = 12 then .ok [92, 102]
  else if c = 10 then .ok [92, 110]
  else if c = 9 then .ok [92, 116]
  else if c = 8 then .ok [92, 98]
  else if c = 92 then .ok [92, 92]
  else if c = 34 then .ok [92, 34]
  else if c < 32 then escU c
  else .ok [c]

/-- jsonserializer.tcc:75-77: the characters of a string. -/
def chars : List Nat → Except Err (List Nat)
  | [] => .ok []
  | c :: l =>
    match writeChar c with
    | .error e => .error e
    | .ok t =>
      match chars l with
      | .error e => .error e
      | .ok u => .ok (t ++ u)

/-- jsonserializer.tcc:71-80 `serializeString(ConstStrA)`. -/
def serStr (s : List Nat) : Except Err (List Nat) :=
  match chars s with
  | .error e => .error e
  | .ok t => .ok (34 :: t ++ [34])

/-- jsonserializer.tcc:105-110: bytes are given to the filter until it has a character; an exception at the end of the
string.  `Utf8ToWideFilter` (utf.cpp:19-76) has the code of `Utf8ToWideConvert`. -/
def takeWide : Utf.Dec → List Nat → Except Err (Nat × List Nat)
  | s, [] => if s.hasItems then (match s.outchar with | some c => .ok (c, []) | none => .error .ub) else .error .thrown
  | s, a :: l =>
    if s.hasItems then (match s.outchar with | some c => .ok (c, a :: l) | none => .error .ub)
    else
      match s.write a with
      | none => .error .thrown
      | some s => takeWide s l

/-- jsonserializer.tcc:101-121: the loop of `serializeStringEscUTF`.  `flush` (utf.cpp:72-76) does nothing when there is a
character. -/
def charsEsc : (fuel : Nat) → List Nat → Except Err (List Nat)
  | 0, _ => .ok []
  | _ + 1, [] => .ok []
  | fuel + 1, c :: l =>
    if c ≥ 128 then
      match takeWide {} (c :: l) with
      | .error e => .error e
      | .ok (cu, l) =>
        match escU cu with
        | .error e => .error e
        | .ok t =>
          match charsEsc fuel l with
          | .error e => .error e
          | .ok u => .ok (t ++ u)
    else
      match writeChar c with
      | .error e => .error e
      | .ok t =>
        match charsEsc fuel l with
        | .error e => .error e
        | .ok u => .ok (t ++ u)

/-- jsonserializer.tcc:98-123 `serializeStringEscUTF`. -/
def serStrEsc (s : List Nat) : Except Err (List Nat) :=
  match charsEsc s.length s with
  | .error e => .error e
  | .ok t => .ok (34 :: t ++ [34])

/-- jsonserializer.tcc:127-130, 160-166: by the flag `escapeUTF8`. -/
def serString (esc : Bool) (s : List Nat) : Except Err (List Nat) := if esc then serStrEsc s else serStr s

/-- jsonserializer.tcc:177-182 `serializeInt`; the text of the number is that of `numberToString`
(NumText, `c92_signed_partial`). -/
def serInt (v : Int) : Except Err (List Nat) :=
  match NumText.toStrS v 10 true with
  | none => .error .ub
  | some t => .ok t

mutual

/-- jsonserializer.tcc:191-221 `serialize`, 51-68. -/
def ser (esc : Bool) : Doc → Except Err (List Nat)
  | .null => .ok [110, 117, 108, 108]
  | .bool true => .ok [116, 114, 117, 101]
  | .bool false => .ok [102, 97, 108, 115, 101]
  | .int v => serInt v
  | .flt t => .ok t
  | .str s => serString esc s
  | .arr l => match serItems esc true l with
    | .error e => .error e
    | .ok t => .ok (91 :: t ++ [93])
  | .obj m => match serFields esc true m with
    | .error e => .error e
    | .ok t => .ok (123 :: t ++ [125])

/-- jsonserializer.tcc:29-49 `serializeArray`. -/
def serItems (esc first : Bool) : Docs → Except Err (List Nat)
  | .nil => .ok []
  | .cons d l => match ser esc d with
    | .error e => .error e
    | .ok t => match serItems esc false l with
      | .error e => .error e
      | .ok u => .ok ((if first then [] else [44]) ++ t ++ u)

/-- jsonserializer.tcc:125-155 `serializeObject`, `serializeObjectNode`. -/
def serFields (esc first : Bool) : Fields → Except Err (List Nat)
  | .nil => .ok []
  | .cons k d m => match serString esc k with
    | .error e => .error e
    | .ok s => match ser esc d with
      | .error e => .error e
      | .ok t => match serFields esc false m with
        | .error e => .error e
        | .ok u => .ok ((if first then [] else [44]) ++ s ++ 58 :: t ++ u)

end

/-! ## Parser -/

/-- C `isspace`. -/
def isspace (c : Nat) : Bool := c == 32 || (decide (9 ≤ c) && decide (c ≤ 13))

/-- `while (isspace(c)) c = iter.getNext()` (jsonparser.tcc:115, 123, 129): the first other character and what is behind
it; an exception at the end. -/
def skipSp : List Nat → Except Err (Nat × List Nat)
  | [] => .error .thrown
  | c :: l => if isspace c then skipSp l else .ok (c, l)

/-- jsonparser.tcc:71-79: the simple escapes. -/
def unescape (x : Nat) : Option Nat :=
  if x = 34 then some x
  else if x = 92 then some x
  else if x = 47 then some x
  else if x = 98 then some 8
  else if x = 102 then some 12
  else if x = 110 then some 10
  else if x = 114 then some 13
  else if x = 116 then some 9
  else none

/-- jsonparser.tcc:85. -/
def isHex (z : Nat) : Bool := (decide (z ≥ 48) && decide (z ≤ 57)) || (decide (z ≥ 65) && decide (z ≤ 70)) || (decide (z ≥ 97) && decide (z ≤ 102))

/-- jsonparser.tcc:91-94: the number, as UTF-8.  `WideToUtf8Filter` (utf.cpp:80-116) has the code of `WideToUtf8Convert`. -/
def unicode (buff : List Nat) : Except Err (List Nat) :=
  match NumText.strToU buff 16 with
  | .error e => .error e
  | .ok wy =>
    match Utf.enc.run 7 {} [wy] with
    | none => .error .thrown
    | some t => .ok t

/-- jsonparser.tcc:60-105 `parseRawString`: the string and what is left. -/
def rawStr : (buf : List Nat) → List Nat → Except Err (List Nat × List Nat)
  | _, [] => .error .thrown
  | buf, x :: l =>
    if x = 34 then .ok (buf, l)
    else if x ≠ 92 then rawStr (buf ++ [x]) l
    else
      match l with
      | [] => .error .thrown
      | 117 :: z0 :: z1 :: z2 :: z3 :: l =>
        if isHex z0 && isHex z1 && isHex z2 && isHex z3 then
          match unicode [z0, z1, z2, z3] with
          | .error e => .error e
          | .ok t => rawStr (buf ++ t) l
        else .error .thrown
      | y :: l =>
        match unescape y with
        | none => .error .thrown
        | some c => rawStr (buf ++ [c]) l

/-- jsonparser.tcc:255-262 `parseCheck`. -/
def check : List Nat → List Nat → Except Err (List Nat)
  | [], l => .ok l
  | _ :: _, [] => .error .thrown
  | c :: s, x :: l => if x ≠ c then .error .thrown else check s l

/-- jsonparser.tcc:222-228: the characters of a number. -/
def numChars : List Nat → List Nat × List Nat
  | [] => ([], [])
  | c :: l => if c = 44 ∨ c = 93 ∨ c = 125 ∨ c = 0 ∨ isspace c then ([], c :: l) else let r := numChars l; (c :: r.1, r.2)

/-- jsonparser.tcc:230-251: the node for the characters of a number, `isFloat` given; (8 · 10000 + 1818) / 3636 = 22. -/
def number (isFloat : Bool) (t : List Nat) : Except Err Doc :=
  if !isFloat && decide (t.length ≤ 22) then
    match NumText.parseS t 10 with
    | .error e => .error e
    | .ok (none, _) => .error .thrown
    | .ok (some x, r) => if r ≠ [] then .error .thrown else .ok (.int x)
  else .ok (.flt t)

/-- jsonparser.tcc:223: the characters which make the number a real one; the first character does not count. -/
def isReal (c : Nat) : Bool := c == 46 || c == 69 || c == 101

/-- jsonparser.tcc:161-162, 211-215: spaces behind a first character which is one; an exception at the end. -/
def dropSp : List Nat → Except Err (List Nat)
  | [] => .error .thrown
  | c :: l => if isspace c then dropSp l else .ok (c :: l)

/-- jsonparser.tcc:206-252 `parseValue`; `peek` at the end is an exception. -/
def parseValue (x : Nat) (l : List Nat) : Except Err (Doc × List Nat) :=
  match l with
  | [] => .error .thrown
  | _ :: _ =>
    match (if isspace x then dropSp l else .ok l) with
    | .error e => .error e
    | .ok l' =>
      let r := numChars l'
      match number (r.1.any isReal) (if isspace x then r.1 else x :: r.1) with
      | .error e => .error e
      | .ok d => .ok (d, r.2)

/-- A `char` is signed: the place of a byte in the order. -/
def sb (c : Nat) : Nat := if 128 ≤ c ∧ c < 256 then c - 128 else c + 128

/-- `ConstStrA::operator<` (arrayt.h:212-217, C87). -/
def lt : List Nat → List Nat → Bool
  | [], [] => false
  | [], _ :: _ => true
  | _ :: _, [] => false
  | a :: l, b :: m => if sb a < sb b then true else if sb b < sb a then false else lt l m

/-- json.cpp:45-52, 68-73 `Object::add`: the tree is sorted by `CompareItems` (json.cpp:156-158); an existing field stays. -/
def addField (k : List Nat) (d : Doc) : Fields → Fields
  | .nil => .cons k d .nil
  | .cons k' d' m => if lt k k' then .cons k d (.cons k' d' m) else if lt k' k then .cons k' d' (addField k d m) else .cons k' d' m

/-- json.cpp:189-194 `Array::add`. -/
def addItem (d : Doc) : Docs → Docs
  | .nil => .cons d .nil
  | .cons d' l => .cons d' (addItem d l)

/-- jsonparser.tcc:140-148, 179-187: after a value; `true` for a comma, `false` for the closing bracket. -/
def delim (close : Nat) : List Nat → Except Err (Bool × List Nat)
  | [] => .error .thrown
  | c :: l => if c = 44 then .ok (true, l) else if c = close then .ok (false, l) else if isspace c then delim close l else .error .thrown

/-- jsonparser.tcc:35-41: skipped before a value. -/
def isBlank (x : Nat) : Bool := x == 32 || x == 9 || x == 13 || x == 10 || x == 8 || x == 7 || x == 0

mutual

/-- jsonparser.tcc:17-45 `parse`. -/
def parse : (fuel : Nat) → List Nat → Except Err (Doc × List Nat)
  | 0, _ => .error .thrown
  | _ + 1, [] => .error .thrown
  | fuel + 1, x :: l =>
    if x = 34 then
      match rawStr [] l with
      | .error e => .error e
      | .ok (s, l) => .ok (.str s, l)
    else if x = 123 then parseObject fuel l
    else if x = 91 then parseArray fuel l
    else if x = 116 then
      match check [114, 117, 101] l with
      | .error e => .error e
      | .ok l => .ok (.bool true, l)
    else if x = 102 then
      match check [97, 108, 115, 101] l with
      | .error e => .error e
      | .ok l => .ok (.bool false, l)
    else if x = 110 then
      match check [117, 108, 108] l with
      | .error e => .error e
      | .ok l => .ok (.null, l)
    else if isBlank x then parse fuel l
    else parseValue x l

/-- jsonparser.tcc:108-118 `parseObject`: up to the first field. -/
def parseObject : (fuel : Nat) → List Nat → Except Err (Doc × List Nat)
  | 0, _ => .error .thrown
  | fuel + 1, l =>
    match skipSp l with
    | .error e => .error e
    | .ok (c, l) => if c = 125 then .ok (.obj .nil, l) else parseFields fuel .nil c l

/-- jsonparser.tcc:121-151: the fields; `c` is the character which was read last. -/
def parseFields : (fuel : Nat) → Fields → Nat → List Nat → Except Err (Doc × List Nat)
  | 0, _, _, _ => .error .thrown
  | fuel + 1, m, c, l =>
    match skipSp (c :: l) with
    | .error e => .error e
    | .ok (c, l) =>
      if c ≠ 34 then .error .thrown
      else
        match rawStr [] l with
        | .error e => .error e
        | .ok (name, l) =>
          match skipSp l with
          | .error e => .error e
          | .ok (dcol, l) =>
            if dcol ≠ 58 then .error .thrown
            else
              match parse fuel l with
              | .error e => .error e
              | .ok (d, l) =>
                match delim 125 l with
                | .error e => .error e
                | .ok (false, l) => .ok (.obj (addField name d m), l)
                | .ok (true, []) => .error .thrown
                | .ok (true, c :: l) => parseFields fuel (addField name d m) c l

/-- jsonparser.tcc:154-168 `parseArray`: up to the first item. -/
def parseArray : (fuel : Nat) → List Nat → Except Err (Doc × List Nat)
  | 0, _ => .error .thrown
  | fuel + 1, l =>
    match dropSp l with
    | .error e => .error e
    | .ok [] => .error .thrown
    | .ok (c :: l) => if c = 93 then .ok (.arr .nil, l) else parseItems fuel .nil (c :: l)

/-- jsonparser.tcc:170-191: the items. -/
def parseItems : (fuel : Nat) → Docs → List Nat → Except Err (Doc × List Nat)
  | 0, _, _ => .error .thrown
  | fuel + 1, a, l =>
    match parse fuel l with
    | .error e => .error e
    | .ok (d, l) =>
      match delim 93 l with
      | .error e => .error e
      | .ok (false, l) => .ok (.arr (addItem d a), l)
      | .ok (true, l) => parseItems fuel (addItem d a) l

end

/-- The parser on a text; every call reads a character, so `fuel` never runs out (`parse_fuel`). -/
def parseDoc (l : List Nat) : Except Err (Doc × List Nat) := parse (3 * l.length + 1) l

end LS.Json

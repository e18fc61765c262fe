import Verif.Base32
/-!
# Model of `utils/base16.{h,cpp}`: `ByteToBase16Convert`, `Base16ToByteConvert`

Same conventions as `Verif.Base64`.
-/

namespace LS.Base16
open LS.Base64 (cell)
open LS.Base32 (toUpper toLower)

/-- base16.h:61-67: members of `ByteToBase16Convert` plus the inherited flags. -/
structure Enc where
  table : List Nat
  outchars : List (Option Nat) := [none, none]
  readpos : Nat := 0
  hasItems : Bool := false
  needItems : Bool := true
  eolb : Bool := false
deriving Repr, DecidableEq

/-- base16.cpp:37-43 `ByteToBase16Convert::getNext`. -/
def Enc.getNext (s : Enc) : Option (Nat × Enc) :=
  match cell s.outchars s.readpos with
  | none => none
  | some out =>
    let readpos := (s.readpos + 1) &&& 1
    let needItems := decide (readpos = 0)
    some (out, { s with readpos, needItems, hasItems := !needItems })

/-- base16.cpp:47-54 `ByteToBase16Convert::write`. -/
def Enc.write (s : Enc) (item : Nat) : Option Enc :=
  match s.table[item >>> 4]?, s.table[item &&& 0xF]? with
  | some c0, some c1 =>
    some { s with outchars := [some c0, some c1], needItems := false, hasItems := true, readpos := 0 }
  | _, _ => none

/-- base16.cpp:56-57 `ByteToBase16Convert::flush` is empty. -/
def Enc.flush (s : Enc) : Option Enc := some s

/-- The encoder seen by the driver of iterConv.h. -/
def enc : Conv Enc Nat Nat where
  hasItems := Enc.hasItems
  eolb := Enc.eolb
  getNext := Enc.getNext
  write := Enc.write
  flush := Enc.flush

/-- base16.cpp:31-35: constructor with a digit table. -/
def Enc.new (table : List Nat) : Enc := { table }

/-- base16.h:84-87: members of `Base16ToByteConvert`. -/
structure Dec where
  table : List (Option Nat)
  outByte : Option Nat := none
  wrpos : Nat := 0
  hasItems : Bool := false
  needItems : Bool := true
  eolb : Bool := false
deriving Repr, DecidableEq

/-- base16.cpp:96-111 `initTable`; as in base32 the flag works the other way round. -/
def initTable (t : List Nat) (caseSensitive : Bool) (cells : List (Option Nat)) :
    List (Option Nat) :=
  (t.zipIdx).foldl (fun acc (p : Nat × Nat) =>
    if caseSensitive then
      (acc.set (toUpper p.1) (some (p.2 &&& 15))).set (toLower p.1) (some (p.2 &&& 15))
    else acc.set p.1 (some (p.2 &&& 15))) cells

/-- base16.cpp:71-75 `Base16ToByteConvert::getNext`. -/
def Dec.getNext (s : Dec) : Option (Nat × Dec) :=
  match s.outByte with
  | none => none
  | some out => some (out, { s with hasItems := false, needItems := true })

/-- base16.cpp:80-92 `Base16ToByteConvert::write`; `none` = use of an uninitialised cell. -/
def Dec.write (s : Dec) (item : Nat) : Option Dec :=
  match cell s.table item with
  | none => none
  | some v =>
    if s.wrpos ≠ 0 then
      match s.outByte with
      | none => none
      | some b => some { s with outByte := some (b ||| v), wrpos := 0, hasItems := true,
                                needItems := false }
    else some { s with outByte := some ((v <<< 4) &&& 0xFF), wrpos := 1, hasItems := false,
                       needItems := true }

/-- base16.cpp:93-95 `Base16ToByteConvert::flush`. -/
def Dec.flush (s : Dec) : Option Dec := if s.wrpos = 1 then s.write 0 else some s

/-- The decoder seen by the driver of iterConv.h. -/
def dec : Conv Dec Nat Nat where
  hasItems := Dec.hasItems
  eolb := Dec.eolb
  getNext := Dec.getNext
  write := Dec.write
  flush := Dec.flush

/-- base16.cpp:65-69: decoder constructor. -/
def Dec.new (table : List Nat) (caseSensitive : Bool) : Dec :=
  { table := initTable table caseSensitive (List.replicate 256 none) }

/-- base16.cpp:17 `base16uppers_table`. -/
def hexUpper : List Nat := [48, 49, 50, 51, 52, 53, 54, 55, 56, 57, 65, 66, 67, 68, 69, 70]
/-- base16.cpp:18 `base16lowers_table`. -/
def hexLower : List Nat := [48, 49, 50, 51, 52, 53, 54, 55, 56, 57, 97, 98, 99, 100, 101, 102]

/-- base16.cpp:26-30: default encoder. -/
def Enc.default : Enc := Enc.new hexUpper
/-- base16.cpp:59-63: default decoder. -/
def Dec.default : Dec := Dec.new hexUpper false

end LS.Base16

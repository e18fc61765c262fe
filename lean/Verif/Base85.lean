import Verif.Base64
/-!
# Model of `utils/base85.{h,cpp}`: `ByteToBase85Convert`, `Base85ToByteConvert`

Same conventions as `Verif.Base64`; `accum` is a 32-bit word kept below `2^32` by explicit
reduction, `readpos` and `maxreadpos` are bytes.  An access behind the end of an array is `none`.
-/

namespace LS.Base85
open LS.Base64 (cell)

/-- base85.cpp:16-26 `encoder`. -/
def encoder : List Nat :=
  -- 0123456789abcdefghijklmnopqrstuvwxyzABCDEFGHIJKLMNOPQRSTUVWXYZ.-:+=^!/*?&<>()[]{}@%$#
  [48, 49, 50, 51, 52, 53, 54, 55, 56, 57, 97, 98, 99, 100, 101, 102, 103, 104, 105, 106, 107,
   108, 109, 110, 111, 112, 113, 114, 115, 116, 117, 118, 119, 120, 121, 122, 65, 66, 67, 68,
   69, 70, 71, 72, 73, 74, 75, 76, 77, 78, 79, 80, 81, 82, 83, 84, 85, 86, 87, 88, 89, 90, 46,
   45, 58, 43, 61, 94, 33, 47, 42, 63, 38, 60, 62, 40, 41, 91, 93, 123, 125, 64, 37, 36, 35]

/-- base85.cpp:30-43 `decoder`, indexed by character minus 32. -/
def decoder : List Nat :=
  [0x00, 0x44, 0x00, 0x54, 0x53, 0x52, 0x48, 0x00,
   0x4B, 0x4C, 0x46, 0x41, 0x00, 0x3F, 0x3E, 0x45,
   0x00, 0x01, 0x02, 0x03, 0x04, 0x05, 0x06, 0x07,
   0x08, 0x09, 0x40, 0x00, 0x49, 0x42, 0x4A, 0x47,
   0x51, 0x24, 0x25, 0x26, 0x27, 0x28, 0x29, 0x2A,
   0x2B, 0x2C, 0x2D, 0x2E, 0x2F, 0x30, 0x31, 0x32,
   0x33, 0x34, 0x35, 0x36, 0x37, 0x38, 0x39, 0x3A,
   0x3B, 0x3C, 0x3D, 0x4D, 0x00, 0x4E, 0x43, 0x00,
   0x00, 0x0A, 0x0B, 0x0C, 0x0D, 0x0E, 0x0F, 0x10,
   0x11, 0x12, 0x13, 0x14, 0x15, 0x16, 0x17, 0x18,
   0x19, 0x1A, 0x1B, 0x1C, 0x1D, 0x1E, 0x1F, 0x20,
   0x21, 0x22, 0x23, 0x4F, 0x00, 0x50, 0x00, 0x00]

/-- base85.h:46-56: members of `ByteToBase85Convert` plus the inherited flags. -/
structure Enc where
  outchars : List (Option Nat) := List.replicate 6 none
  accum : Nat := 0
  wrpos : Nat := 0
  readpos : Nat := 0
  maxreadpos : Nat := 0
  hasItems : Bool := false
  needItems : Bool := true
  eolb : Bool := false
deriving Repr, DecidableEq

/-- base85.cpp:52-58 `ByteToBase85Convert::reset`. -/
def Enc.reset (s : Enc) : Enc :=
  { s with readpos := 0, wrpos := 0, needItems := true, hasItems := false, accum := 0 }

/-- base85.cpp:60-67 `ByteToBase85Convert::getNext`. -/
def Enc.getNext (s : Enc) : Option (Nat × Enc) :=
  match cell s.outchars s.readpos with
  | none => none
  | some out =>
    let s := { s with readpos := (s.readpos + 1) % 256 }
    some (out, if s.readpos = s.maxreadpos then s.reset else s)

/-- base85.cpp:86-89: the digit loop; `multiplies[4-i]` is `85^(4-i)`. -/
def digits (accum : Nat) : List (Option Nat) :=
  [encoder[accum / (85 * 85 * 85 * 85) % 85]?, encoder[accum / (85 * 85 * 85) % 85]?,
   encoder[accum / (85 * 85) % 85]?, encoder[accum / 85 % 85]?, encoder[accum / 1 % 85]?]

/-- base85.cpp:71-95 `ByteToBase85Convert::write`. -/
def Enc.write (s0 : Enc) (item : Nat) : Enc :=
  let s := if s0.eolb then { s0 with eolb := false }.reset else s0
  let s := { s with accum := ((s.accum <<< 8) ||| item) % 4294967296, wrpos := s.wrpos + 1 }
  if s.wrpos > 3 then
    { s with outchars := digits s.accum ++ s.outchars.drop 5, maxreadpos := 5, needItems := false,
             hasItems := true }
  else s

/-- base85.cpp:103: `for (i = 0; i < remain; i++) write(0)`. -/
def Enc.writeZeros : Nat → Enc → Enc
  | 0, s => s
  | n + 1, s => Enc.writeZeros n (s.write 0)

/-- base85.cpp:97-109 `ByteToBase85Convert::flush`. -/
def Enc.flush (s0 : Enc) : Option Enc :=
  if s0.eolb then some s0
  else
    let s :=
      if s0.wrpos ≠ 0 then
        let s := Enc.writeZeros (4 - s0.wrpos) s0
        { s with maxreadpos := s.maxreadpos - (4 - s0.wrpos) }
      else s0
    some { s with eolb := true, needItems := false, hasItems := true }

/-- The encoder seen by the driver of iterConv.h. -/
def enc : Conv Enc Nat Nat where
  hasItems := Enc.hasItems
  eolb := Enc.eolb
  getNext := Enc.getNext
  write := fun s x => some (s.write x)
  flush := Enc.flush

/-- base85.h:71-76: members of `Base85ToByteConvert`; `maxreadpos` is not initialised by the
constructor (base85.cpp:111-115). -/
structure Dec where
  outBytes : List (Option Nat) := List.replicate 4 none
  accum : Nat := 0
  readpos : Nat := 0
  maxreadpos : Option Nat := none
  wrpos : Nat := 0
  hasItems : Bool := false
  needItems : Bool := true
  eolb : Bool := false
deriving Repr, DecidableEq

/-- base85.cpp:117-123 `Base85ToByteConvert::reset`. -/
def Dec.reset (s : Dec) : Dec :=
  { s with readpos := 0, wrpos := 0, needItems := true, hasItems := false, accum := 0 }

/-- base85.cpp:125-132 `Base85ToByteConvert::getNext`. -/
def Dec.getNext (s : Dec) : Option (Nat × Dec) :=
  match cell s.outBytes s.readpos, s.maxreadpos with
  | some out, some m =>
    let s := { s with readpos := (s.readpos + 1) % 256 }
    some (out, if s.readpos = m then s.reset else s)
  | _, _ => none

/-- base85.cpp:137-155 `Base85ToByteConvert::write`; `(signed char) item < 33` holds for
characters below 33 and from 128 up. -/
def Dec.write (s0 : Dec) (item : Nat) : Option Dec :=
  if item < 33 ∨ 128 ≤ item then some s0
  else
    let s := if s0.eolb then { s0 with eolb := false }.reset else s0
    match decoder[item - 32]? with
    | none => none
    | some d =>
      let s := { s with accum := (s.accum * 85 + d) % 4294967296, wrpos := s.wrpos + 1 }
      if s.wrpos = 5 then
        some { s with outBytes := [some ((s.accum >>> 24) % 256), some ((s.accum >>> 16) % 256),
                                   some ((s.accum >>> 8) % 256), some ((s.accum >>> 0) % 256)],
                      maxreadpos := some 4, needItems := false, hasItems := true }
      else some s

/-- base85.cpp:159-160: `for (i = 0; i < remain; i++) write(encoder[84])`. -/
def Dec.writePad : Nat → Dec → Option Dec
  | 0, s => some s
  | n + 1, s =>
    match s.write 35 with
    | none => none
    | some s1 => Dec.writePad n s1

/-- base85.cpp:156-164 `Base85ToByteConvert::flush`. -/
def Dec.flush (s0 : Dec) : Option Dec :=
  if s0.wrpos ≠ 0 then
    match Dec.writePad (5 - s0.wrpos) s0 with
    | none => none
    | some s =>
      match s.maxreadpos with
      | none => none
      | some m => some { s with maxreadpos := some ((m + 256 - (5 - s0.wrpos)) % 256), eolb := true }
  else some { s0 with eolb := true }

/-- The decoder seen by the driver of iterConv.h. -/
def dec : Conv Dec Nat Nat where
  hasItems := Dec.hasItems
  eolb := Dec.eolb
  getNext := Dec.getNext
  write := Dec.write
  flush := Dec.flush

end LS.Base85

import Verif.Base64
/-!
# Model of `base/streams/utf.{h,cpp}`: `WideToUtf8Convert`, `Utf8ToWideConvert`

`wchar_t` is a 32-bit signed integer; the model covers non-negative values (below `2^31`).
`char` values are their unsigned byte.  The filters `Utf8ToWideFilter`/`WideToUtf8Filter`
(utf.cpp:19-116) repeat the same logic and are not modelled separately.
-/

namespace LS.Utf
open LS.Base64 (cell)

/-- utf.h:33-45: members of `WideToUtf8Convert` plus the inherited flags; `rdpos` is not
initialised by the constructor (utf.cpp:181-182). -/
structure Enc where
  outchars : List (Option Nat) := List.replicate 10 none
  rdpos : Option Nat := none
  hasItems : Bool := false
  needItems : Bool := true
  eolb : Bool := false
deriving Repr, DecidableEq

/-- utf.cpp:231-235 `WideToUtf8Convert::updateState` for a known `rdpos`. -/
def Enc.setPos (s : Enc) (r : Nat) : Enc :=
  { s with rdpos := some r, needItems := decide (r = 10), hasItems := !decide (r = 10) }

/-- utf.cpp:184-188 `WideToUtf8Convert::getNext`. -/
def Enc.getNext (s : Enc) : Option (Nat × Enc) :=
  match s.rdpos with
  | none => none
  | some r =>
    match cell s.outchars r with
    | none => none
    | some out => some (out, s.setPos (r + 1))

/-- utf.cpp:200-221: first byte and number of continuation bytes. The cast to `char` keeps the
low eight bits. -/
def lead (c : Nat) : Nat × Nat :=
  if c < 128 then (c, 0)
  else if c < 0x7ff then (((c >>> 6) % 256) ||| 0xC0, 1)
  else if c < 0xffff then (((c >>> 12) % 256) ||| 0xE0, 2)
  else if c < 0x1fffff then (((c >>> 18) % 256) ||| 0xF0, 3)
  else if c < 0x3ffffff then (((c >>> 24) % 256) ||| 0xF8, 4)
  else if c < 0x7ffffff then (((c >>> 30) % 256) ||| 0xFC, 5)
  else (0xFE, 6)

/-- utf.cpp:222-225: the loop storing continuation bytes backwards. -/
def putTail : Nat → Nat → List (Option Nat) → Nat → List (Option Nat) × Nat
  | 0, _, o, r => (o, r)
  | k + 1, c, o, r => putTail k (c >>> 6) (o.set (r - 1) (some (0x80 ||| (c &&& 0x3F)))) (r - 1)

/-- utf.cpp:194-229 `WideToUtf8Convert::write`. -/
def Enc.write (s : Enc) (c : Nat) : Enc :=
  let (fbyte, parts) := lead c
  let (o, r) := putTail parts c s.outchars 10
  Enc.setPos { s with outchars := o.set (r - 1) (some fbyte) } (r - 1)

/-- The encoder seen by the driver of iterConv.h (`flush` is the empty default). -/
def enc : Conv Enc Nat Nat where
  hasItems := Enc.hasItems
  eolb := Enc.eolb
  getNext := Enc.getNext
  write := fun s c => some (s.write c)
  flush := some

/-- utf.h:13-31: members of `Utf8ToWideConvert`; `outchar` is uninitialised. -/
structure Dec where
  outchar : Option Nat := none
  skipInvChars : Bool := false
  state : Nat := 0xff
  hasItems : Bool := false
  needItems : Bool := true
  eolb : Bool := false
deriving Repr, DecidableEq

/-- utf.cpp:126-129 `Utf8ToWideConvert::updateState`. -/
def Dec.upd (s : Dec) : Dec :=
  { s with needItems := decide (s.state > 0), hasItems := !decide (s.state > 0) }

/-- utf.cpp:131-135 `Utf8ToWideConvert::getNext`. -/
def Dec.getNext (s : Dec) : Option (Nat × Dec) :=
  match s.outchar with
  | none => none
  | some x => some (x, { s with state := 0xff }.upd)

/-- utf.cpp:141-179 `Utf8ToWideConvert::write`. `none` = `InvalidUTF8Character`, or overflow of
the signed left shift. -/
def Dec.write (s : Dec) (a : Nat) : Option Dec :=
  if s.state = 0 then none
  else if s.state = 0xff then
    if a < 0x80 then some { s with outchar := some a, state := 0 }.upd
    else if a ≥ 0x80 ∧ a < 0xc0 then
      if !s.skipInvChars then none else some { s with outchar := some a, state := 0 }.upd
    else if a ≥ 0xC0 ∧ a < 0xE0 then some { s with outchar := some (a &&& 0x1F), state := 1 }.upd
    else if a ≥ 0xE0 ∧ a < 0xF0 then some { s with outchar := some (a &&& 0x0F), state := 2 }.upd
    else if a ≥ 0xF0 ∧ a < 0xF8 then some { s with outchar := some (a &&& 0x07), state := 3 }.upd
    else if a ≥ 0xF8 ∧ a < 0xFC then some { s with outchar := some (a &&& 0x03), state := 4 }.upd
    else if a ≥ 0xFC ∧ a < 0xFE then some { s with outchar := some (a &&& 0x01), state := 5 }.upd
    else if a ≥ 0xFE ∧ a < 0xFF then some { s with outchar := some 0, state := 6 }.upd
    else some s.upd
  else
    if a ≥ 0x80 ∧ a < 0xc0 then
      match s.outchar with
      | none => none
      | some x =>
        if x <<< 6 ≥ 2147483648 then none
        else some { s with outchar := some ((x <<< 6) ||| (a &&& 0x3F)), state := s.state - 1 }.upd
    else if !s.skipInvChars then none
    else some { s with outchar := some a, state := 0 }.upd

/-- The decoder seen by the driver of iterConv.h. -/
def dec : Conv Dec Nat Nat where
  hasItems := Dec.hasItems
  eolb := Dec.eolb
  getNext := Dec.getNext
  write := Dec.write
  flush := some

end LS.Utf

import Verif.FilterIter
/-!
# Model of the old URL filters (`utils/urlencode.h:50-152`) and of the filters for 16-bit characters (`base/streams/utf.h:94-153`)

They are filters of `FilterIter.lean`.  A `char` is its byte; a wide character is a number (32 bits on Linux).
-/

namespace LS.UrlFilter

open LS.FilterIter

/-- `UrlEncoder` (urlencode.h:58-60): `buff` and `pt`. -/
structure Enc where
  b0 : Nat
  b1 : Nat
  b2 : Nat
  pt : Nat
deriving DecidableEq, Repr

/-- The constructor (urlencode.h:79-80); `buff` is set before it is read. -/
def Enc.new : Enc := ⟨0, 0, 0, 0⟩

/-- A digit (urlencode.h:95-96). -/
def digit (d : Nat) : Nat := if 10 ≤ d then d + 65 - 10 else d + 48

/-- `input` (urlencode.h:87-99). -/
def Enc.input (s : Enc) (x : Nat) : Enc :=
  if (65 ≤ x ∧ x ≤ 90) ∨ (97 ≤ x ∧ x ≤ 122) ∨ (48 ≤ x ∧ x ≤ 57) ∨ x = 95 ∨ x = 45 then { s with b0 := x, pt := 1 }
  else ⟨digit (x % 16), digit (x / 16), 37, 3⟩

/-- `output` (urlencode.h:105-108). -/
def Enc.output (s : Enc) : Except Fail (Nat × Enc) :=
  if s.pt = 0 then .error .noItems
  else .ok (if s.pt - 1 = 0 then s.b0 else if s.pt - 1 = 1 then s.b1 else s.b2, { s with pt := s.pt - 1 })

/-- The encoder as a filter: `needItems` (urlencode.h:82-84), `hasItems` (101-103), `flush` (111-113). -/
def enc : Flt Enc Nat Nat where
  need := fun s => decide (s.pt = 0)
  inp := fun s x => .ok (s.input x)
  has := fun s => decide (s.pt ≠ 0)
  out := Enc.output
  flush := fun s => s

/-- `UrlDecoder` (urlencode.h:72-74): the bytes of `buff` that are read, `none` is not set. -/
structure Dec where
  b0 : Option Nat
  b1 : Option Nat
  b2 : Option Nat
  pt : Nat
deriving DecidableEq, Repr

/-- The constructor (urlencode.h:114-115). -/
def Dec.new : Dec := ⟨none, none, none, 0⟩

/-- `input` (urlencode.h:121-124); `buff[3]` is never read. -/
def Dec.input (s : Dec) (x : Nat) : Except Fail Dec :=
  if s.pt = 0 then .ok { s with b0 := some x, pt := 1 }
  else if s.pt = 1 then .ok { s with b1 := some x, pt := 2 }
  else if s.pt = 2 then .ok { s with b2 := some x, pt := 3 }
  else if s.pt = 3 then .ok { s with pt := 4 }
  else .error .ub

/-- The value of a digit (urlencode.h:134-135), a number modulo 256. -/
def digitVal (c : Nat) : Nat := if 97 ≤ c then c - 97 + 10 else if 65 ≤ c then c - 65 + 10 else c + 256 - 48

/-- `output` (urlencode.h:130-142): a byte that is not set is undefined. -/
def Dec.output (s : Dec) : Except Fail (Nat × Dec) :=
  match s.b0 with
  | none => .error .ub
  | some a =>
    if a = 37 then
      match s.b1, s.b2 with
      | some c, some d => .ok ((digitVal c * 16 + digitVal d) % 256, { s with pt := 0 })
      | _, _ => .error .ub
    else if a = 43 then .ok (32, { s with pt := 0 })
    else .ok (a, { s with pt := 0 })

/-- The decoder as a filter: `needItems` (urlencode.h:117-119), `hasItems` (126-128), `flush` (144-145). -/
def dec : Flt Dec Nat Nat where
  need := fun s => decide (s.pt = 0 ∨ (s.pt < 3 ∧ s.b0 = some 37))
  inp := Dec.input
  has := fun s => decide (s.pt = 1 ∨ (s.pt = 3 ∧ s.b0 = some 37))
  out := Dec.output
  flush := fun s => s

/-- `BytesToWide` (utf.h:120-122). -/
structure B2W where
  v0 : Nat
  v1 : Nat
  x : Nat
  big : Bool
deriving DecidableEq, Repr

/-- The constructor (utf.h:118); `val` is set before it is read. -/
def B2W.new (big : Bool) : B2W := ⟨0, 0, 0, big⟩

/-- `val[x++] = y` (utf.h:100). -/
def B2W.put (s : B2W) (y : Nat) : B2W := if s.x = 0 then { s with v0 := y, x := 1 } else { s with v1 := y, x := s.x + 1 }

/-- The rest of `input` (utf.h:101-108). -/
def B2W.mark (s : B2W) : B2W :=
  if s.x = 2 ∧ 254 ≤ s.v0 ∧ 254 ≤ s.v1 then
    if s.v0 = 254 ∧ s.v1 = 255 then { s with big := true, x := 0 }
    else if s.v0 = 255 ∧ s.v1 = 254 then { s with big := false, x := 0 }
    else s
  else s

/-- `BytesToWide` as a filter (utf.h:97-115); `flush` of the base does nothing (iteratorFilter.h). -/
def b2w : Flt B2W Nat Nat where
  need := fun s => decide (s.x < 2)
  inp := fun s y => if 2 ≤ s.x then .error .ub else .ok (s.put y).mark
  has := fun s => decide (s.x = 2)
  out := fun s => .ok (if s.big = true then s.v0 * 256 + s.v1 else s.v0 + 256 * s.v1, { s with x := 0 })
  flush := fun s => s

/-- `WideToBytes` (utf.h:149-151). -/
structure W2B where
  v0 : Nat
  v1 : Nat
  x : Nat
  big : Bool
deriving DecidableEq, Repr

/-- The constructor (utf.h:147). -/
def W2B.new (big : Bool) : W2B := ⟨0, 0, 2, big⟩

/-- `input` (utf.h:130-140). -/
def W2B.input (s : W2B) (y : Nat) : W2B := if s.big = true then ⟨y / 256 % 256, y % 256, 0, s.big⟩ else ⟨y % 256, y / 256 % 256, 0, s.big⟩

/-- `WideToBytes` as a filter (utf.h:128-144). -/
def w2b : Flt W2B Nat Nat where
  need := fun s => decide (s.x = 2)
  inp := fun s y => .ok (s.input y)
  has := fun s => decide (s.x < 2)
  out := fun s => if s.x = 0 then .ok (s.v0, { s with x := 1 }) else if s.x = 1 then .ok (s.v1, { s with x := 2 }) else .error .ub
  flush := fun s => s

end LS.UrlFilter

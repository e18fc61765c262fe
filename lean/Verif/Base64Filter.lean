import Verif.FilterIter
import Verif.Base64
/-!
# Model of the old Base64 filters (`utils/base64.tcc`: `Base64EncoderT`, `Base64DecoderT`) and of `HexDecoder` (`utils/base64.h:211-305`)

They are filters of `FilterIter.lean`, so `FilterRead`/`FilterWrite` over them (`ReadAndEncodeBase64` and the others, base64.h:164-187) are modelled there.

Simplified: `buffer` of the encoder is not cut to 64 bits (only its bits 18-23 are read); `cycle` is a number (a `char` in the code, so a filter that is written to
about 120 times after its end would overflow).  Not modelled: `base64_initTables` run by two threads at once (base64.cpp:225-235: the second one takes a table
that is not yet filled).
-/

namespace LS.Base64Filter

open LS.FilterIter

/-- `Base64EncoderT` (base64.h:128-134). -/
structure Enc where
  buffer : Nat
  cycle : Nat
  eqchr : Nat
  eos : Nat
deriving DecidableEq, Repr

/-- The constructor (base64.tcc:26-28). -/
def Enc.new : Enc := ⟨0, 0, 7, 7⟩

/-- `input` (base64.tcc:35-39). -/
def Enc.input (s : Enc) (x : Nat) : Enc := { s with buffer := s.buffer * 256 + x % 256, cycle := s.cycle + 1 }

/-- `output` (base64.tcc:47-60) with the table `t`. -/
def Enc.output (t : List Nat) (s : Enc) : Nat × Enc :=
  if s.eqchr ≤ s.cycle then (61, { s with cycle := s.cycle + 1 })
  else (t.getD (s.buffer / 262144 % 64) 0, { s with buffer := s.buffer * 64, cycle := if s.cycle + 1 = 7 then 0 else s.cycle + 1 })

/-- The loop of `flush` (base64.tcc:77-80): one turn. -/
def Enc.pad (s : Enc) : Enc := { s.input 0 with eqchr := s.eqchr - 1 }

/-- `flush` (base64.tcc:73-84). -/
def Enc.flush (noPadding : Bool) (s : Enc) : Enc :=
  if s.cycle = 0 then { s with cycle := s.eqchr }
  else
    let s1 := if s.cycle < 3 then s.pad else s
    let s2 := if s1.cycle < 3 then s1.pad else s1
    if noPadding = true then { s2 with eos := s2.eqchr } else s2

/-- The encoder as a filter: `needItems` (base64.tcc:30-32), `hasItems` (42-44). -/
def enc (t : List Nat) (noPadding : Bool) : Flt Enc Nat Nat where
  need := fun s => decide (s.cycle < 3)
  inp := fun s x => .ok (s.input x)
  has := fun s => decide (3 ≤ s.cycle ∧ s.cycle < s.eos)
  out := fun s => .ok (s.output t)
  flush := Enc.flush noPadding

/-- `calcToRead` of the encoder (base64.tcc:68-70), as `FilterRead::getRemain` calls it (iteratorFilter.h:425). -/
def encRemain (r : Rd Enc Nat Nat) : Nat := r.src.length / 4 * 3

/-- `Base64DecoderT` (base64.h:153-156). -/
structure Dec where
  buffer : Nat
  cycle : Nat
  eos : Nat
deriving DecidableEq, Repr

/-- The constructor (base64.tcc:141-143). -/
def Dec.new : Dec := ⟨0, 0, 7⟩

/-- `base64_decodeTable` after `base64_initTables` (base64.cpp:225-235). -/
def decodeTable (c : Nat) : Nat :=
  if c = 45 then 62 else if c = 95 then 63 else if c ∈ LS.Base64.standardTable then LS.Base64.standardTable.idxOf c else 255

/-- `input` (base64.tcc:93-107): a shift by a negative number is undefined. -/
def Dec.input (s : Dec) (x : Nat) : Except Fail Dec :=
  if decodeTable x = 255 then
    if x = 61 ∨ x = 46 ∨ x = 126 then .ok { s with eos := if s.cycle + 3 < s.eos then s.cycle + 3 else s.eos, cycle := s.cycle + 1 }
    else .ok s
  else if 4 < s.cycle + 1 then .error .ub
  else .ok { s with buffer := s.buffer ||| (decodeTable x <<< (6 * (4 - (s.cycle + 1)))), cycle := s.cycle + 1 }

/-- `output` (base64.tcc:115-124). -/
def Dec.output (s : Dec) : Except Fail (Nat × Dec) :=
  if 7 < s.cycle + 1 then .error .ub
  else .ok (s.buffer / 2 ^ ((7 - (s.cycle + 1)) * 8) % 256, if s.cycle + 1 = 7 then ⟨0, 0, s.eos⟩ else { s with cycle := s.cycle + 1 })

/-- `flush` (base64.tcc:146-151). -/
def Dec.flush (s : Dec) : Dec := if s.cycle < 4 ∧ 0 < s.cycle then { s with eos := 7 - s.cycle, cycle := 4 } else s

/-- The decoder as a filter: `needItems` (base64.tcc:88-90), `hasItems` (110-112). -/
def dec : Flt Dec Nat Nat where
  need := fun s => decide (s.cycle < 4)
  inp := Dec.input
  has := fun s => decide (4 ≤ s.cycle ∧ s.cycle < s.eos)
  out := Dec.output
  flush := Dec.flush

/-- `HexDecoder` (base64.h:225-228): `buff` with what is not set, and `idx`. -/
structure HexDec where
  b0 : Option Nat
  b1 : Option Nat
  idx : Nat

/-- The constructors (base64.h:213-214): without a table the position is 0, with a table it is 2. -/
def HexDec.new (withTable : Bool) : HexDec := ⟨none, none, if withTable = true then 2 else 0⟩

/-- `HexDecoder` as a filter (base64.h:261-297); `tab` is `hexchars`, a byte that is not set for a character that is no digit (base64.h:300-305). -/
def hexDec (tab : Nat → Option Nat) : Flt HexDec Nat Nat where
  need := fun s => decide (s.idx < 2)
  inp := fun s x =>
    if s.idx = 0 then .ok { s with b0 := tab x, idx := 1 }
    else if s.idx = 1 then .ok { s with b1 := tab x, idx := 2 }
    else .error .ub
  has := fun s => decide (2 ≤ s.idx)
  out := fun s => match s.b0, s.b1 with
    | some a, some b => .ok ((a * 16 ||| b) % 256, { s with idx := 0 })
    | _, _ => .error .ub
  flush := fun s => if s.idx = 1 then { s with idx := 2 } else s

/-- The table of `"0123456789abcdef"`. -/
def hexTab (c : Nat) : Option Nat := if 48 ≤ c ∧ c ≤ 57 then some (c - 48) else if 97 ≤ c ∧ c ≤ 102 then some (c - 87) else none

end LS.Base64Filter

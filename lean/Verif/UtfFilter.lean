/-
The UTF-8 filters.  base/streams/utf.h:50-91, base/streams/utf.cpp:19-116.

These are other classes than the converters of `Utf.lean`: `Utf8ToWideFilter` and `WideToUtf8Filter`, used by the binary archives.  `wchar_t` is signed with 32 bits, `natural` has 64 bits.
-/
import Verif.Basic
namespace LS.UtfFilter

/-- `(wchar_t)n` of a `natural`. -/
def toW (n : Nat) : Int := if n % 4294967296 < 2147483648 then ((n % 4294967296 : Nat) : Int) else ((n % 4294967296 : Nat) : Int) - 4294967296

/-- `natural c = rdChar` -/
def ofW (c : Int) : Nat := (c % 18446744073709551616).toNat

/-- `fbyte` and `parts` (utf.cpp:89-110). -/
def lead (c : Nat) : Nat × Nat :=
  if c < 128 then (c % 256, 0)
  else if c < 0x7ff then ((c >>> 6) % 256 ||| 0xC0, 1)
  else if c < 0xffff then ((c >>> 12) % 256 ||| 0xE0, 2)
  else if c < 0x1fffff then ((c >>> 18) % 256 ||| 0xF0, 3)
  else if c < 0x3ffffff then ((c >>> 24) % 256 ||| 0xF8, 4)
  else if c < 0x7ffffff then ((c >>> 30) % 256 ||| 0xFC, 5)
  else (0xFE, 6)

/-- The loop filling `data` from its end (utf.cpp:111-114); `acc` is what is behind `rdpos`. -/
def tail : Nat → Nat → List Nat → List Nat
  | 0, _, acc => acc
  | k + 1, c, acc => tail k (c >>> 6) ((0x80 ||| (c &&& 0x3F)) :: acc)

/-- `WideToUtf8Filter::input` (utf.cpp:80-116) and then `output` until nothing is left (utf.h:81-82). -/
def encode (c : Int) : List Nat := (lead (ofW c)).1 :: tail (lead (ofW c)).2 (ofW c) []

/-- Members of `Utf8ToWideFilter` (utf.h:67-69); `none` is `naturalNull`. -/
structure F where
  accum : Nat := 0
  state : Option Nat := none
  skip : Bool := false
deriving DecidableEq, Repr

/-- `Utf8ToWideFilter::input` (utf.cpp:31-69); `none` is `InvalidUTF8Character`. -/
def F.input (f : F) (a : Nat) : Option F :=
  match f.state with
  | some 0 => none
  | none =>
    if a < 0x80 then some { f with accum := a, state := some 0 }
    else if a < 0xC0 then (if f.skip then some { f with accum := a, state := some 0 } else none)
    else if a < 0xE0 then some { f with accum := a &&& 0x1F, state := some 1 }
    else if a < 0xF0 then some { f with accum := a &&& 0x0F, state := some 2 }
    else if a < 0xF8 then some { f with accum := a &&& 0x07, state := some 3 }
    else if a < 0xFC then some { f with accum := a &&& 0x03, state := some 4 }
    else if a < 0xFE then some { f with accum := a &&& 0x01, state := some 5 }
    else if a < 0xFF then some { f with accum := 0, state := some 6 }
    else some f
  | some (n + 1) =>
    if 0x80 ≤ a ∧ a < 0xC0 then some { f with accum := ((f.accum <<< 6) % 18446744073709551616) ||| (a &&& 0x3F), state := some n }
    else if f.skip then some { f with accum := a, state := some 0 } else none

/-- `hasItems` (utf.h:57). -/
def F.hasItems (f : F) : Bool := f.state == some 0

/-- `output` (utf.h:58). -/
def F.output (f : F) : Int × F := (toW f.accum, { f with state := none })

/-- `flush` (utf.cpp:72-76). -/
def F.flush (f : F) : Option Unit := if f.hasItems = false ∧ f.state ≠ none then none else some ()

/-- The use of the filter on a text: every byte put in, every character taken, `flush` at the end. -/
def decode : F → List Nat → Option (List Int)
  | f, [] => (f.flush).map (fun _ => [])
  | f, a :: as =>
    match f.input a with
    | none => none
    | some f => if f.hasItems then (decode f.output.2 as).map (f.output.1 :: ·) else decode f as

end LS.UtfFilter

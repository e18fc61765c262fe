/-
Numbers as text: base/text/toString.h (`ToString`), base/text/textParser.tcc (`parseUnsignedNumber`,
`parseSignedNumber`), base/text/textFormat.cpp (`numberToString`), base/text/textParser.cpp
(`stringToUnsignedNumber`, `stringToSignedNumber`).

`natural` is a 64-bit unsigned number (a `Nat` below 2^64), `integer` a 64-bit signed number (an `Int` from
-2^63 to 2^63-1).  A character is its code.
-/
import Verif.Deque

namespace LS.NumText

/-- `integer` from the bits of a `natural` (conversion as compilers do it, defined since C++20). -/
def toInt (n : Nat) : Int := if n < 2 ^ 63 then (n : Int) else (n : Int) - 2 ^ 64

/-! ## toString.h -/

/-- toString.h:71-73, 96-98: the letter for a digit. -/
def digitChar (up : Bool) (x : Nat) : Nat := if x > 9 then (if up then 65 else 97) + x - 10 else 48 + x

/-- toString.h:69-74 `ToStringUnsigned::extract`; also toString.h:94-99 `ToStringSigned::extract`, whose
argument is not negative and whose division is done unsigned because `base` is (simplified: `base` below
2^63).  `none`: division by zero, or (`base` = 1) recursion without an end. -/
def extract : (fuel : Nat) → (val base : Nat) → (up : Bool) → Option (List Nat)
  | 0, _, _, _ => none
  | fuel + 1, val, base, up =>
    if base = 0 then none
    else if val ≥ base then (extract fuel (val / base) base up).map fun t => t ++ [digitChar up (val % base)]
    else some [digitChar up (val % base)]

/-- toString.h:64-68 `ToStringUnsigned::extractFirst`. -/
def toStrU (val base : Nat) (up : Bool) : Option (List Nat) :=
  if val = 0 then some [48] else extract 64 val base up

/-- toString.h:81-93 `ToStringSigned::extractFirst`; `none` also for `-val` out of range. -/
def toStrS (val : Int) (base : Nat) (up : Bool) : Option (List Nat) :=
  if val = 0 then some [48]
  else if val < 0 then
    if val = -2 ^ 63 then none
    else (extract 64 (-val).toNat base up).map fun t => 45 :: t
  else extract 64 val.toNat base up

/-! ## textParser.tcc -/

/-- textParser.tcc:558-564: the digit; the character is converted to `char` first. -/
def digitOf (x : Nat) : Option Nat :=
  let c := x % 256
  if c ≥ 48 ∧ c ≤ 57 then some (c - 48)
  else if c ≥ 65 ∧ c ≤ 90 then some (c - 65 + 10)
  else if c ≥ 97 ∧ c ≤ 122 then some (c - 97 + 10)
  else none

/-- textParser.tcc:557-569: the loop; the number, `okaj` and what is left. -/
def parseLoop (base : Nat) : (number : Nat) → (okaj : Bool) → List Nat → Nat × Bool × List Nat
  | number, okaj, [] => (number, okaj, [])
  | number, okaj, x :: l =>
    match digitOf x with
    | none => (number, okaj, x :: l)
    | some a => if a ≥ base then (number, okaj, x :: l) else parseLoop base ((number * base + a) % 2 ^ 64) true l

/-- textParser.tcc:554-571 `parseUnsignedNumber` with `natural`: `none` for the result `false`. -/
def parseU (l : List Nat) (base : Nat) : Option Nat × List Nat :=
  let r := parseLoop base 0 false l
  (if r.2.1 then some r.1 else none, r.2.2)

/-- textParser.tcc:554-571 with `integer`: `number * base + a` is computed unsigned, because `base` is, and
then converted. -/
def parseUI (l : List Nat) (base : Nat) : Option Int × List Nat :=
  let r := parseU l base
  (r.1.map toInt, r.2)

/-- textParser.tcc:577-596 `parseSignedNumber` with `integer`. -/
def parseS (l : List Nat) (base : Nat) : Except Err (Option Int × List Nat) :=
  match l with
  | [] => .ok (none, [])
  | x :: l' =>
    if x % 256 = 43 then .ok (parseUI l' base)
    else if x % 256 = 45 then
      match parseUI l' base with
      | (none, r) => .ok (none, r)
      | (some tmp, r) => if tmp = -2 ^ 63 then .error .ub else .ok (some (-tmp), r)
    else .ok (parseUI l base)

/-! ## textFormat.cpp -/

/-- textFormat.cpp:22 `hexChars`, with the zero at the end. -/
def hexChars : List Nat := "0123456789ABCDEFGHIJKLMNOPQRSTUVWXYZabcdefghijklmnopqrstuvwxyz".toList.map Char.toNat ++ [0]

/-- A write to the array behind a pointer. -/
def put (buf : List Nat) (i x : Nat) : Except Err (List Nat) := if i < buf.length then .ok (buf.set i x) else .error .ub

/-- textFormat.cpp:25-36 `formatUnsigned`: the pointer behind the digits (an index; `none` for the null
pointer) and the memory. -/
def formatU : (fuel : Nat) → (num : Nat) → (buf : List Nat) → (start size base : Nat) → Except Err (Option Nat × List Nat)
  | 0, _, _, _, _, _ => .error .ub
  | fuel + 1, num, buf, start, size, base =>
    if num = 0 then .ok (some start, buf)
    else if size = 0 then .ok (none, buf)
    else if base = 0 then .error .ub
    else
      match formatU fuel (num / base) buf start size base with
      | .error e => .error e
      | .ok (none, buf) => .ok (none, buf)
      | .ok (some c, buf) =>
        match hexChars[num % base]? with
        | none => .error .ub
        | some d =>
          match put buf c d with
          | .error e => .error e
          | .ok buf => .ok (some (c + 1), buf)

/-- The text between two positions. -/
def text (buf : List Nat) (start stop : Nat) : List Nat := (buf.drop start).take (stop - start)

/-- textFormat.cpp:44-48, 61-65: "0" and the terminating zero. -/
def zeroText (buf : List Nat) (start : Nat) : Except Err (Option (List Nat) × List Nat) :=
  match put buf start 48 with
  | .error e => .error e
  | .ok buf =>
    match put buf (start + 1) 0 with
    | .error e => .error e
    | .ok buf => .ok (some [48], buf)

/-- textFormat.cpp:50-56, 72-78: the digits and the terminating zero; `none` for `nil`. -/
def digitsText (num : Nat) (buf : List Nat) (start size base : Nat) : Except Err (Option (List Nat) × List Nat) :=
  match formatU 65 num buf start (size - 1) base with
  | .error e => .error e
  | .ok (none, buf) => .ok (none, buf)
  | .ok (some x, buf) =>
    match put buf x 0 with
    | .error e => .error e
    | .ok buf => .ok (some (text buf start x), buf)

/-- textFormat.cpp:40-57 `numberToStringUnsigned`. -/
def numToStrU (num : Nat) (buf : List Nat) (start size base : Nat) : Except Err (Option (List Nat) × List Nat) :=
  if size < 2 then .ok (none, buf)
  else if num = 0 then zeroText buf start
  else digitsText num buf start size base

/-- textFormat.cpp:60-80 `numberToStringSigned` for a number which is not negative. -/
def numToStrS0 (num : Nat) (buf : List Nat) (start size base : Nat) : Except Err (Option (List Nat) × List Nat) :=
  if size < 3 then .ok (none, buf)
  else if num = 0 then zeroText buf start
  else digitsText num buf start size base

/-- textFormat.cpp:60-80 `numberToStringSigned`. -/
def numToStrS (num : Int) (buf : List Nat) (start size base : Nat) : Except Err (Option (List Nat) × List Nat) :=
  if num < 0 then
    if size < 3 then .ok (none, buf)
    else
      match put buf start 45 with
      | .error e => .error e
      | .ok buf =>
        if num = -2 ^ 63 then .error .ub
        else
          match numToStrS0 (-num).toNat buf (start + 1) (size - 1) base with
          | .error e => .error e
          | .ok (none, buf) => .ok (none, buf)
          | .ok (some z, buf) => .ok (some (text buf start (start + (1 + z.length))), buf)
  else numToStrS0 num.toNat buf start size base

/-! ## textParser.cpp -/

/-- textParser.cpp:28-32: the digit; the character is converted to `T` (a negative `char` is no digit). -/
def digitOf' (x : Nat) : Option Nat :=
  if x ≥ 48 ∧ x ≤ 57 then some (x - 48)
  else if x ≥ 65 ∧ x ≤ 90 then some (x - 65 + 10)
  else if x ≥ 97 ∧ x ≤ 122 then some (x - 97 + 10)
  else none

/-- textParser.cpp:26-37: the loop.  `next` is `s * tbase + q` in the type `T`. -/
def strLoop (next : Nat → Nat → Except Err Nat) (base : Nat) : Nat → List Nat → Except Err Nat
  | s, [] => .ok s
  | s, x :: l =>
    match digitOf' x with
    | none => .error .thrown
    | some q =>
      if q ≥ base then .error .thrown
      else
        match next s q with
        | .error e => .error e
        | .ok s => strLoop next base s l

/-- textParser.cpp:21-39 `stringToUnsignedNumber`. -/
def strToNum (next : Nat → Nat → Except Err Nat) (base : Nat) : List Nat → Except Err Nat
  | [] => .error .thrown
  | x :: l => if x = 43 then strToNum next base l else strLoop next base 0 (x :: l)

/-- `s * tbase + q` in `unsigned long`. -/
def nextU (base s q : Nat) : Except Err Nat := .ok ((s * base + q) % 2 ^ 64)

/-- `s * tbase + q` in `long`. -/
def nextS (base s q : Nat) : Except Err Nat := if s * base + q < 2 ^ 63 then .ok (s * base + q) else .error .ub

/-- textParser.cpp:21-39 with `T` = `unsigned long`. -/
def strToU (l : List Nat) (base : Nat) : Except Err Nat := strToNum (nextU base) base l

/-- textParser.cpp:41-47 `stringToSignedNumber` with `T` = `long`. -/
def strToS (l : List Nat) (base : Nat) : Except Err Int :=
  match l with
  | [] => .error .thrown
  | x :: l' =>
    if x = 43 then (strToNum (nextS base) base l').map Int.ofNat
    else if x = 45 then (strToNum (nextS base) base l').map fun (n : Nat) => -(n : Int)
    else (strToNum (nextS base) base l).map Int.ofNat

end LS.NumText

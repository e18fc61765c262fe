/-
Text of a decimal number with fraction and exponent.

Source: /repo/src/lightspeed/base/text/strtodouble.cpp:88-265 (`strtod`) and
/repo/src/lightspeed/base/text/textParser.cpp:48-55 (`stringToFloatNumber`),
which the JSON parser uses.

Characters are their codes. A position in the text is the rest of the text from
there; behind the end the pointer reads 0 (strtodouble.cpp:68). `int` has 32
bits and its overflow is undefined. Codes are below 128 (`isspace` and `isdigit`
of a negative `char` are undefined).

The number is kept as an integer and a decimal exponent, as it is before the
last multiplication; the rounding of doubles is not modelled, only that powers
of ten above 10^308 are infinite.
-/
namespace LS.StrToD

inductive Err where
  | ub
  /-- strtodouble.cpp:242 -/
  | range
  /-- textParser.cpp:53 -/
  | format
  deriving DecidableEq, Repr

/-- The returned double: `frac` times ten to `exp`, or the results of arithmetic
with an infinite power. -/
inductive Val where
  | num (neg : Bool) (frac : Int) (exp : Int)
  | zero (neg : Bool)
  | inf (neg : Bool)
  | nan
  deriving DecidableEq, Repr

/-- `isspace`, strtodouble.cpp:118 -/
def isSpace (c : Nat) : Bool := c == 32 || (decide (9 ≤ c) && decide (c ≤ 13))
/-- `isdigit`, strtodouble.cpp:140 and 216 -/
def isDigit (c : Nat) : Bool := decide (48 ≤ c) && decide (c ≤ 57)

/-- strtodouble.cpp:68 -/
def at0 : List Nat → Nat
  | [] => 0
  | c :: _ => c

/-- strtodouble.cpp:69-72 -/
def adv : List Nat → List Nat
  | [] => []
  | _ :: r => r

/-- strtodouble.cpp:118-120 -/
def skipWs : List Nat → List Nat
  | [] => []
  | c :: r => if isSpace c then skipWs r else c :: r

/-- strtodouble.cpp:121-129 and 207-215: behind the sign, when there is one. -/
def skipSign (p : List Nat) : List Nat := if at0 p = 45 ∨ at0 p = 43 then adv p else p

/-- strtodouble.cpp:137-147: length of the mantissa, place of the point, rest. -/
def scanMant (m : Nat) (d : Option Nat) : List Nat → Nat × Option Nat × List Nat
  | [] => (m, d, [])
  | c :: r =>
    if isDigit c then scanMant (m + 1) d r
    else if c = 46 ∧ d = none then scanMant (m + 1) (some m) r
    else (m, d, c :: r)

/-- strtodouble.cpp:176-185 and 187-196: `n` digits, the point is skipped. -/
def suck : Nat → Int → List Nat → Int × List Nat
  | 0, a, p => (a, p)
  | n + 1, a, p =>
    let c := at0 p
    let p := adv p
    if c = 46 then suck n (10 * a + ((at0 p : Int) - 48)) (adv p)
    else suck n (10 * a + ((c : Int) - 48)) p

/-- the largest `int` -/
def intMax : Nat := 2 ^ 31 - 1

/-- strtodouble.cpp:216-219 -/
def scanExp (e : Nat) : List Nat → Except Err (Nat × List Nat)
  | [] => .ok (e, [])
  | c :: r =>
    if isDigit c then
      if e * 10 + (c - 48) > intMax then .error .ub else scanExp (e * 10 + (c - 48)) r
    else .ok (e, c :: r)

/-- strtodouble.cpp:205-220: sign and value of the exponent, rest. -/
def expPart (p : List Nat) : Except Err (Bool × Nat × List Nat) :=
  if at0 p = 69 ∨ at0 p = 101 then
    let p := adv p
    let neg := at0 p == 45
    let p := skipSign p
    match scanExp 0 p with
    | .ok (e, p) => .ok (neg, e, p)
    | .error e => .error e
  else .ok (false, 0, p)

/-- strtodouble.cpp:234-254: the exponent applied to the integer. -/
def scale (neg : Bool) (frac : Int) (exp : Int) : Except Err Val :=
  if exp < -(2 ^ 31) ∨ exp > 2 ^ 31 - 1 then .error .ub
  else if exp = -(2 ^ 31) then .error .ub
  else if exp.natAbs > 511 then .error .range
  else if exp.natAbs > 308 then
    if exp < 0 then .ok (.zero neg)
    else if frac = 0 then .ok .nan
    else .ok (.inf neg)
  else .ok (.num neg frac exp)

/-- strtodouble.cpp:158-162: digits in front of the point, digits. -/
def point (mant : Nat) : Option Nat → Nat × Nat
  | none => (mant, mant)
  | some d => (d, mant - 1)

/-- strtodouble.cpp:163-168: exponent of the fraction, digits to read. -/
def cut (decPt mant : Nat) : Int × Nat :=
  if mant > 18 then ((decPt : Int) - 18, 18) else ((decPt : Int) - mant, mant)

/-- strtodouble.cpp:88-265: the value and the number of characters read. -/
def strtod (text : List Nat) : Except Err (Val × Nat) :=
  let p := skipWs text
  let neg := at0 p == 45
  let p := skipSign p
  let (mant, dec, pExp) := scanMant 0 none p
  let (decPt, mant) := point mant dec
  let (fracExp, mant) := cut decPt mant
  if mant = 0 then .ok (.num neg 0 0, 0)
  else
    let (frac1, p) := suck (mant - 9) 0 p
    let (frac2, _) := suck (min mant 9) 0 p
    match expPart pExp with
    | .error e => .error e
    | .ok (eneg, e, p) =>
      match scale neg (1000000000 * frac1 + frac2) (if eneg then fracExp - e else fracExp + e) with
      | .error e => .error e
      | .ok v => .ok (v, text.length - p.length)

/-- textParser.cpp:48-55 -/
def toFloat (text : List Nat) : Except Err Val :=
  match strtod text with
  | .error e => .error e
  | .ok (v, n) => if n < text.length then .error .format else .ok v

end LS.StrToD

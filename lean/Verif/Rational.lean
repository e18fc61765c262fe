import Verif.Basic
/-!
# Model of `base/rational.h` (`rational`)

`integer` is a 64-bit signed word, held as an `Int`; `natural` a 64-bit unsigned word, held as a
`Nat`.  Mixed arithmetic converts to unsigned (C++ usual arithmetic conversions), unsigned
arithmetic wraps, conversion back to signed is two's complement.  Signed overflow is undefined
behaviour: `none`.  Not modelled: construction from and conversion to floating point.
-/

namespace LS.Rat64

/-- Conversion to `natural`. -/
def toU (n : Int) : Nat := (n % 18446744073709551616).toNat
/-- Conversion of an unsigned result to `integer`. -/
def toI (u : Nat) : Int :=
  if u % 18446744073709551616 < 9223372036854775808 then (u % 18446744073709551616 : Nat)
  else ((u % 18446744073709551616 : Nat) : Int) - 18446744073709551616
/-- Result of a signed operation; outside of the range the behaviour is undefined. -/
def chk (x : Int) : Option Int :=
  if -9223372036854775808 ≤ x ∧ x < 9223372036854775808 then some x else none

/-! ## gcd -/

/-- rational.h:133-136: common factors of two. -/
def common : Nat → Nat → Nat → Nat → Option (Nat × Nat × Nat)
  | 0, _, _, _ => none
  | f + 1, u, v, shift =>
    if (u ||| v) &&& 1 = 0 then common f (u >>> 1) (v >>> 1) (shift + 1) else some (u, v, shift)

/-- rational.h:138-139 and 143-144: remove factors of two. -/
def strip : Nat → Nat → Option Nat
  | 0, _ => none
  | f + 1, u => if u &&& 1 = 0 then strip f (u >>> 1) else some u

/-- rational.h:142-156: the main loop, `u` odd. -/
def loop : Nat → Nat → Nat → Option Nat
  | 0, _, _ => none
  | f + 1, u, v =>
    match strip (v + 1) v with
    | none => none
    | some v =>
      if u < v then
        if (v - u) >>> 1 ≠ 0 then loop f u ((v - u) >>> 1) else some u
      else
        if (u - v) >>> 1 ≠ 0 then loop f v ((u - v) >>> 1) else some v

/-- rational.h:124-160 `gcd`; `none` would be an endless loop. -/
def gcd (u v : Nat) : Option Nat :=
  if u = 0 ∨ v = 0 then some (u ||| v)
  else
    match common (u + 1) u v 0 with
    | none => none
    | some (u, v, shift) =>
      match strip (u + 1) u with
      | none => none
      | some u =>
        match loop (u + v + 1) u v with
        | none => none
        | some u => some ((u <<< shift) % 18446744073709551616)

/-! ## Rational numbers -/

/-- rational.h:49-51. -/
structure Q where
  n : Int
  d : Nat
deriving DecidableEq, Repr

/-- rational.h:388-392 `_gcd`; negating the least integer overflows. -/
def Q.gcd (q : Q) : Option Nat :=
  if q.n < 0 then (chk (-q.n)).bind fun m => Rat64.gcd (toU m) q.d
  else Rat64.gcd (toU q.n) q.d

/-- rational.h:380-387 `_normalize`.  `n /= curgcd` divides as unsigned. -/
def normLoop : Nat → Q → Option Q
  | 0, _ => none
  | f + 1, q =>
    match q.gcd with
    | none => none
    | some g => if g > 1 then normLoop f { n := toI (toU q.n / g), d := q.d / g } else some q

/-- `_normalize`; three rounds are always enough (see `norm_total`). -/
def norm (q : Q) : Option Q := normLoop 3 q

/-- rational.h:196-198 `operator+`. -/
def add (a b : Q) : Option Q :=
  norm { n := toI (toU a.n * b.d + toU b.n * a.d), d := a.d * b.d % 18446744073709551616 }

/-- rational.h:204-206 `operator-`. -/
def sub (a b : Q) : Option Q :=
  norm { n := toI (toU a.n * b.d % 18446744073709551616 +
              (18446744073709551616 - toU b.n * a.d % 18446744073709551616)),
         d := a.d * b.d % 18446744073709551616 }

/-- rational.h:213-215 `operator*`: the numerators are multiplied as signed numbers. -/
def mul (a b : Q) : Option Q :=
  (chk (a.n * b.n)).bind fun n => norm { n := n, d := a.d * b.d % 18446744073709551616 }

/-- rational.h:183-187 `inv`. -/
def inv (a : Q) : Option Q :=
  if a.n < 0 then
    (chk (-toI a.d)).bind fun n => (chk (-a.n)).bind fun d => some { n := n, d := toU d }
  else some { n := toI a.d, d := toU a.n }

/-- rational.h:221-223 `operator/`. -/
def div (a b : Q) : Option Q := (inv b).bind (mul a)

/-- rational.h:256-258 `lessThan`. -/
def lessThan (a b : Q) : Option Bool :=
  (chk (a.n * toI b.d)).bind fun x => (chk (b.n * toI a.d)).bind fun y =>
    (chk (x - y)).map fun z => decide (z < 0)

/-- rational.h:296-301 `floor`: both divisions are unsigned; `none` is a division by zero. -/
def floor (a : Q) : Option Int :=
  if a.d = 0 then none
  else if toI (toU a.n % a.d) < 0 then chk (toI (toU a.n / a.d) - 1)
  else some (toI (toU a.n / a.d))

/-- rational.h:309-314 `ceil`. -/
def ceil (a : Q) : Option Int :=
  if a.d = 0 then none
  else if toI (toU a.n % a.d) > 0 then chk (toI (toU a.n / a.d) + 1)
  else some (toI (toU a.n / a.d))

/-! ## Power -/

/-- rational.h:345-352: the loop of `powerNumber`; it hands back `cur`. -/
def powLoop {T : Type} (times : T → T → Option T) : Nat → T → T → Nat → Option T
  | 0, _, cur, expo => if expo ≠ 0 then none else some cur
  | f + 1, acc, cur, expo =>
    if expo ≠ 0 then
      match (if expo &&& 1 = 1 then times acc cur else some acc), times cur cur with
      | some acc, some cur => powLoop times f acc cur (expo >>> 1)
      | _, _ => none
    else some cur

/-- Multiplication of `integer`. -/
def mulS (a b : Int) : Option Int := chk (a * b)
/-- Multiplication of `natural`. -/
def mulU (a b : Nat) : Option Nat := some (a * b % 18446744073709551616)

/-- rational.h:343-353 `powerNumber<integer>`. -/
def powS (n : Int) (expo : Nat) : Option Int := powLoop mulS expo 1 n expo
/-- rational.h:343-353 `powerNumber<natural>`. -/
def powU (n : Nat) (expo : Nat) : Option Nat := powLoop mulU expo 1 n expo

/-- rational.h:333 for a positive exponent. -/
def powPos (a : Q) (e : Nat) : Option Q :=
  match powS a.n e, powU a.d e with
  | some n, some d => norm { n := n, d := d }
  | _, _ => none

/-- rational.h:330-334 `power`. -/
def power (a : Q) (e : Int) : Option Q :=
  if e = 0 then some { n := 1, d := 1 }
  else if e < 0 then (chk (-e)).bind fun e' => (inv a).bind fun b => powPos b (toU e')
  else powPos a (toU e)

end LS.Rat64

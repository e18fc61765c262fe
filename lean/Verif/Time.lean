import Verif.Rational
/-!
# Model of `base/timestamp.h` (`TimeStamp`) and the calendar part of `base/datetime.{h,cpp}` (`Date`)

`Bin::integer32`/`Bin::natural32` members are held as `Int`/`Nat`, conversions are explicit.
Overflow of 32-bit signed addition is undefined behaviour (`none`).  Overflow of 64-bit signed
addition is not modelled (years up to `2^50` do not come near).  Not modelled: textual formats,
`now()`, floating point, class `Time` and the time zones.
-/

namespace LS.Time
open LS.Rat64 (toU toI)

/-- `dayMillis` (timestamp.h:34). -/
abbrev dayMillis : Nat := 86400000
/-- `daySecs` (timestamp.h:32). -/
abbrev daySecs : Nat := 86400

/-- Conversion to `Bin::integer32`. -/
def i32 (x : Int) : Int := (x + 2147483648) % 4294967296 - 2147483648
/-- Signed 32-bit result; out of range is undefined. -/
def chk32 (x : Int) : Option Int := if -2147483648 ≤ x ∧ x < 2147483648 then some x else none

/-- timestamp.h:308-311 members. -/
structure TS where
  day : Int
  time : Nat
deriving DecidableEq, Repr

/-- timestamp.h:48 `TimeStamp(day, time)`: the sum is unsigned, then cut to 32 bits. -/
def mk (day : Int) (time : Nat) : TS :=
  { day := i32 ((toU day + time / dayMillis : Nat) : Int), time := time % dayMillis }

/-- timestamp.h:66-68 `fromUnix(t)`: the division is unsigned. -/
def fromUnix (t : Int) : TS :=
  mk (toI (toU t / daySecs)) (toU t % daySecs * 1000 % 18446744073709551616)

/-- timestamp.h:232 `asUnix`. -/
def asUnix (t : TS) : Int := toI (toU t.day * daySecs + t.time / 1000)

/-- Outcome of `compare`. -/
inductive Cmp | less | equal | greater
deriving DecidableEq, Repr

/-- timestamp.h:136-142 `compare`. -/
def compare (a b : TS) : Cmp :=
  if a.day = b.day then
    if a.time = b.time then .equal
    else if a.time < b.time then .less else .greater
  else if a.day < b.day then .less else .greater

/-- timestamp.h:149-153 `operator+` with `fixOverflow` (262-267). -/
def add (a b : TS) : Option TS :=
  let newtime := (a.time + b.time) % 4294967296
  (chk32 (a.day + b.day)).map fun s => mk (s + (newtime / dayMillis : Nat)) (newtime % dayMillis)

/-- timestamp.h:269-277: loop of `fixUnderflow`. -/
def fixUnderflow : Nat → Int → Nat → Option (Int × Nat)
  | 0, _, _ => none
  | f + 1, adds, time =>
    if time > 0x80000000 then fixUnderflow f (adds + 1) ((time + dayMillis) % 4294967296)
    else some (adds, time)

/-- timestamp.h:160-164 `operator-`. -/
def sub (a b : TS) : Option TS :=
  let newtime := (a.time + (4294967296 - b.time)) % 4294967296
  match fixUnderflow 32 0 newtime with
  | none => none
  | some (adds, newtime) => (chk32 (a.day - b.day)).map fun s => mk (s - adds) newtime

/-- timestamp.h:214-216. -/
def intervalMSec (n : Nat) : TS := mk (toI (n / dayMillis)) (n % dayMillis)
/-- timestamp.h:217-219. -/
def intervalSec (n : Nat) : TS := mk (toI (n / daySecs)) (n % daySecs * 1000)
/-- timestamp.h:220-222: the divisor is 144. -/
def intervalMin (n : Nat) : TS := mk (toI (n / 144)) (n % 144 * 1000 * 60)
/-- timestamp.h:223-225. -/
def intervalHour (n : Nat) : TS := mk (toI (n / 24)) (n % 24 * 1000 * 60 * 60)
/-- timestamp.h:226-228. -/
def intervalDay (n : Nat) : TS := mk (toI n) 0

/-- timestamp.h:235-239 `getMilis`. -/
def getMilis (t : TS) : Nat := (toU t.day * dayMillis + t.time) % 18446744073709551616
/-- timestamp.h:241-245 `getSecs`. -/
def getSecs (t : TS) : Nat := (toU t.day * 86400 + t.time / 1000) % 18446744073709551616
/-- timestamp.h:247-251 `getMins`. -/
def getMins (t : TS) : Nat := (toU t.day * 1440 + t.time / 60000) % 18446744073709551616
/-- timestamp.h:253-257 `getHours`. -/
def getHours (t : TS) : Nat := (toU t.day * 24 + t.time / 3600000) % 18446744073709551616

/-! ## Date -/

/-- datetime.cpp:9-13 `daysPerMonth`; outside of the row the behaviour is undefined. -/
def daysPerMonth (leap : Bool) (m : Int) : Option Int :=
  if m < 0 then none
  else (if leap then [31,29,31,30,31,30,31,31,30,31,30,31]
        else [31,28,31,30,31,30,31,31,30,31,30,31])[m.toNat]?

/-- datetime.cpp:15-17 `intDiv`: the division is unsigned. -/
def intDiv (val : Int) (d : Nat) : Int :=
  toI (toU val / d + (18446744073709551616 - if val < 0 then 1 else 0))

/-- datetime.cpp:23-25 `intMod(val, d, w)`. -/
def intModW (val : Int) (d : Nat) (w : Int) : Int :=
  toI (toU val + (18446744073709551616 - toU w * d % 18446744073709551616))

/-- datetime.cpp:19-21 `intMod(val, d)`. -/
def intMod (val : Int) (d : Nat) : Int := intModW val d (intDiv val d)

/-- datetime.cpp:27-33 `daysToYear`. -/
def daysToYear (year : Int) : Int :=
  year * 365 + intDiv (year + 3) 4 - intDiv (year + 99) 100 + intDiv (year + 399) 400

/-- datetime.cpp:35-38 `isLeapYear`. -/
def isLeapYear (year : Int) : Bool :=
  (decide (intMod year 4 = 0) && decide (intMod year 100 ≠ 0)) || decide (intMod year 400 = 0)

/-- Outcome of one round of the adjusting loop. -/
inductive Step where
  | again (year month day : Int)
  | done (year month day : Int) (leap : Bool)
  | ub
deriving DecidableEq, Repr

/-- datetime.cpp:79-103: the day within a year, month normalized to 0–11. -/
def adjustMonth (year month day : Int) (leap : Bool) : Step :=
  match daysPerMonth leap month with
  | none => .ub
  | some md =>
    if day > md then .again year (month + 1) (day - md)
    else if day < 1 then
      match daysPerMonth leap (intMod (month - 1) 12) with
      | none => .ub
      | some md' => .again year (month - 1) (day + md')
    else .done year month day leap

/-- datetime.cpp:61-103: one round for a normalized month. -/
def adjustYear (year month day : Int) (leap : Bool) : Step :=
  if day > 365 + (if leap then 1 else 0) then
    .again (year + 1) month (day - (365 + (if leap then 1 else 0)))
  else if day < 1 - (365 + (if leap then 1 else 0)) then
    .again (year - 1) month (day + (365 + (if leap then 1 else 0)))
  else adjustMonth year month day leap

/-- datetime.cpp:51-103: one round. -/
def adjustStep (year month day : Int) : Step :=
  adjustYear (year + intDiv month 12) (intModW month 12 (intDiv month 12)) day
    (isLeapYear (year + intDiv month 12))

/-- datetime.cpp:51-107: the adjusting loop of `dayNumber`; the result is (year, month 0–11, day,
leap row of the last round). -/
def adjust : Nat → Int → Int → Int → Option (Int × Int × Int × Bool)
  | 0, _, _, _ => none
  | f + 1, year, month, day =>
    match adjustStep year month day with
    | .again y m d => adjust f y m d
    | .done y m d l => some (y, m, d, l)
    | .ub => none

/-- datetime.cpp:114-115: days of the first `month` months. -/
def monthSum (leap : Bool) : Nat → Option Int
  | 0 => some 0
  | m + 1 =>
    match monthSum leap m, daysPerMonth leap m with
    | some s, some d => some (s + d)
    | _, _ => none

/-- datetime.cpp:40-120 `Date::dayNumber`, at most `fuel` rounds of the adjusting loop. -/
def dayNumber (fuel : Nat) (year month day : Int) : Option Int :=
  let ym : Int × Int := if month = 0 then (year - 1, month + 12) else (year, month)
  match adjust fuel ym.1 (ym.2 - 1) day with
  | none => none
  | some (year, month, day, leap) =>
    (monthSum leap month.toNat).map fun s => daysToYear year + s + (day - 1)

/-- datetime.h:19-26 `Parts`. -/
structure Parts where
  year : Int
  month : Int
  day : Int
deriving DecidableEq, Repr

/-- datetime.cpp:129-134: search for the year. -/
def findYear : Nat → Int → Int → Option Int
  | 0, _, _ => none
  | f + 1, dayNr, year => if daysToYear year > dayNr then findYear f dayNr (year - 1) else some year

/-- datetime.cpp:144-147: search for the month. -/
def findMonth (leap : Bool) : Nat → Int → Int → Option (Int × Int)
  | 0, _, _ => none
  | f + 1, month, day =>
    match daysPerMonth leap month with
    | none => none
    | some md => if day > md then findMonth leap f (month + 1) (day - md) else some (month, day)

/-- datetime.cpp:122-154 up to the `return`: year, month and day as computed. -/
def computeDate (fuel : Nat) (dayNr : Int) : Option (Int × Int × Int) :=
  match findYear fuel dayNr (intDiv dayNr 365) with
  | none => none
  | some year =>
    match findMonth (isLeapYear year) 13 0 (dayNr - daysToYear year) with
    | none => none
    | some (month, day) => some (year, month + 1, day + 1)

/-- datetime.cpp:153 and datetime.h:32-34: the constructor `PartsEx(year, month, day, …)` hands
`(day, month, year)` to the base constructor `Parts(year, month, day)`. -/
def dateFromDayNumber (fuel : Nat) (dayNr : Int) : Option Parts :=
  (computeDate fuel dayNr).map fun (y, m, d) => { year := d, month := m, day := y }

end LS.Time

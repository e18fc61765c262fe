/-
Model of the text formatter `TextFormat`
(/repo/src/lightspeed/base/text/textFormat.h:82-211,
/repo/src/lightspeed/base/text/textFormat.tcc:78-498).

Characters are their codes; the model covers `TextFormat<char>` (codes below
256) and `TextFormat<wchar_t>`.  How numbers become texts and the conversion
between narrow and wide texts are modelled elsewhere: an argument is the text it
has become.  What is written goes to a list; a target that is full is not
modelled.
-/
namespace LS.TextFmt

abbrev Text := List Nat

/-- `ParamItem`, textFormat.h:160-171: a reference to a text of the caller, or
the end of a text in `buff`. -/
inductive Param where
  | ref (t : Text)
  | pos (n : Nat)
deriving DecidableEq

/-- `TextFormat`, textFormat.h:174-188. -/
structure TF where
  pat : Text
  buff : Text
  params : List Param
  nl : Text
deriving DecidableEq

/-- `operator()`, textFormat.tcc:78-98, 319-332. -/
def setPattern (s : TF) (p : Text) : TF := { s with pat := p, buff := [], params := [] }

/-- The size of `ParamList`, textFormat.h:177. -/
def maxParams : Nat := 30

/-- `paramList.add`: beyond the size the allocator throws
(base/memory/staticAlloc.h:37-40); `none`. -/
def push (s : TF) (p : Param) : Option TF :=
  if s.params.length < maxParams then some { s with params := s.params ++ [p] } else none

/-- `operator<<` of a text of the same kind of characters, textFormat.tcc:101-110. -/
def addRef (s : TF) (t : Text) : Option TF := push s (.ref t)

/-- `operator<<` of a character, a number or a text that is converted,
textFormat.tcc:112-168, 334-392, 455-463: the text is put behind the others. -/
def addBuf (s : TF) (t : Text) : Option TF :=
  push { s with buff := s.buff ++ t } (.pos (s.buff.length + t.length))

/-- The search for the end of the text before, textFormat.tcc:273-280; the
parameters before, from the last one. -/
def lastEnd : List Param → Nat
  | [] => 0
  | .ref _ :: r => lastEnd r
  | .pos n :: r => if n = 0 then lastEnd r else n

/-- The text of the argument with number `idx`, textFormat.tcc:261-283. -/
def fragment (s : TF) (idx : Nat) : Text :=
  if idx = 0 then [] else
    match s.params[idx - 1]? with
    | none => []
    | some (.ref t) => t
    | some (.pos n) =>
      if n = 0 then []
      else if idx - 1 = 0 then s.buff.take n
      else
        let fr := lastEnd (s.params.take (idx - 1)).reverse
        (s.buff.drop fr).take (n - fr)

/-- `FormatInfo`, textFormat.tcc:188-197; `space` is set on success only. -/
structure Nfo where
  space : Nat
  fill : Option Nat
  right : Bool
  force : Bool
  before : Bool
deriving DecidableEq

/-- The cast `(char)iter.peek()`, textFormat.tcc:205-241. -/
def low (c : Nat) : Nat := c % 256

def isDigit (z : Nat) : Bool := decide (48 ≤ z ∧ z ≤ 57)

/-- textFormat.tcc:236-245: what is behind the digits. -/
def close (n : Nfo) (sp : Nat) : Text → Option Nfo × Text
  | [] => (none, [])
  | c :: r =>
    if low c = 125 then (some { n with space := sp }, r)
    else
      match r with
      | [] => (none, [])
      | d :: r' =>
        if low d = 125 then (some { n with space := sp, fill := some c }, r')
        else (none, d :: r')

/-- The digits of the width, textFormat.tcc:229-235. -/
def digs (sp : Nat) : Text → Nat × Text
  | [] => (sp, [])
  | c :: r => if isDigit (low c) then digs ((sp * 10 + (low c - 48)) % 2 ^ 64) r else (sp, c :: r)

/-- The digits and the end. -/
def widthPart (n : Nfo) (r : Text) : Option Nfo × Text := close n (digs 0 r).1 (digs 0 r).2

/-- The character to fill with, textFormat.tcc:217-227. -/
def fillPart (n : Nfo) : Text → Option Nfo × Text
  | [] => (none, [])
  | c :: r =>
    if low c < 49 ∨ low c > 57 then
      widthPart { n with fill := some c, before := n.right, right := true } r
    else widthPart { n with fill := none, before := false } (c :: r)

/-- The sign, textFormat.tcc:204-216. -/
def signPart : Text → Option Nfo × Text
  | [] => (none, [])
  | c :: r =>
    if low c = 43 then fillPart ⟨8, none, true, true, false⟩ r
    else if low c = 45 then fillPart ⟨8, none, true, false, false⟩ r
    else fillPart ⟨8, none, false, false, false⟩ (c :: r)

/-- `parseFormatInfo`, textFormat.tcc:199-246, and its call at 254-256. -/
def parseInfo : Text → Option Nfo × Text
  | [] => (none, [])
  | c :: r => if c = 123 then signPart r else (none, c :: r)

/-- The number of the argument, textFormat.tcc:257-260. -/
def index (i : Nat) : Text → Nat × Text
  | [] => (i, [])
  | c :: r => if isDigit c then index ((i * 10 + (c - 48)) % 2 ^ 64) r else (i, c :: r)

/-- textFormat.tcc:261: a `%` behind the number is skipped. -/
def skipPct : Text → Text
  | [] => []
  | c :: r => if c = 37 then r else c :: r

def fillOf (n : Nfo) (k : Nat) : Text := List.replicate k (n.fill.getD 32)

/-- The text with sign and filling, textFormat.tcc:288-317. -/
def format (n : Nfo) (f : Text) : Text :=
  let rn := if n.space < f.length then 0 else n.space - f.length
  let hasSign := f.head? == some 45 || f.head? == some 43
  let reserve := n.force || f.head? == some 45
  let rn := if reserve && decide (rn > 0) && !hasSign then rn - 1 else rn
  let sign := if hasSign then f.take 1 else [43]
  (if n.before && reserve then sign else []) ++
  (if n.right then fillOf n rn else []) ++
  (if !n.before && reserve then sign else []) ++
  (if reserve && hasSign then f.drop 1 else f) ++
  (if !n.right then fillOf n rn else [])

/-- What is written for an argument. -/
def piece (n : Option Nfo) (f : Text) : Text :=
  match n with
  | none => f
  | some i => format i f

/-- An argument: the format, the number and what is behind. -/
def argPart (r : Text) : (Option Nfo × Nat) × Text :=
  let a := parseInfo r
  let b := index 0 a.2
  ((a.1, b.1), skipPct b.2)

/-- The loop of `output`, textFormat.tcc:252-318.  The first number bounds the
rounds; every round takes a character. -/
def go (nl : Text) (frag : Nat → Text) : Nat → Text → Text
  | _, [] => []
  | 0, _ :: _ => []
  | k + 1, x :: r =>
    if x = 10 then nl ++ go nl frag k r
    else if x ≠ 37 then x :: go nl frag k r
    else
      match r with
      | [] => [x]
      | y :: r' =>
        if y = 37 ∨ y = 10 then y :: go nl frag k r'
        else
          let a := argPart (y :: r')
          piece a.1.1 (frag a.1.2) ++ go nl frag k a.2

/-- `output`, textFormat.tcc:246-320: the text and the object after it. -/
def output (s : TF) : Text × TF :=
  (if s.pat.isEmpty then s.buff else go s.nl (fragment s) s.pat.length s.pat,
    { s with buff := [], params := [] })

end LS.TextFmt

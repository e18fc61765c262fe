/-
The reading of a text by a pattern: `TextParser`,
base/text/textParser.h:68-490 and base/text/textParser.tcc:25-801.

Characters are numbers. A source is the list of the characters that are left; a
failed attempt of the code leaves its iterator where it stopped, so the rest is part
of the outcome. Simplified: the numbers of fields and of ranges are taken without the
wrap at 2^64; the comparison is the one of the default (`==` and `<` on the codes,
base/compare.h:125-132); no custom parser is set (textParser.tcc:664-683 is not
modelled) and `parseClass` (textParser.tcc:263-281) is called from nowhere, so
`inclass` is always false. The conversions of a field to numbers are elsewhere.
-/

namespace LS.TextPat

abbrev Text := List Nat

/-- How a call ends: the two results, an exception of an iterator that is read past
its end (base/containers/arrayt.h:97,108), a loop that never ends, and the end of the
fuel of this model (which `C143_fuel` shows not to happen). -/
inductive Ans where
  | yes | no | exn | hang | fuel
deriving DecidableEq

/-- `naturalNull`. -/
def null : Nat := 18446744073709551615

/-- `data` and `fragments`, textParser.h:430-431. -/
structure St where
  data : Text
  frags : List (Nat × Nat)
deriving DecidableEq

/-- `StepState`, textParser.h:440-446. -/
structure Step where
  beg : Nat
  lo : Nat
  hi : Nat
  star : Bool
deriving DecidableEq

/-- An outcome: the answer, the rest of the source, the collected data. -/
structure Out where
  ans : Ans
  src : Text
  st : St
deriving DecidableEq

/-- Settings: `nl` and `ws`, textParser.h:433, 341-342. -/
structure Conf where
  nl : Text
  ws : Text
deriving DecidableEq

/-- `data.add`. -/
def St.add (s : St) (c : Nat) : St := { s with data := s.data ++ [c] }

/-- `isWS`, textParser.tcc:25-28. -/
def isWS (c : Nat) : Bool := c == 32 || c == 9 || c == 10 || c == 13 || c == 8 || c == 7

/-- The blanks of a space in the pattern, textParser.tcc:94-103, 106-116. -/
def isBlank (cf : Conf) (c : Nat) : Bool :=
  if cf.ws.isEmpty then c == 32 || c == 9 else cf.ws.contains c

/-- The characters that stand for themselves after `%`, textParser.tcc:64. -/
def isEsc (n : Nat) : Bool :=
  n == 37 || n == 95 || n == 32 || n == 10 || n == 9 || n == 8

/-- A digit. -/
def isDigit (c : Nat) : Bool := 48 ≤ c && c ≤ 57

/-- The end of a line, textParser.tcc:89-93: the answer and the rest. -/
def eatLine : Text → Text → Bool × Text
  | [], s => (true, s)
  | _ :: _, [] => (false, [])
  | n :: nl, c :: s => if n == c then eatLine nl s else (false, s)

/-- `parse`, textParser.tcc:55-127. `arg` is what `parseArg` does. -/
def parseWith (cf : Conf) (arg : Text → Text → St → Out) : Text → Text → St → Out
  | [], src, st => if src.isEmpty then ⟨.yes, src, st⟩ else ⟨.no, src, st⟩
  | p :: pat, src, st =>
    if p == 37 then
      match pat with
      | [] => ⟨.yes, src, st⟩
      | n :: rest =>
        if isEsc n then
          match src with
          | [] => ⟨.no, src, st⟩
          | c :: src' => if n == c then parseWith cf arg rest src' st else ⟨.no, src, st⟩
        else arg (n :: rest) src st
    else if p == 8 then
      if (src.takeWhile isWS).isEmpty then ⟨.no, src, st⟩
      else parseWith cf arg pat (src.dropWhile isWS) st
    else if p == 9 then
      if (src.takeWhile (fun c => c == 32 || c == 9)).isEmpty then ⟨.no, src, st⟩
      else parseWith cf arg pat (src.dropWhile (fun c => c == 32 || c == 9)) st
    else if p == 10 then
      match eatLine cf.nl src with
      | (true, src') => parseWith cf arg pat src' st
      | (false, src') => ⟨.no, src', st⟩
    else if p == 32 then
      parseWith cf arg pat (src.dropWhile (isBlank cf)) st
    else if p == 95 then
      if (src.takeWhile (isBlank cf)).isEmpty then ⟨.no, src, st⟩
      else parseWith cf arg pat (src.dropWhile (isBlank cf)) st
    else
      match src with
      | [] => ⟨.no, src, st⟩
      | c :: src' => if c == p then parseWith cf arg pat src' st else ⟨.no, src, st⟩

/-- What a jump over a part of the pattern gives. -/
inductive Sk where
  | next (r : Text)
  | close (r : Text)
  | exn
  | hang
deriving DecidableEq

/-- The loop of `skipCharlist`, textParser.tcc:144-149. -/
def skipListLoop : Text → Sk
  | [] => .next []
  | [x] => if x == 93 then .next [] else .exn
  | [x, y] => if x == 93 then .next [y] else if y == 45 then .exn else skipListLoop [y]
  | x :: y :: z :: r =>
    if x == 93 then .next (y :: z :: r)
    else if y == 45 then skipListLoop r
    else skipListLoop (y :: z :: r)

/-- `skipCharlist`, textParser.tcc:139-150. -/
def skipList : Text → Sk
  | [] => .exn
  | x :: r => if x == 42 || x == 94 || x == 93 then skipList r else skipListLoop r

/-- `skipRange`, textParser.tcc:152-157. -/
def skipRange : Text → Text
  | [] => []
  | x :: r => if x == 41 then r else skipRange r

/-- `skipPattern`, textParser.tcc:165-191. The inner loop reads the second digit of a
number with `peek` and does not step over it. -/
def skipPattern : Nat → Text → Sk
  | 0, _ => .hang
  | _ + 1, [] => .next []
  | f + 1, p :: r =>
    if p == 91 then
      match skipList r with
      | .next r' => skipPattern f r'
      | o => o
    else if p == 40 then skipPattern f (skipRange r)
    else if p == 39 || p == 113 then
      match r with
      | _ :: _ :: r' => skipPattern f r'
      | _ => .exn
    else if p == 37 then .next r
    else if isDigit p then
      match r with
      | [] => .next []
      | q :: r' => if q == 37 then .next r' else if isDigit q then .hang else .next r
    else skipPattern f r

/-- The jump behind the end of the alternatives: `skipToNextBranch` repeated until it
says false, textParser.tcc:600-602, 634. `d` counts the open alternatives (the code
recurses); the last `%>` closes. -/
def skipClose : Nat → Nat → Text → Sk
  | 0, _, _ => .hang
  | _ + 1, _, [] => .close []
  | f + 1, d, c :: r =>
    if c == 37 then
      match r with
      | [] => .close []
      | e :: r' =>
        if e == 37 then skipClose f d r'
        else if e == 124 then skipClose f d r'
        else if e == 62 then (if d == 0 then .close r' else skipClose f (d - 1) r')
        else if e == 60 then skipClose f (d + 1) r
        else
          match skipPattern (r.length + 1) r with
          | .next r'' => skipClose f d r''
          | o => o
    else skipClose f d r

/-- `skipToNextBranch`, textParser.tcc:585-612: behind the next `%|` (`next`) or behind
the `%>` (`close`). -/
def skipNext : Nat → Text → Sk
  | 0, _ => .hang
  | _ + 1, [] => .close []
  | f + 1, c :: r =>
    if c == 37 then
      match r with
      | [] => .close []
      | e :: r' =>
        if e == 37 then skipNext f r'
        else if e == 124 then .next r'
        else if e == 62 then .close r'
        else if e == 60 then
          match skipClose (r.length + 1) 0 r with
          | .close r'' => skipNext f r''
          | o => o
        else
          match skipPattern (r.length + 1) r with
          | .next r'' => skipNext f r''
          | o => o
    else skipNext f r

/-- `checkNumber`, textParser.tcc:702-713. -/
def checkNumber (base x : Nat) : Bool :=
  if base > 10 then
    (48 ≤ x && x ≤ 57) || (65 ≤ x && x < 65 + (base - 10)) ||
      (97 ≤ x && x < 97 + (base - 10))
  else 48 ≤ x && x < 48 + base

/-- The loops that take characters while there is room, textParser.tcc:731-735,
782-791. -/
def takeLoop (ok : Nat → Bool) : Text → Nat → St → Nat × Text × St
  | [], m, st => (m, [], st)
  | c :: src, m, st =>
    if m != 0 && ok c then takeLoop ok src (m - 1) (st.add c) else (m, c :: src, st)

/-- The part of `parseNumber` behind the sign, textParser.tcc:727-737: the room that is
left, or none for a failure. -/
def digits (base max : Nat) (src : Text) (st : St) : Option Nat × Text × St :=
  match max, src with
  | m + 1, c :: src' =>
    if checkNumber base c then
      let r := takeLoop (checkNumber base) src' m (st.add c)
      (some r.1, r.2.1, r.2.2)
    else (none, src, st)
  | _, _ => (none, src, st)

/-- `parseNumber`, textParser.tcc:715-738. -/
def number (base max : Nat) (neg : Bool) (src : Text) (st : St) : Option Nat × Text × St :=
  if max == 0 then (none, src, st)
  else match src with
  | [] => (none, src, st)
  | c :: src' =>
    if c == 43 || c == 45 then
      if neg then digits base (max - 1) src' (st.add c) else (none, src, st)
    else digits base max src st

/-- The exponent of `parseFloat`, textParser.tcc:758-765. -/
def exponent (max : Nat) (src : Text) (st : St) : Bool × Text × St :=
  match src with
  | [] => (true, src, st)
  | k :: src' =>
    if k == 101 || k == 69 then
      if max - 1 == 0 || src'.isEmpty then (false, src', st.add k)
      else
        let r := number 10 (max - 1) true src' (st.add k)
        (r.1.isSome, r.2.1, r.2.2)
    else (true, src, st)

/-- `parseFloat`, textParser.tcc:740-767. -/
def float (max : Nat) (src : Text) (st : St) : Bool × Text × St :=
  match number 10 max true src st with
  | (none, src1, st1) => (false, src1, st1)
  | (some m, src1, st1) =>
    if m == 0 then (true, src1, st1)
    else match src1 with
    | [] => (true, src1, st1)
    | k :: src2 =>
      if k == 46 then
        if m - 1 == 0 || src2.isEmpty then (false, src2, st1.add k)
        else match number 10 (m - 1) false src2 (st1.add k) with
          | (none, src3, st3) => (false, src3, st3)
          | (some m3, src3, st3) =>
            if m3 == 0 then (true, src3, st3) else exponent m3 src3 st3
      else exponent m src1 st1

/-- A letter of an identifier, textParser.tcc:777, 783. -/
def isAlpha (c : Nat) : Bool := c == 95 || (97 ≤ c && c ≤ 122) || (65 ≤ c && c ≤ 90)

/-- `parseIdentifier`, textParser.tcc:770-795. -/
def ident (max : Nat) (src : Text) (st : St) : Bool × Text × St :=
  match max, src with
  | m + 1, c :: src' =>
    if isAlpha c then
      let r := takeLoop (fun c => isAlpha c || isDigit c) src' m (st.add c)
      (true, r.2.1, r.2.2)
    else (false, src, st)
  | _, _ => (false, src, st)

/-- The commands of `handleCustomPatterns`, textParser.tcc:652-663, 684-686. -/
def command (p max : Nat) (src : Text) (st : St) : Bool × Text × St :=
  if p == 100 then let r := number 10 max true src st; (r.1.isSome, r.2.1, r.2.2)
  else if p == 117 then let r := number 10 max false src st; (r.1.isSome, r.2.1, r.2.2)
  else if p == 102 then float max src st
  else if p == 120 then let r := number 16 max true src st; (r.1.isSome, r.2.1, r.2.2)
  else if p == 111 then let r := number 8 max true src st; (r.1.isSome, r.2.1, r.2.2)
  else if p == 105 then ident max src st
  else (false, src, st)

/-- The loop of `parseQuoted`, textParser.tcc:294-309: `none` when the source is read
past its end; at the end of the source the loop just stops. -/
def quoted (q e : Nat) : Text → St → Option (Text × St)
  | [], st => some ([], st)
  | a :: src, st =>
    if a == e then
      match src with
      | c :: src' =>
        if c == q then quoted q e src' (st.add c)
        else if q == e then some (c :: src', st)
        else quoted q e src' (st.add c)
      | [] => if q == e then some ([], st) else none
    else if a == q then some (src, st)
    else quoted q e src (st.add a)

/-- One item of a list, textParser.tcc:347-368; `cond` is false after `^`. -/
def inList (cond : Bool) (p : Nat) : Text → Bool
  | [] => false
  | [a] => p == a
  | [a, m] =>
    if m == 45 then
      if ((p == a || p == m) == cond) then true else false
    else if p == a then true else inList cond p [m]
  | a :: m :: b :: l =>
    if m == 45 then
      if (!(decide (p < a)) && ((!(decide (b < p))) == cond)) then true
      else inList cond p l
    else if p == a then true else inList cond p (m :: b :: l)

/-- The text of a list: up to the next `]`, textParser.tcc:329-332. -/
def listRest : Text → Text × Text
  | [] => ([], [])
  | c :: r => if c == 93 then ([], r) else (c :: (listRest r).1, (listRest r).2)

/-- The head of `parseCharList`, textParser.tcc:320-332: the search, the condition, the
list, the rest of the pattern. `none` when the pattern is read past its end. -/
def listHead (pat : Text) : Option (Bool × Bool × Text × Text) :=
  match pat with
  | [] => none
  | a :: r =>
    let x : Option (Bool × Nat × Text) :=
      if a == 42 then (match r with | [] => none | b :: r' => some (true, b, r'))
      else some (false, a, r)
    match x with
    | none => none
    | some (ast, a, r) =>
      let y : Option (Bool × Nat × Text) :=
        if a == 94 then (match r with | [] => none | b :: r' => some (false, b, r'))
        else some (true, a, r)
      match y with
      | none => none
      | some (cond, a, r) =>
        let z : Option (Nat × Text) :=
          if a == 92 then (match r with | [] => none | b :: r' => some (b, r'))
          else some (a, r)
        match z with
        | none => none
        | some (a, r) => some (ast, cond, a :: (listRest r).1, (listRest r).2)

/-- `data.length() - dataPos` in 64 bits. -/
def diff (a b : Nat) : Nat := if b ≤ a then a - b else a + 18446744073709551616 - b

/-- `parseAsterixEnter`, textParser.tcc:428-438, when the attempt fails: what it added is
removed. -/
def cut (s : St) (pos : Nat) : St := { s with data := s.data.take pos }

/-- The loop of `parseAsterix`, textParser.tcc:446-459. `k` is the rest of the pattern. -/
def starLoop (k : Text → St → Out) (lo hi : Nat) : Text → Nat → St → Out
  | [], cnt, st => if cnt < lo then ⟨.no, [], st⟩ else k [] st
  | c :: src, cnt, st =>
    if lo ≤ cnt then
      let o := k (c :: src) st
      if o.ans == .no then
        let st' := cut o.st st.data.length
        if hi ≤ cnt then ⟨.no, c :: src, st'⟩
        else starLoop k lo hi src (cnt + 1) (st'.add c)
      else o
    else if hi ≤ cnt then ⟨.no, c :: src, st⟩
    else starLoop k lo hi src (cnt + 1) (st.add c)

/-- The loop of `parseCharList`, textParser.tcc:343-384. -/
def listLoop (k : Text → St → Out) (ok : Nat → Bool) (ast : Bool) (pos lo hi : Nat) :
    Text → St → Out
  | [], st => if diff st.data.length pos < lo then ⟨.no, [], st⟩ else k [] st
  | p :: src, st =>
    if diff st.data.length pos < hi && ok p then
      let st1 := st.add p
      if ast && decide (lo ≤ diff st1.data.length pos) then
        let o := k src st1
        if o.ans == .no then
          listLoop k ok ast pos lo hi src (cut o.st st1.data.length)
        else o
      else listLoop k ok ast pos lo hi src st1
    else if diff st.data.length pos < lo then ⟨.no, p :: src, st⟩
    else k (p :: src) st

/-- `parseCharList` behind the head, textParser.tcc:334-384. -/
def charList (k : Text → St → Out) (ok : Nat → Bool) (ast : Bool) (lo hi : Nat)
    (src : Text) (st : St) : Out :=
  if ast && lo == 0 then
    let o := k src st
    if o.ans == .no then
      listLoop k ok ast st.data.length lo hi src (cut o.st st.data.length)
    else o
  else listLoop k ok ast st.data.length lo hi src st

/-- The state of `parseRange`: which number is fed, and the two numbers. -/
structure Rng where
  second : Bool
  n1 : Option Nat
  n2 : Option Nat

/-- `parseRange`, textParser.tcc:387-423: the two numbers that were read and the rest;
`none` when the pattern is read past its end. The count it returns is used as a truth
value, so it fails exactly on an empty rest. -/
def rangeLoop : Text → Rng → Option (Option Nat × Option Nat × Text)
  | [], g => some (g.n1, g.n2, [])
  | k :: r, g =>
    if k == 44 then rangeLoop r { g with second := true }
    else if isDigit k then
      if g.second then rangeLoop r { g with n2 := some (g.n2.getD 0 * 10 + (k - 48)) }
      else rangeLoop r { g with n1 := some (g.n1.getD 0 * 10 + (k - 48)) }
    else if k == 41 then some (g.n1, g.n2, r)
    else if k == 42 && g.second then rangeLoop r { g with n2 := some null }
    else if !g.second && g.n1.getD 0 == 0 then
      match r with
      | [] => none
      | c :: r' =>
        if c == 41 then
          if k == 42 then some (some 0, some null, r')
          else if k == 43 then some (some 1, some null, r')
          else if k == 63 then some (some 0, some 1, r')
          else if k == 46 then some (some 1, some 1, r')
          else some (some (g.n1.getD 0), some (g.n2.getD 0), r')
        else rangeLoop r g
    else rangeLoop r g

/-- The number of a field, textParser.tcc:235-241, with the optional `%`. -/
def fieldNum : Text → Nat → Nat × Text
  | [], n => (n, [])
  | p :: r, n =>
    if isDigit p then fieldNum r (n * 10 + (p - 48))
    else if p == 37 then (n, r) else (n, p :: r)

/-- `fragments.resize` and the assignment, textParser.tcc:244-245, 252. -/
def setFrag (fr : List (Nat × Nat)) (i : Nat) (v : Nat × Nat) : List (Nat × Nat) :=
  (if fr.length ≤ i - 1 then fr ++ List.replicate (i - fr.length) (0, 0) else fr).set (i - 1) v

/-- The functions that call each other. -/
inductive Call where
  | parse
  | arg (s : Step)
  | alt
deriving DecidableEq

/-- `parseArg`, textParser.tcc:193-262, at a character `p` of the pattern, with the calls
into the functions above. `call` are the functions that it calls. -/
def argStep (call : Call → Text → Text → St → Out) (s : Step) (p : Nat) (pat src : Text)
    (st : St) : Out :=
  if p == 60 then call .alt pat src st
  else if p == 124 then
    match skipClose (pat.length + 1) 0 pat with
    | .close r => call .parse r src st
    | .hang => ⟨.hang, src, st⟩
    | _ => ⟨.exn, src, st⟩
  else if p == 62 then call .parse pat src st
  else if p == 91 then
    match pat with
    | [] => ⟨.no, src, st⟩
    | _ :: _ =>
      match listHead pat with
      | none => ⟨.exn, src, st⟩
      | some (ast, cond, l, r) =>
        charList (fun src st => call (.arg { s with star := false }) r src st)
          (fun c => inList cond c l == cond) ast s.lo s.hi src st
  else if p == 40 then
    match rangeLoop pat ⟨false, none, none⟩ with
    | none => ⟨.exn, src, st⟩
    | some (n1, n2, r) =>
      if pat.isEmpty then ⟨.no, src, st⟩
      else call (.arg { s with lo := n1.getD s.lo, hi := n2.getD s.hi }) r src st
  else if p == 42 then
    starLoop (fun src st => call (.arg { s with star := false }) pat src st)
      s.lo s.hi src 0 st
  else if p == 39 || p == 113 then
    match pat with
    | q :: e :: r =>
      match src with
      | [] => ⟨.no, src, st⟩
      | c :: src' =>
        if c == q then
          match quoted q e src' st with
          | none => ⟨.exn, [], st⟩
          | some (src'', st') => call (.arg { s with star := false }) r src'' st'
        else ⟨.no, src, st⟩
    | _ => ⟨.exn, src, st⟩
  else if p == 37 then
    if s.star then
      starLoop (fun src st => call (.arg { s with star := false }) (p :: pat) src st)
        s.lo s.hi src 0 st
    else call .parse pat src { st with data := st.data.take s.beg }
  else if isDigit p then
    if s.star then
      starLoop (fun src st => call (.arg { s with star := false }) (p :: pat) src st)
        s.lo s.hi src 0 st
    else
      let n := (fieldNum (p :: pat) 0).1
      let r := (fieldNum (p :: pat) 0).2
      if n == 0 then call .parse r src { st with data := st.data.take s.beg }
      else
        let st1 : St := { st with frags := setFrag st.frags n (s.beg, st.data.length - s.beg) }
        let o := call .parse r src st1
        if o.ans == .no then { o with st := { o.st with frags := setFrag o.st.frags n (0, 0) } }
        else o
  else
    let r := command p s.hi src st
    if r.1 then
      if r.2.2.data.length - st.data.length < s.lo then ⟨.no, r.2.1, r.2.2⟩
      else call (.arg { s with star := false }) pat r.2.1 r.2.2
    else ⟨.no, r.2.1, r.2.2⟩

/-- `parseAlternateBranch`, textParser.tcc:615-627: the source of the next branch is what
the failed one has left. -/
def altStep (call : Call → Text → Text → St → Out) (pat src : Text) (st : St) : Out :=
  let o := call .parse pat src st
  if o.ans == .no then
    match skipNext (pat.length + 1) pat with
    | .next r => call .alt r o.src o.st
    | .close r => call .parse r o.src o.st
    | .exn => ⟨.exn, o.src, o.st⟩
    | .hang => ⟨.hang, o.src, o.st⟩
  else o

/-- `parse` (textParser.tcc:55-127), `parseArg` (textParser.tcc:129-136, 193-262; at the end
of the pattern it gives `inclass`) and `parseAlternateBranch`. -/
def run (cf : Conf) : Nat → Call → Text → Text → St → Out
  | 0, _, _, src, st => ⟨.fuel, src, st⟩
  | f + 1, c, pat, src, st =>
    match c with
    | .parse =>
      parseWith cf (fun pat src st => run cf f (.arg ⟨st.data.length, 1, null, true⟩) pat src st)
        pat src st
    | .alt => altStep (run cf f) pat src st
    | .arg s =>
      match pat with
      | [] => ⟨.no, src, st⟩
      | p :: pat => argStep (run cf f) s p pat src st

/-- `operator()`, textParser.tcc:30-52. -/
def scan (cf : Conf) (pat src : Text) : Out :=
  run cf (2 * pat.length + 1) .parse pat src ⟨[], []⟩

/-- `operator[]` and `str`, textParser.tcc:480-482, 536-541: the text of a field, or none
for a field that does not exist (an exception). -/
def field (s : St) (i : Nat) : Option Text :=
  if i == 0 then none
  else match s.frags[i - 1]? with
  | some (b, n) => some ((s.data.drop b).take n)
  | none => none

end LS.TextPat

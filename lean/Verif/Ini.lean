/-
INI files.  utils/configParser.h, utils/configParser.tcc, utils/configParser.cpp.

Characters are bytes (`char` of x86 is signed: bytes from 128 are negative).  Lengths and the `int` positions of `trim` are unbounded, the second argument of `mid` is a 64 bit number.  An
`.include` is reported as an entry and not read (the files are outside of the model).
-/
namespace LS.Ini

abbrev Str := List Nat

/-- Result: value, exception `ConfigParser::Error`, undefined behaviour. -/
inductive R (α : Type) where
  | ok (a : α)
  | error (a : α)
  | ub
deriving DecidableEq, Repr

/-- `isspace` in the C locale. -/
def space (c : Nat) : Bool := c == 32 || (9 ≤ c && c ≤ 13)

/-- The argument of `isspace` is a negative `char` that is not `EOF`. -/
def wild (c : Nat) : Bool := 128 ≤ c && c != 255

/-- `ArrayT::mid` (base/containers/arrayt.h:267-272): `pos + count` may wrap; `none` for a section behind the end. -/
def mid (l : Str) (pos count : Nat) : Option Str :=
  if l.length ≤ pos then some []
  else if (pos + count) % 18446744073709551616 > l.length then some (l.drop pos)
  else if pos + count ≤ l.length then some ((l.drop pos).take count)
  else none

/-- Inner loop of `trim` (configParser.tcc:261-262): `end` and the position. -/
def scanEnd : Nat → Nat → Str → Nat
  | _, e, [] => e
  | i, e, c :: cs => scanEnd (i + 1) (if space c then e else i) cs

/-- Outer loop of `trim` (configParser.tcc:257-263). -/
def scanBegin (l : Str) : Nat → Str → Option Str
  | _, [] => mid l 0 0
  | i, c :: cs =>
    if space c then scanBegin l (i + 1) cs
    else
      let e := scanEnd (i + 1) 0 cs
      mid l i (if i ≤ e + 1 then e + 1 - i else 18446744073709551616 - (i - (e + 1)))

/-- `trim` (configParser.tcc:254-265). -/
def trim (l : Str) : Option Str := scanBegin l 0 l

/-- `skipNotInteresting` (configParser.tcc:268-289); the flag: inside of a comment. -/
def skipNI : Bool → Str → Option Str
  | _, [] => some []
  | true, c :: r => if c = 10 then skipNI false r else skipNI true r
  | false, c :: r => if wild c then none else if space c then skipNI false r else if c = 35 then skipNI true r else some (c :: r)

/-- Members of `ConfigParser` (configParser.h:19-27). -/
structure P where
  inp : Str
  sec : Str := []
  var : Str := []
  value : Str := []
deriving DecidableEq, Repr

/-- `parseSection` (configParser.tcc:127-139). -/
def P.parseSection (p : P) : R P :=
  let b := p.inp.tail.takeWhile fun c => c ≠ 93 && c ≠ 13 && c ≠ 10
  let r := p.inp.tail.dropWhile fun c => c ≠ 93 && c ≠ 13 && c ≠ 10
  match r with
  | 93 :: r =>
    match trim b with
    | some s => .ok { p with inp := r, sec := s }
    | none => .ub
  | r => .error { p with inp := r }

/-- `getNextEscaped` (configParser.tcc:186-202): the character (`none` for -1) and the rest; `none` is undefined. -/
def escaped (c : Nat) (r : Str) : Option (Option Nat × Str) :=
  if c = 110 then some (some 10, r)
  else if c = 114 then some (some 13, r)
  else if c = 116 then some (some 9, r)
  else if c = 97 then some (some 7, r)
  else if c = 98 then some (some 13, r)
  else if c = 48 then some (some 0, r)
  else if c = 13 ∨ c = 10 then
    let r := r.dropWhile space
    match r with
    | d :: _ => if wild d then none else some (none, r)
    | [] => some (none, r)
  else some (some c, r)

/-- Loop over a value in quotes (configParser.tcc:210-221): value, last character read (`none` for -1), rest.  The number bounds the rounds. -/
def quoted : Nat → Option Nat → Str → Option (Str × Option Nat × Str)
  | 0, nx, r => some ([], nx, r)
  | _ + 1, nx, [] => some ([], nx, [])
  | n + 1, _, c :: r =>
    if c = 92 ∧ r ≠ [] then
      match escaped (r.headD 0) r.tail with
      | none => none
      | some (nx, r) =>
        match quoted n nx r with
        | none => none
        | some (b, y) =>
          match nx with
          | some x => some (if x < 128 then x :: b else b, y)
          | none => some (b, y)
    else if c = 34 ∨ c = 13 ∨ c = 10 then some ([], some c, r)
    else
      match quoted n (some c) r with
      | none => none
      | some (b, y) => some (c :: b, y)

/-- Loop over a value without quotes (configParser.tcc:225-232): value and rest. -/
def unquoted : Nat → Str → Str × Str
  | _, [] => ([], [])
  | nx, c :: r => if nx = 13 ∨ nx = 10 then ([], c :: r) else (nx :: (unquoted c r).1, (unquoted c r).2)

/-- `parseValue` (configParser.tcc:205-234), the result in `value`. -/
def P.parseValue (p : P) : R P :=
  match p.inp with
  | [] => .ok { p with value := [] }
  | nx :: r =>
    if nx = 34 then
      match quoted (r.length + 1) (some nx) r with
      | none => .ub
      | some (b, last, r) =>
        if last = some 34 then
          match trim b with
          | some v => .ok { p with inp := r, value := v }
          | none => .ub
        else .error { p with inp := r }
    else
      match trim (unquoted nx r).1 with
      | some v => .ok { p with inp := (unquoted nx r).2, value := v }
      | none => .ub

/-- `parseFieldName` and the first half of `parseSpecialCommand` (configParser.tcc:149-161, 169-178): the name ends with `sep`. -/
def P.parseName (p : P) (sep : Nat) : R P :=
  let b := p.inp.takeWhile fun c => c ≠ sep && c ≠ 13 && c ≠ 10
  let r := p.inp.dropWhile fun c => c ≠ sep && c ≠ 13 && c ≠ 10
  match r with
  | c :: r' =>
    if c = sep then
      match trim b with
      | some s => .ok { p with inp := r', var := s }
      | none => .ub
    else .error { p with inp := r }
  | [] => .error { p with inp := [] }

/-- `parseField`, `parseSpecialCommand` (configParser.tcc:142-182). -/
def P.parseField (p : P) (sep : Nat) : R P :=
  match p.parseName sep with
  | .ok p => p.parseValue
  | .error p => .error p
  | .ub => .ub

/-- `getNextLine` (configParser.tcc:56-76); the flag is the result. -/
def P.getNextLine (p : P) : R (Bool × P) :=
  match skipNI false p.inp with
  | none => .ub
  | some [] => .ok (false, { p with inp := [], sec := [] })
  | some (c :: r) =>
    let p := { p with inp := c :: r }
    if c = 91 then
      match p.parseSection with
      | .ok p => .ok (false, p)
      | .error p => .error (false, p)
      | .ub => .ub
    else if c = 46 ∧ p.sec ≠ [46] then .ok (false, { p with sec := [46] })
    else
      match p.parseField (if c = 46 then 32 else 61) with
      | .ok p => .ok (true, p)
      | .error p => .error (false, p)
      | .ub => .ub

/-- What `merge` does with a line. -/
inductive Entry where
  /-- `fields.insert` -/
  | field (sec var value : Str)
  /-- `.include` -/
  | incl (path : Str)
  /-- another command -/
  | other
deriving DecidableEq, Repr

/-- ".include" -/
def includeName : Str := [46, 105, 110, 99, 108, 117, 100, 101]

def P.entry (p : P) : Entry :=
  if p.var.head? = some 46 then (if p.var = includeName then .incl p.value else .other) else .field p.sec p.var p.value

/-- `skipSection` (configParser.tcc:120-122); the number bounds the rounds. -/
def skipSection : Nat → P → R P
  | 0, p => .ok p
  | n + 1, p =>
    match p.getNextLine with
    | .ok (true, p) => skipSection n p
    | .ok (false, p) => .ok p
    | .error (_, p) => .error p
    | .ub => .ub

/-- The loops of `merge` (configParser.tcc:295-317): entries, and whether an exception comes at the end. -/
def mergeLoop (ign : Bool) : Nat → P → R (List Entry)
  | 0, _ => .ok []
  | n + 1, p =>
    if p.sec = [] then .ok []
    else
      match p.getNextLine with
      | .ok (b, q) =>
        match mergeLoop ign n q with
        | .ok es => .ok (if b then q.entry :: es else es)
        | .error es => .error (if b then q.entry :: es else es)
        | .ub => .ub
      | .error (_, q) => if ign then mergeLoop ign n q else .error []
      | .ub => .ub

/-- `merge` (configParser.tcc:292-319).  Each round but a change to the section "." takes a character. -/
def parse (ign : Bool) (t : Str) : R (List Entry) :=
  match skipSection (t.length + 2) { inp := t } with
  | .ok p => mergeLoop ign (2 * t.length + 4) p
  | .error _ => .error []
  | .ub => .ub

/-! ## The map of fields -/

/-- `tolower` in the C locale. -/
def lower (c : Nat) : Nat := if 65 ≤ c ∧ c ≤ 90 then c + 32 else c

/-- `strncasecmp` with the shorter length: it stops at a zero. -/
def ncase : Str → Str → Ordering
  | a :: as, b :: bs => if lower a < lower b then .lt else if lower b < lower a then .gt else if a = 0 then .eq else ncase as bs
  | _, _ => .eq

/-- `StrCmpCI<char>` (base/linux/string.cpp:29-39). -/
def ci (a b : Str) : Ordering :=
  match ncase a b with
  | .eq => if a.length ≤ b.length then (if b.length ≤ a.length then .eq else .lt) else .gt
  | o => o

/-- `SectionField::lessThan` (configParser.h:72-81). -/
def less (a b : Str × Str) : Bool :=
  match ci a.1 b.1 with
  | .lt => true
  | .eq => ci a.2 b.2 = .lt
  | .gt => false

/-- `FieldMap` in the order of its tree: keys with their values in the order of insertion (base/containers/map.h:385-605). -/
abbrev Map := List ((Str × Str) × List Str)

/-- `MultiMap::insert` (map.h:515-519): the key of the first insertion stays. -/
def insert (k : Str × Str) (v : Str) : Map → Map
  | [] => [(k, [v])]
  | e :: m =>
    if less k e.1 then (k, [v]) :: e :: m
    else if less e.1 k then e :: insert k v m
    else (e.1, e.2 ++ [v]) :: m

/-- The insertions of `merge` (configParser.tcc:308-311); includes are not read. -/
def build (es : List Entry) : Map :=
  es.foldl (fun m e => match e with | .field s f v => insert (s, f) v m | _ => m) []

/-- `getValue` (configParser.cpp:37-47). -/
def getValue (m : Map) (s f : Str) (i : Nat) : Option Str :=
  match m.find? fun e => !less (s, f) e.1 && !less e.1 (s, f) with
  | some e => e.2[i]?
  | none => none

/-- `enumFields`, constructor and steps of `Iterator` (configParser.cpp:53-85, configParser.h:133-136): fields with values.  The constructor assigns its parameter `prefix` and not the member, the
member stays empty. -/
def enumFields (m : Map) (s _pre : Str) : List (Str × Str) :=
  let m := m.dropWhile fun e => less e.1 (s, [])
  let sec := match m with
    | e :: _ => if e.1.1 = s then s else []
    | [] => []
  (m.takeWhile fun e => e.1.1 = sec).flatMap fun e => e.2.map fun v => (e.1.2, v)

end LS.Ini

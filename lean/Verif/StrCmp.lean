import Verif.ArrayT
/-!
# Model of the comparison of strings: `base/containers/constStr.h`, `base/containers/string.tcc`, `base/linux/string.cpp`

Characters of `StrCmpCS` are integers (`char` is signed on the platforms of the makefile), characters of the
case-insensitive comparison are the unsigned values that `strncasecmp` compares.  `strncasecmp` itself belongs to
the C library; it is modelled by its definition in POSIX, in the C locale.  The operators of arrays are those of
`ArrayT.lean`.
-/

namespace LS.StrCmp
open LS.ArrayT (Cmp)

/-- string.tcc:35-40: the loop of `StrCmpCS`, `n` rounds left, at index `i`. -/
def csLoop (a b : List Int) : (n i : Nat) → Option Cmp
  | 0, _ => none
  | n + 1, i =>
    if a.getD i 0 > b.getD i 0 then some .greater
    else if a.getD i 0 < b.getD i 0 then some .less
    else csLoop a b n (i + 1)

/-- string.tcc:31-44 `StrCmpCS::operator()`. -/
def strCmpCS (a b : List Int) : Cmp :=
  match csLoop a b (if a.length < b.length then a.length else b.length) 0 with
  | some r => r
  | none =>
    if a.length > b.length then .greater
    else if a.length < b.length then .less
    else .equal

/-- `tolower` in the C locale. -/
def lower (c : Nat) : Nat := if 65 ≤ c ∧ c ≤ 90 then c + 32 else c

/-- `strncasecmp(a, b, n)` from index `i`: it ends at the end of the strings, too. -/
def casecmp (a b : List Nat) : (n i : Nat) → Int
  | 0, _ => 0
  | n + 1, i =>
    if lower (a.getD i 0) ≠ lower (b.getD i 0) then (lower (a.getD i 0) : Int) - (lower (b.getD i 0) : Int)
    else if a.getD i 0 = 0 then 0
    else casecmp a b n (i + 1)

/-- linux/string.cpp:29-39 `StrCmpCI<char>::operator()`; the one for wide characters (42-52) differs in the
function of the C library only. -/
def strCmpCI (a b : List Nat) : Cmp :=
  if casecmp a b (min a.length b.length) 0 = 0 then
    if min a.length b.length = a.length then
      if min a.length b.length = b.length then .equal else .less
    else .greater
  else if casecmp a b (min a.length b.length) 0 < 0 then .less
  else .greater

/-! ## Literals -/

/-- constStr.h:57 `removeZeroChar`: the length of a string in an array of `length` characters. -/
def removeZeroChar (str : List Nat) (length : Nat) : Nat :=
  if str.getD (length - 1) 0 = 0 then length - 1 else length

/-- constStr.h:184-187 `makeCStr`. -/
def makeCStr (str : List Nat) : List Nat := str.take (removeZeroChar str str.length)

/-- constStr.h:197-201 `ConstStrFromCStr`: the loop, at index `k`. -/
def cLen (str : List Nat) : (n k : Nat) → Nat
  | 0, k => k
  | n + 1, k => if str.getD k 0 ≠ 0 then cLen str n (k + 1) else k

/-- constStr.h:197-201 `ConstStrFromCStr`. -/
def constStrFromCStr (str : List Nat) : List Nat := str.take (cLen str str.length 0)

/-- arrayt.h:197-214 with 729-739: the result of `compare` of two strings. -/
def cmp (a b : List Nat) : Except Err Cmp := LS.ArrayT.compare (.flat a) (.flat b)

/-- The operators of constStr.h:218-242: a string and a literal. -/
inductive Op where
  | eq | ne | gt | lt | ge | le
  | cgt | clt | cge | cle | ceq | cne
deriving DecidableEq, Repr

/-- arrayt.h:197-214 for two strings and the operators of constStr.h:230-242 on their results. -/
def Op.test : Op → Cmp → Bool
  | .eq, c => c == .equal
  | .ne, c => c != .equal
  | .gt, c => c == .greater
  | .lt, c => c == .less
  | .ge, c => c != .less
  | .le, c => c != .greater
  | .cgt, c => c == .greater
  | .clt, c => c == .less
  | .cge, c => c != .less
  | .cle, c => c != .greater
  | .ceq, c => c == .equal
  | .cne, c => c != .equal || c == .notEqual

/-- constStr.h:218-242: `c op literal`; `<=` (228-229) is done with `>=`. -/
def litOp (op : Op) (c lit : List Nat) : Except Err Bool :=
  match op with
  | .eq => (cmp c (makeCStr lit)).map (Op.test .eq)
  | .ne => (cmp c (makeCStr lit)).map (Op.test .ne)
  | .gt => (cmp c (makeCStr lit)).map (Op.test .gt)
  | .lt => (cmp c (makeCStr lit)).map (Op.test .lt)
  | .ge => (cmp c (makeCStr lit)).map (Op.test .ge)
  | .le => (cmp c (makeCStr lit)).map (Op.test .ge)
  | .cgt => .ok (Op.test .cgt (strCmpCI c (makeCStr lit)))
  | .clt => .ok (Op.test .clt (strCmpCI c (makeCStr lit)))
  | .cge => .ok (Op.test .cge (strCmpCI c (makeCStr lit)))
  | .cle => .ok (Op.test .cle (strCmpCI c (makeCStr lit)))
  | .ceq => .ok (Op.test .ceq (strCmpCI c (makeCStr lit)))
  | .cne => .ok (Op.test .cne (strCmpCI c (makeCStr lit)))

/-! ## `cStr` -/

/-- What a C function reads at the beginning of a piece of memory: up to the first zero; `none` when it runs
out of the piece. -/
def cRead : List Nat → Option (List Nat)
  | [] => none
  | c :: l => if c = 0 then some [] else (cRead l).map (c :: ·)

/-- linux/string.cpp:114-122 `safeCompareMemory(p, &zero, size)`: the first `size` bytes of the character behind
are compared (little endian); memory that is not mapped gives `false`. -/
def zeroBehind (size : Nat) : List Nat → Bool
  | [] => false
  | c :: _ => c % 256 ^ size == 0

/-- linux/string.cpp:124-137 `cStr` of a string with `behind` in the memory behind it: what a C function reads there. -/
def cStrA (source behind : List Nat) : Option (List Nat) :=
  if source = [] then cRead [0]
  else if zeroBehind 1 behind then cRead (source ++ behind)
  else cRead (source ++ [0])

/-- linux/string.cpp:139-151: the same of wide characters; it compares `sizeof(char)` bytes, too. -/
def cStrW (source behind : List Nat) : Option (List Nat) :=
  if source = [] then cRead [0]
  else if zeroBehind 1 behind then cRead (source ++ behind)
  else cRead (source ++ [0])

end LS.StrCmp

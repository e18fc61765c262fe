/-
The JSON texts of RFC 8259 and the documents they denote, without reference to the parser or the serializer.
Texts and strings are lists of bytes; strings are UTF-8, which is checked for escaped characters only.  Numbers with a
fraction or an exponent are left out.
-/
import Verif.Json
import Verif.UtfProps
import Verif.NumTextProps

namespace LS.Json.Spec

/-- Which escaped code points and which numbers are under consideration. -/
structure Domain where
  cp : Nat → Prop
  int : Int → Prop

/-- All of RFC 8259. -/
def full : Domain := ⟨fun _ => True, fun _ => True⟩

/-- `ws`: space, tab, line feed, carriage return. -/
def Ws (w : List Nat) : Prop := ∀ c ∈ w, c = 32 ∨ c = 9 ∨ c = 10 ∨ c = 13

/-- The escapes of two characters, with the character which is meant: `"`, `\`, `/`, b, f, n, r, t. -/
def short : List (Nat × Nat) := [(34, 34), (92, 92), (47, 47), (98, 8), (102, 12), (110, 10), (114, 13), (116, 9)]

/-- The characters between the quotes, and the string. -/
inductive Chars (P : Domain) : List Nat → List Nat → Prop
  | nil : Chars P [] []
  /-- `unescaped` -/
  | plain {c t s} : 32 ≤ c → c ≠ 34 → c ≠ 92 → Chars P t s → Chars P (c :: t) (c :: s)
  | short {x c t s} : (x, c) ∈ short → Chars P t s → Chars P (92 :: x :: t) (c :: s)
  /-- `\uXXXX`, not a surrogate -/
  | code {z0 z1 z2 z3 c t s} : NumText.Spec.value 16 [z0, z1, z2, z3] = some c → c < 0xD800 ∨ 0xE000 ≤ c → P.cp c →
      Chars P t s → Chars P (92 :: 117 :: z0 :: z1 :: z2 :: z3 :: t) (Utf.utf8 c ++ s)
  /-- A pair of surrogates. -/
  | pair {y0 y1 y2 y3 z0 z1 z2 z3 h l t s} : NumText.Spec.value 16 [y0, y1, y2, y3] = some h → NumText.Spec.value 16 [z0, z1, z2, z3] = some l →
      0xD800 ≤ h → h < 0xDC00 → 0xDC00 ≤ l → l < 0xE000 → P.cp (0x10000 + (h - 0xD800) * 1024 + (l - 0xDC00)) →
      Chars P t s → Chars P (92 :: 117 :: y0 :: y1 :: y2 :: y3 :: 92 :: 117 :: z0 :: z1 :: z2 :: z3 :: t)
        (Utf.utf8 (0x10000 + (h - 0xD800) * 1024 + (l - 0xDC00)) ++ s)

/-- `int` without the sign: no zeros in front. -/
def Digits (t : List Nat) (n : Nat) : Prop := NumText.Spec.value 10 t = some n ∧ (t = [48] ∨ t.head? ≠ some 48)

/-- The keys of an object. -/
def keys : Fields → List (List Nat)
  | .nil => []
  | .cons k _ m => k :: keys m

/-- The fields of an object. -/
def pairs : Fields → List (List Nat × Doc)
  | .nil => []
  | .cons k d m => (k, d) :: pairs m

/-- A byte as a `signed char`. -/
def signed (c : Nat) : Int := if 128 ≤ c ∧ c < 256 then (c : Int) - 256 else c

/-- The lexicographic order of strings of signed bytes: a proper prefix, or less at the first difference. -/
def Less (a b : List Nat) : Prop :=
  (∃ x t, b = a ++ x :: t) ∨ ∃ p x y t u, a = p ++ x :: t ∧ b = p ++ y :: u ∧ signed x < signed y

/-- The keys ascend. -/
def Sorted (m : Fields) : Prop := (keys m).Pairwise Less

mutual

/-- A text and the document which it denotes. -/
inductive Val (P : Domain) : List Nat → Doc → Prop
  | null : Val P [110, 117, 108, 108] .null
  | true : Val P [116, 114, 117, 101] (.bool true)
  | false : Val P [102, 97, 108, 115, 101] (.bool false)
  | pos {t n} : Digits t n → P.int n → Val P t (.int n)
  | neg {t n} : Digits t n → P.int (-n) → Val P (45 :: t) (.int (-n))
  | str {t s} : Chars P t s → Val P (34 :: t ++ [34]) (.str s)
  | empty {w} : Ws w → Val P (91 :: w ++ [93]) (.arr .nil)
  | arr {w t l} : Ws w → Items P t l → Val P (91 :: w ++ t ++ [93]) (.arr l)
  | emptyObj {w} : Ws w → Val P (123 :: w ++ [125]) (.obj .nil)
  /-- The names are distinct; the members of an object have no order, in a document they are sorted. -/
  | obj {w t ms m} : Ws w → Members P t ms → (keys ms).Nodup → Sorted m → (pairs m).Perm (pairs ms) → Val P (123 :: w ++ t ++ [125]) (.obj m)

/-- From the first value of an array to the bracket. -/
inductive Items (P : Domain) : List Nat → Docs → Prop
  | one {t d w} : Val P t d → Ws w → Items P (t ++ w) (.cons d .nil)
  | cons {t d w w' u l} : Val P t d → Ws w → Ws w' → Items P u l → Items P (t ++ w ++ 44 :: w' ++ u) (.cons d l)

/-- From the first name of an object to the brace, in the order of the text. -/
inductive Members (P : Domain) : List Nat → Fields → Prop
  | one {k s w1 w2 t d w} : Chars P k s → Ws w1 → Ws w2 → Val P t d → Ws w →
      Members P (34 :: k ++ 34 :: w1 ++ 58 :: w2 ++ t ++ w) (.cons s d .nil)
  | cons {k s w1 w2 t d w w' u m} : Chars P k s → Ws w1 → Ws w2 → Val P t d → Ws w → Ws w' → Members P u m →
      Members P (34 :: k ++ 34 :: w1 ++ 58 :: w2 ++ t ++ w ++ 44 :: w' ++ u) (.cons s d m)

end

end LS.Json.Spec

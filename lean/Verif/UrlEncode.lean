import Verif.Base16
/-!
# Model of `utils/urlencode.{h,cpp}`: `UrlEncodeConvert`, `UrlDecodeConvert`

`char` values are their unsigned byte value; the range tests of the encoder are on ASCII
letters, so signedness does not matter.  `maxread`/`readpos` are uninitialised until the first
`write`, which sets both.
-/

namespace LS.UrlEncode

/-- urlencode.h:27-30: members of `UrlEncodeConvert` plus the inherited flags. -/
structure Enc where
  buff : List (Option Nat) := [none, none, none]
  maxread : Option Nat := none
  readpos : Option Nat := none
  hasItems : Bool := false
  needItems : Bool := true
  eolb : Bool := false
deriving Repr, DecidableEq

/-- urlencode.cpp:32-33: characters copied unchanged. -/
def keep (x : Nat) : Bool :=
  (65 ≤ x && x ≤ 90) || (97 ≤ x && x ≤ 122) || (48 ≤ x && x ≤ 57) || x == 95 || x == 45

/-- urlencode.cpp:14-24 `UrlEncodeConvert::getNext`. -/
def Enc.getNext (s : Enc) : Option (Nat × Enc) :=
  match s.readpos, s.maxread with
  | some r, some m =>
    match Base64.cell s.buff r with
    | none => none
    | some out =>
      if r + 1 = m then
        some (out, { s with readpos := some 0, hasItems := false, needItems := true })
      else some (out, { s with readpos := some (r + 1) })
  | _, _ => none

/-- urlencode.cpp:31-47 `UrlEncodeConvert::write`; the two hex digits come from a default
`ByteToBase16Convert`. -/
def Enc.write (s : Enc) (x : Nat) : Option Enc :=
  if keep x then
    some { s with buff := s.buff.set 0 (some x), maxread := some 1, hasItems := true,
                  needItems := false, readpos := some 0 }
  else
    match Base16.Enc.default.write x with
    | none => none
    | some c0 =>
      match c0.getNext with
      | none => none
      | some (h, c1) =>
        match c1.getNext with
        | none => none
        | some (l, _) =>
          some { s with buff := [some 37, some h, some l], maxread := some 3, hasItems := true,
                        needItems := false, readpos := some 0 }

/-- The encoder seen by the driver of iterConv.h; `flush` is the empty default
(iterConv.h:485-487). -/
def enc : Conv Enc Nat Nat where
  hasItems := Enc.hasItems
  eolb := Enc.eolb
  getNext := Enc.getNext
  write := Enc.write
  flush := some

/-- urlencode.h:42-44: members of `UrlDecodeConvert`. -/
structure Dec where
  buff : List (Option Nat) := [none, none, none]
  wrpos : Nat := 0
  hasItems : Bool := false
  needItems : Bool := true
  eolb : Bool := false
deriving Repr, DecidableEq

/-- urlencode.cpp:53-57 `UrlDecodeConvert::getNext`. -/
def Dec.getNext (s : Dec) : Option (Nat × Dec) :=
  match Base64.cell s.buff 0 with
  | none => none
  | some out => some (out, { s with hasItems := false, needItems := true })

/-- urlencode.cpp:63-84 `UrlDecodeConvert::write`; `%XX` goes through a default
`Base16ToByteConvert`. -/
def Dec.write (s : Dec) (x : Nat) : Option Dec :=
  if s.wrpos ≠ 0 then
    let s := { s with buff := s.buff.set s.wrpos (some x), wrpos := s.wrpos + 1 }
    if s.wrpos ≠ 3 then some s
    else
      match Base64.cell s.buff 1, Base64.cell s.buff 2 with
      | some h, some l =>
        match Base16.Dec.default.write h with
        | none => none
        | some c1 =>
          match c1.write l with
          | none => none
          | some c2 =>
            match c2.getNext with
            | none => none
            | some (v, _) =>
              some { s with buff := s.buff.set 0 (some v), wrpos := 0, needItems := false,
                            hasItems := true }
      | _, _ => none
  else if x = 43 then
    some { s with buff := s.buff.set 0 (some 32), needItems := false, hasItems := true }
  else if x = 37 then some { s with buff := s.buff.set 0 (some x), wrpos := 1 }
  else some { s with buff := s.buff.set 0 (some x), needItems := false, hasItems := true }

/-- The decoder seen by the driver of iterConv.h. -/
def dec : Conv Dec Nat Nat where
  hasItems := Dec.hasItems
  eolb := Dec.eolb
  getNext := Dec.getNext
  write := Dec.write
  flush := some

end LS.UrlEncode

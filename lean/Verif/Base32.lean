import Verif.Base64
/-!
# Model of `utils/base32.{h,cpp}`: `ByteToBase32Convert`, `Base32ToByteConvert`

Same conventions as `Verif.Base64`: characters and bytes are `Nat`, array cells are
`Option Nat` with `none` = uninitialised.  `toupper`/`tolower` are those of the C locale.
-/

namespace LS.Base32
open LS.Base64 (cell)

/-- base32.h:67-77: members of `ByteToBase32Convert` plus the inherited flags. -/
structure Enc where
  table : List Nat
  padChar : Nat
  outchars : List (Option Nat) := List.replicate 8 none
  wrbyte : Nat := 0
  readpos : Nat := 0
  hasItems : Bool := false
  needItems : Bool := true
  eolb : Bool := false
deriving Repr, DecidableEq

/-- base32.cpp:35-47 `ByteToBase32Convert::getNext`. -/
def Enc.getNext (s : Enc) : Option (Nat × Enc) :=
  match cell s.outchars s.readpos with
  | none => none
  | some out =>
    let readpos := s.readpos + 1
    if readpos = 8 then
      some (out, { s with readpos := 0, wrbyte := 0, needItems := true, hasItems := false })
    else
      some (out, { s with readpos := readpos, hasItems := decide (readpos < s.wrbyte * 8 / 5) })

/-- base32.cpp:51-96 `ByteToBase32Convert::write`; `none` = the "no more items" exception or an
undefined table access. -/
def Enc.write (s0 : Enc) (item : Nat) : Option Enc :=
  let s := if s0.eolb then { s0 with eolb := false, wrbyte := 0, readpos := 0 } else s0
  match s.wrbyte with
  | 0 =>
    match s.table[item >>> 3]? with
    | none => none
    | some c0 =>
      some { s with outchars := (s.outchars.set 0 (some c0)).set 1 (some ((item &&& 0x7) <<< 2)),
                    wrbyte := 1, hasItems := true }
  | 1 =>
    match cell s.outchars 1 with
    | none => none
    | some p =>
      match s.table[p ||| (item >>> 6)]?, s.table[(item >>> 1) &&& 0x1F]? with
      | some c1, some c2 =>
        some { s with outchars := ((s.outchars.set 1 (some c1)).set 2 (some c2)).set 3
                        (some ((item &&& 0x1) <<< 4)),
                      wrbyte := 2, hasItems := true }
      | _, _ => none
  | 2 =>
    match cell s.outchars 3 with
    | none => none
    | some p =>
      match s.table[p ||| (item >>> 4)]? with
      | none => none
      | some c3 =>
        some { s with outchars := (s.outchars.set 3 (some c3)).set 4 (some ((item &&& 0xF) <<< 1)),
                      wrbyte := 3, hasItems := true }
  | 3 =>
    match cell s.outchars 4 with
    | none => none
    | some p =>
      match s.table[p ||| (item >>> 7)]?, s.table[(item >>> 2) &&& 0x1F]? with
      | some c4, some c5 =>
        some { s with outchars := ((s.outchars.set 4 (some c4)).set 5 (some c5)).set 6
                        (some ((item &&& 0x3) <<< 3)),
                      wrbyte := 4, hasItems := true }
      | _, _ => none
  | 4 =>
    match cell s.outchars 6 with
    | none => none
    | some p =>
      match s.table[p ||| (item >>> 5)]?, s.table[item &&& 0x1F]? with
      | some c6, some c7 =>
        some { s with outchars := (s.outchars.set 6 (some c6)).set 7 (some c7),
                      wrbyte := 5, needItems := false, hasItems := true }
      | _, _ => none
  | _ => none

/-- base32.cpp:114-117: the loop `while (idx < 8) outchars[idx++] = padChar`. -/
def padFrom (o : List (Option Nat)) (pad idx : Nat) : List (Option Nat) :=
  o.take idx ++ List.replicate (8 - idx) (some pad)

/-- base32.cpp:98-124 `ByteToBase32Convert::flush`. -/
def Enc.flush (s0 : Enc) : Option Enc :=
  if s0.eolb then some s0
  else
    let s := { s0 with eolb := true, needItems := false }
    if s.wrbyte > 0 ∧ s.wrbyte < 5 then
      let idx := s.wrbyte * 8 / 5
      match cell s.outchars idx with
      | none => none
      | some p =>
        match s.table[p]? with
        | none => none
        | some c =>
          let o := s.outchars.set idx (some c)
          if s.padChar ≠ 0 then
            some { s with outchars := padFrom o s.padChar (idx + 1), wrbyte := 5,
                          hasItems := decide (s.readpos < 5 * 8 / 5) }
          else some { s with outchars := o, hasItems := decide (s.readpos < s.wrbyte * 8 / 5) }
    else some { s with hasItems := decide (s.readpos < s.wrbyte * 8 / 5) }

/-- The encoder seen by the driver of iterConv.h. -/
def enc : Conv Enc Nat Nat where
  hasItems := Enc.hasItems
  eolb := Enc.eolb
  getNext := Enc.getNext
  write := Enc.write
  flush := Enc.flush

/-- base32.cpp:28-32: constructor with table and padding character (0 = `noPadding`). -/
def Enc.new (table : List Nat) (padChar : Nat) : Enc := { table, padChar }

/-- base32.h:100-107: members of `Base32ToByteConvert`. -/
structure Dec where
  table : List (Option Nat)
  padChar : Nat
  outBytes : List (Option Nat) := List.replicate 5 none
  readpos : Nat := 0
  wrpos : Nat := 0
  hasItems : Bool := false
  needItems : Bool := true
  eolb : Bool := false
deriving Repr, DecidableEq

/-- `toupper` of the C locale. -/
def toUpper (c : Nat) : Nat := if 97 ≤ c ∧ c ≤ 122 then c - 32 else c
/-- `tolower` of the C locale. -/
def toLower (c : Nat) : Nat := if 65 ≤ c ∧ c ≤ 90 then c + 32 else c

/-- base32.cpp:203-218 `initTable`: only the cells named by the alphabet are filled; the flag
called `caseSensitive` makes the table case-*in*sensitive. -/
def initTable (t : List Nat) (caseSensitive : Bool) (cells : List (Option Nat)) :
    List (Option Nat) :=
  (t.zipIdx).foldl (fun acc (p : Nat × Nat) =>
    if caseSensitive then
      (acc.set (toUpper p.1) (some (p.2 &&& 31))).set (toLower p.1) (some (p.2 &&& 31))
    else acc.set p.1 (some (p.2 &&& 31))) cells

/-- base32.cpp:136-148 `Base32ToByteConvert::getNext`. -/
def Dec.getNext (s : Dec) : Option (Nat × Dec) :=
  match cell s.outBytes s.readpos with
  | none => none
  | some out =>
    let readpos := s.readpos + 1
    if readpos = 5 then
      some (out, { s with readpos := 0, wrpos := 0, needItems := true, hasItems := false })
    else
      some (out, { s with readpos := readpos, hasItems := decide (readpos < s.wrpos * 5 / 8) })

/-- One `outBytes[i] |= v` on a byte cell. -/
def orCell (o : List (Option Nat)) (i v : Nat) : Option (List (Option Nat)) :=
  match cell o i with
  | none => none
  | some b => some (o.set i (some ((b ||| v) &&& 0xFF)))

/-- base32.cpp:153-199 `Base32ToByteConvert::write`, the stores of the `switch`. -/
def Dec.store (o : List (Option Nat)) (wrpos v : Nat) : Option (List (Option Nat)) :=
  match wrpos with
  | 0 => some (o.set 0 (some ((v <<< 3) &&& 0xFF)))
  | 1 => (orCell o 0 (v >>> 2)).map (·.set 1 (some ((v <<< 6) &&& 0xFF)))
  | 2 => orCell o 1 (v <<< 1)
  | 3 => (orCell o 1 (v >>> 4)).map (·.set 2 (some ((v <<< 4) &&& 0xFF)))
  | 4 => (orCell o 2 (v >>> 1)).map (·.set 3 (some ((v <<< 7) &&& 0xFF)))
  | 5 => orCell o 3 (v <<< 2)
  | 6 => (orCell o 3 (v >>> 3)).map (·.set 4 (some ((v <<< 5) &&& 0xFF)))
  | 7 => orCell o 4 v
  | _ => none

/-- base32.cpp:153-199 `Base32ToByteConvert::write`. -/
def Dec.write (s0 : Dec) (item : Nat) : Option Dec :=
  if item = s0.padChar then some { s0 with eolb := true }
  else
    let s := if s0.eolb then { s0 with eolb := false, wrpos := 0, readpos := 0 } else s0
    match cell s.table item with
    | none => none
    | some v =>
      match Dec.store s.outBytes s.wrpos v with
      | none => none
      | some o => some { s with outBytes := o, wrpos := s.wrpos + 1,
                                hasItems := decide (s.readpos < (s.wrpos + 1) * 5 / 8) }

/-- base32.cpp:200-202 `Base32ToByteConvert::flush`. -/
def Dec.flush (s : Dec) : Option Dec := some { s with eolb := true }

/-- The decoder seen by the driver of iterConv.h. -/
def dec : Conv Dec Nat Nat where
  hasItems := Dec.hasItems
  eolb := Dec.eolb
  getNext := Dec.getNext
  write := Dec.write
  flush := Dec.flush

/-- base32.cpp:131-134: decoder constructor. -/
def Dec.new (table : List Nat) (padChar : Nat) (caseSensitive : Bool) : Dec :=
  { table := initTable table caseSensitive (List.replicate 256 none), padChar }

/-- base32.cpp:17 `base32_RFC4648`. -/
def standardTable : List Nat :=
  -- ABCDEFGHIJKLMNOPQRSTUVWXYZ234567
  [65, 66, 67, 68, 69, 70, 71, 72, 73, 74, 75, 76, 77, 78, 79, 80, 81, 82, 83, 84, 85, 86, 87,
   88, 89, 90, 50, 51, 52, 53, 54, 55]

end LS.Base32

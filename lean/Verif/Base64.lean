import Verif.Conv
/-!
# Model of `utils/base64.{h,cpp}`: `ByteToBase64Convert`, `Base64ToByteConvert`

Characters and bytes are `Nat`.  Array cells are `Option Nat`, `none` = not yet written
(uninitialised memory); reading such a cell makes the operation `none`.  The deprecated filter
classes in `base64.tcc` are not modelled here.
-/

namespace LS.Base64

/-- base64.h:75-86: members of `ByteToBase64Convert` plus the flags inherited from
`IConverter`. -/
structure Enc where
  table : List Nat
  padChar : Nat
  outchars : List (Option Nat) := [none, none, none, none]
  wrbyte : Nat := 0
  readpos : Nat := 0
  hasItems : Bool := false
  needItems : Bool := true
  eolb : Bool := false
deriving Repr, DecidableEq

/-- Read of one array cell. -/
def cell (l : List (Option Nat)) (i : Nat) : Option Nat := (l[i]?).join

/-- base64.cpp:37-49 `ByteToBase64Convert::getNext`. -/
def Enc.getNext (s : Enc) : Option (Nat × Enc) :=
  match cell s.outchars s.readpos with
  | none => none
  | some out =>
    let readpos := s.readpos + 1
    if readpos = 4 then
      some (out, { s with readpos := 0, wrbyte := 0, needItems := true, hasItems := false })
    else
      some (out, { s with readpos := readpos, hasItems := decide (readpos < s.wrbyte) })

/-- base64.cpp:53-96 `ByteToBase64Convert::write`; `none` = the "no more items" exception or
an undefined table access. -/
def Enc.write (s0 : Enc) (item : Nat) : Option Enc :=
  let s := if s0.eolb then { s0 with eolb := false, wrbyte := 0, readpos := 0 } else s0
  match s.wrbyte with
  | 0 =>
    match s.table[item >>> 2]? with
    | none => none
    | some c0 =>
      some { s with outchars := (s.outchars.set 0 (some c0)).set 1 (some ((item &&& 0x3) <<< 4)),
                    wrbyte := 1, hasItems := true }
  | 1 =>
    match cell s.outchars 1 with
    | none => none
    | some p =>
      match s.table[p ||| (item >>> 4)]? with
      | none => none
      | some c1 =>
        some { s with outchars := (s.outchars.set 1 (some c1)).set 2 (some ((item &&& 0xF) <<< 2)),
                      wrbyte := 2, hasItems := true }
  | 2 =>
    match cell s.outchars 2 with
    | none => none
    | some p =>
      match s.table[p ||| (item >>> 6)]?, s.table[item &&& 0x3F]? with
      | some c2, some c3 =>
        some { s with outchars := (s.outchars.set 2 (some c2)).set 3 (some c3),
                      wrbyte := 4, needItems := false, hasItems := true }
      | _, _ => none
  | _ => none

/-- base64.cpp:98-147 `ByteToBase64Convert::flush`. -/
def Enc.flush (s0 : Enc) : Option Enc :=
  if s0.eolb then some s0
  else
    let s := { s0 with eolb := true, needItems := false }
    match s.wrbyte with
    | 1 =>
      match cell s.outchars 1 with
      | none => none
      | some p =>
        match s.table[p]? with
        | none => none
        | some c1 =>
          let o := s.outchars.set 1 (some c1)
          if s.padChar ≠ 0 then
            some { s with outchars := (o.set 2 (some s.padChar)).set 3 (some s.padChar),
                          wrbyte := 4, hasItems := decide (s.readpos < 4) }
          else some { s with outchars := o, wrbyte := 2, hasItems := decide (s.readpos < 2) }
    | 2 =>
      match cell s.outchars 2 with
      | none => none
      | some p =>
        match s.table[p]? with
        | none => none
        | some c2 =>
          let o := s.outchars.set 2 (some c2)
          if s.padChar ≠ 0 then
            some { s with outchars := o.set 3 (some s.padChar),
                          wrbyte := 4, hasItems := decide (s.readpos < 4) }
          else some { s with outchars := o, wrbyte := 3, hasItems := decide (s.readpos < 3) }
    | w => some { s with hasItems := decide (s.readpos < w) }

/-- The encoder seen by the driver of iterConv.h. -/
def enc : Conv Enc Nat Nat where
  hasItems := Enc.hasItems
  eolb := Enc.eolb
  getNext := Enc.getNext
  write := Enc.write
  flush := Enc.flush

/-- base64.cpp:30-34: constructor with table and padding character (0 = `noPadding`). -/
def Enc.new (table : List Nat) (padChar : Nat) : Enc := { table, padChar }

/-- base64.h:110-116: members of `Base64ToByteConvert`. `table` is the byte array of 256
entries, `none` = left uninitialised by `initTable`. -/
structure Dec where
  table : List (Option Nat)
  padChar : Nat
  outBytes : List (Option Nat) := [none, none, none]
  readpos : Nat := 0
  wrpos : Nat := 0
  hasItems : Bool := false
  needItems : Bool := true
  eolb : Bool := false
deriving Repr, DecidableEq

/-- base64.cpp:215-220 `initTable`: only cells named by the alphabet are filled. -/
def initTable (t : List Nat) (cells : List (Option Nat)) : List (Option Nat) :=
  (t.zipIdx).foldl (fun acc (ch, i) => acc.set ch (some (i &&& 63))) cells

/-- base64.cpp:162-174 `Base64ToByteConvert::getNext`. -/
def Dec.getNext (s : Dec) : Option (Nat × Dec) :=
  match cell s.outBytes s.readpos with
  | none => none
  | some out =>
    let readpos := s.readpos + 1
    if readpos = 3 then
      some (out, { s with readpos := 0, wrpos := 0, needItems := true, hasItems := false })
    else
      some (out, { s with readpos := readpos, hasItems := decide (readpos + 1 < s.wrpos) })

/-- base64.cpp:179-211 `Base64ToByteConvert::write`; stores into `byte` cells truncate. -/
def Dec.write (s0 : Dec) (item : Nat) : Option Dec :=
  if item = s0.padChar then some { s0 with eolb := true }
  else
    let s := if s0.eolb then { s0 with eolb := false, wrpos := 0, readpos := 0 } else s0
    match cell s.table item with
    | none => none
    | some v =>
      match s.wrpos with
      | 0 =>
        some { s with outBytes := s.outBytes.set 0 (some ((v <<< 2) &&& 0xFF)), wrpos := 1,
                      hasItems := decide (s.readpos + 1 < 1) }
      | 1 =>
        match cell s.outBytes 0 with
        | none => none
        | some b0 =>
          some { s with outBytes := (s.outBytes.set 0 (some (b0 ||| (v >>> 4)))).set 1
                          (some ((v <<< 4) &&& 0xFF)),
                        wrpos := 2, hasItems := decide (s.readpos + 1 < 2) }
      | 2 =>
        match cell s.outBytes 1 with
        | none => none
        | some b1 =>
          some { s with outBytes := (s.outBytes.set 1 (some (b1 ||| (v >>> 2)))).set 2
                          (some ((v <<< 6) &&& 0xFF)),
                        wrpos := 3, hasItems := decide (s.readpos + 1 < 3) }
      | 3 =>
        match cell s.outBytes 2 with
        | none => none
        | some b2 =>
          some { s with outBytes := s.outBytes.set 2 (some (b2 ||| v)), wrpos := 4,
                        hasItems := decide (s.readpos + 1 < 4) }
      | _ => none

/-- base64.cpp:212-214 `Base64ToByteConvert::flush`. -/
def Dec.flush (s : Dec) : Option Dec := some { s with eolb := true }

/-- The decoder seen by the driver of iterConv.h. -/
def dec : Conv Dec Nat Nat where
  hasItems := Dec.hasItems
  eolb := Dec.eolb
  getNext := Dec.getNext
  write := Dec.write
  flush := Dec.flush

/-- base64.cpp:157-160: decoder constructor with alphabet and padding character. -/
def Dec.new (table : List Nat) (padChar : Nat) : Dec :=
  { table := initTable table (List.replicate 256 none), padChar }

/-- base64.cpp:16 `base64_encodeTable`. -/
def standardTable : List Nat :=
  -- ABCDEFGHIJKLMNOPQRSTUVWXYZabcdefghijklmnopqrstuvwxyz0123456789+/
  [65, 66, 67, 68, 69, 70, 71, 72, 73, 74, 75, 76, 77, 78, 79, 80, 81, 82, 83, 84, 85, 86,
   87, 88, 89, 90, 97, 98, 99, 100, 101, 102, 103, 104, 105, 106, 107, 108, 109, 110, 111,
   112, 113, 114, 115, 116, 117, 118, 119, 120, 121, 122, 48, 49, 50, 51, 52, 53, 54, 55, 56,
   57, 43, 47]

/-- base64.cpp:17 `base64_urlEncodeTable`. -/
def forUrlTable : List Nat :=
  -- ABCDEFGHIJKLMNOPQRSTUVWXYZabcdefghijklmnopqrstuvwxyz0123456789-_
  [65, 66, 67, 68, 69, 70, 71, 72, 73, 74, 75, 76, 77, 78, 79, 80, 81, 82, 83, 84, 85, 86,
   87, 88, 89, 90, 97, 98, 99, 100, 101, 102, 103, 104, 105, 106, 107, 108, 109, 110, 111,
   112, 113, 114, 115, 116, 117, 118, 119, 120, 121, 122, 48, 49, 50, 51, 52, 53, 54, 55, 56,
   57, 45, 95]

/-- base64.cpp:25-29: default encoder. -/
def Enc.default : Enc := Enc.new standardTable 61

/-- base64.cpp:149-155: default decoder, accepts both alphabets. -/
def Dec.default : Dec :=
  { table := ((initTable standardTable (List.replicate 256 none)).set 45 (some 62)).set 95 (some 63),
    padChar := 61 }

end LS.Base64

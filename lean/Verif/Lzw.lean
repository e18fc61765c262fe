import Verif.Conv
/-!
# Model of `utils/lzw.h`, `utils/lzw.tcc`, `utils/lzw.cpp`: the LZW compressor and decompressor

Both are converters of bytes to bytes (`Conv`). `none` stands for an exception, for undefined behaviour
or for a loop which does not end.

Simplified: the dictionary of the compressor (lists of `DictItem` by the previous code) is one list
which is searched from the newest item; the marks of items (used by the variant LZWp only) are kept
as a list of codes; the ring of 16 bytes of `OutBuff` is a queue which looks empty when it holds 16 bytes.
`natural` values which cannot grow over 64 bits are not truncated.
-/

namespace LS.Lzw

/-- lzw.h:21. -/
def clearCode : Nat := 256
/-- lzw.h:26. -/
def endData : Nat := 257
/-- lzw.h:28. -/
def firstChainCode : Nat := 258
/-- lzw.h:30: `ChainCode(-1)`. -/
def nullChainCode : Nat := 65535
/-- lzw.h:34. -/
def initialBits : Nat := 9

/-! ## `OutBuff` -/

/-- lzw.h:143-159 `OutBuff`; `pend` are the bytes between `rdpos` and `wrpos`. -/
structure OutBuff where
  pend : List Nat := []
  wrbits : Nat := 8
  accum : Nat := 0
deriving Repr, DecidableEq

/-- `outbuff[wrpos] = x; wrpos = (wrpos + 1) & 0xF` in lzw.tcc:273-274, 290-291. -/
def push (p : List Nat) (x : Nat) : List Nat := if p.length = 15 then [] else p ++ [x]

/-- lzw.tcc:269-281 `OutBuff::write`; one round of the loop takes at least one bit. -/
def OutBuff.write : (fuel : Nat) → OutBuff → (code bits : Nat) → OutBuff
  | 0, o, _, _ => o
  | fuel + 1, o, code, bits =>
    if bits ≥ o.wrbits then
      OutBuff.write fuel { pend := push o.pend ((o.accum ||| (code >>> (bits - o.wrbits))) % 256), wrbits := 8, accum := 0 }
        (code &&& (2 ^ (bits - o.wrbits) - 1)) (bits - o.wrbits)
    else { o with accum := (o.accum ||| (code <<< (o.wrbits - bits))) % 256, wrbits := o.wrbits - bits }

/-- lzw.tcc:288-295 `padzeroes`. -/
def OutBuff.padzeroes (o : OutBuff) : OutBuff := { pend := push o.pend o.accum, wrbits := 8, accum := 0 }

/-! ## The compressor -/

/-- lzw.h:104-170 `LZWCompressBase`; `dict` holds (previous code, byte, code), the newest item first. -/
structure Comp where
  dict : List (Nat × Nat × Nat) := []
  marked : List Nat := []
  next : Nat := 258
  cur : Nat := 65535
  bits : Nat := 9
  maxCode : Nat
  out : OutBuff := {}
  hasItems : Bool := false
  eolb : Bool := false
deriving Repr, DecidableEq

/-- lzw.tcc:18-25: the constructor. -/
def Comp.init (maxBits : Nat) : Comp :=
  { maxCode := (2 ^ (if maxBits > 15 then 15 else maxBits) + 65536 - 4) % 65536 }

/-- lzw.cpp:181-195, 205-211 `findCodeAndMark`, without the mark. -/
def findCode (d : List (Nat × Nat × Nat)) (prev b : Nat) : Option Nat :=
  match d with
  | [] => none
  | (p, x, c) :: d => if p = prev ∧ x = b then some c else findCode d prev b

/-- lzw.tcc:125-130 `writeCode`. -/
def Comp.writeCode (c : Comp) (code : Nat) : Comp :=
  let o := OutBuff.write (c.bits + 1) c.out code c.bits
  { c with out := o, hasItems := o.pend.length != 0 }

/-- lzw.tcc:42-53 `writeClearCode`. -/
def Comp.writeClearCode (c : Comp) (code : Nat) : Comp :=
  { c.writeCode code with bits := 9, next := 258, dict := [], marked := [], cur := 65535 }

/-- lzw.tcc:55-62 `increaseBits`. -/
def Comp.increaseBits (c : Comp) (newCode : Nat) : Comp :=
  if newCode = 2 ^ c.bits then { c with bits := c.bits + 1 } else c

/-- lzw.tcc:70-102 `write`; `clr` is `onClearCode` of the derived class. -/
def Comp.write (clr : Comp → Option Comp) (c : Comp) (b : Nat) : Option Comp :=
  match findCode c.dict c.cur b with
  | some code => some { c with cur := code, marked := code :: c.marked }
  | none =>
    if c.cur = nullChainCode then some { c with cur := b, eolb := false }
    else
      let c1 := c.writeCode c.cur
      let c2 := { c1 with next := (c1.next + 1) % 65536, dict := (c1.cur, b, c1.next) :: c1.dict }
      let c3 := c2.increaseBits c1.next
      match if c1.next = c3.maxCode then clr c3 else some c3 with
      | none => none
      | some c4 => some { c4 with cur := b }

/-- lzw.tcc:104-123 `flush`. -/
def Comp.flush (c : Comp) : Comp :=
  let c1 := if c.cur ≠ nullChainCode then
      let c1 := c.writeCode c.cur
      let c2 := { c1 with next := (c1.next + 1) % 65536 }
      let c3 := (c2.increaseBits c1.next).writeClearCode endData
      { c3 with out := c3.out.padzeroes, cur := nullChainCode }
    else c
  { c1 with eolb := true }

/-- lzw.tcc:27-34 `getNext`; nothing to read is undefined. -/
def Comp.getNext (c : Comp) : Option (Nat × Comp) :=
  match c.out.pend with
  | [] => none
  | x :: p => some (x, { c with out := { c.out with pend := p }, hasItems := p.length != 0 })

/-- lzw.cpp:157-159 `LZWCompress::onClearCode`. -/
def Comp.onClear (c : Comp) : Option Comp := some (c.writeClearCode clearCode)

/-- lzw.h:104-170 `LZWCompressBase` as a converter. -/
def compOf (clr : Comp → Option Comp) : Conv Comp Nat Nat where
  hasItems c := c.hasItems
  eolb c := c.eolb
  getNext c := c.getNext
  write c b := c.write clr b
  flush c := some c.flush

/-- lzw.h:219-226 `LZWCompress`. -/
def comp : Conv Comp Nat Nat := compOf Comp.onClear

/-! ## The decompressor -/

/-- lzw.h:172-217 `LZWDecompressBase` without the bit accumulator; `dict` holds (previous code, byte);
`out` are the bytes of `outbytes`, the last one first (they are read from the end). -/
structure Core where
  dict : List (Nat × Nat) := []
  marked : List Nat := []
  prev : Nat := 65535
  bits : Nat := 9
  out : List Nat := []
  hasItems : Bool := false
  eolb : Bool := false
deriving Repr, DecidableEq

structure Dec where
  core : Core := {}
  accum : Nat := 0
  inbits : Nat := 0
deriving Repr, DecidableEq

/-- lzw.tcc:223-235 `extractCode`: the bytes in front of `acc` and the codes marked; a code which is
not in the dictionary is undefined behaviour. -/
def extract (dict : List (Nat × Nat)) : (fuel code : Nat) → (acc : List Nat) → Option (List Nat × List Nat)
  | 0, _, _ => none
  | fuel + 1, code, acc =>
    if code ≥ firstChainCode then
      match dict[code - firstChainCode]? with
      | none => none
      | some (prev, b) => match extract dict fuel prev (b :: acc) with
        | none => none
        | some (s, m) => some (s, code :: m)
    else some (code % 256 :: acc, [])

/-- The last item of a list is replaced by the first one: `outbytes(0) = outbytes[outbytes.length()-1]`. -/
def lastFirst (l : List Nat) : List Nat := l.dropLast ++ l.take 1

/-- lzw.tcc:207-213: what follows every code which gives bytes. -/
def Core.after (c : Core) (code nextCode : Nat) : Core :=
  { c with prev := code, bits := if nextCode + 1 = 2 ^ c.bits then c.bits + 1 else c.bits, hasItems := true, eolb := false }

/-- lzw.tcc:178-214: the codes other than clear and end. -/
def Core.onCode (c : Core) (code : Nat) : Option Core :=
  let nextCode := (c.dict.length + firstChainCode) % 65536
  if code < 256 then
    some (({ c with out := [code], dict := if c.prev ≠ nullChainCode then c.dict ++ [(c.prev, code)] else c.dict } : Core).after code nextCode)
  else if code = nextCode then
    if c.prev = nullChainCode then none
    else match extract c.dict (c.dict.length + 1) c.prev [0] with
      | none => none
      | some (s, m) => some (({ c with out := lastFirst s, dict := c.dict ++ [(c.prev, s.headD 0)], marked := code :: m ++ c.marked } : Core).after code nextCode)
  else if code < nextCode then
    match extract c.dict (c.dict.length + 1) code [] with
    | none => none
    | some (s, m) => some (({ c with out := s, dict := if c.prev ≠ nullChainCode then c.dict ++ [(c.prev, s.headD 0)] else c.dict, marked := m ++ c.marked } : Core).after code nextCode)
  else none

/-- lzw.tcc:237-249 `appendBits`. -/
def appendBits (cb accum inbits b : Nat) : Nat × Nat × Option Nat :=
  let a := (accum <<< 8) ||| b
  let n := inbits + 8
  if n ≥ cb then (a &&& (2 ^ (n - cb) - 1), n - cb, some ((a >>> (n - cb)) % 65536))
  else (a, n, none)

/-- lzw.tcc:162-217 `write`; `clr` is `onClearCode` of the derived class. `prevCode=null` gives 0: `null`
is a constant 0 of an enumeration, base/types.h:75-78. -/
def Dec.write (clr : Core → Option Core) (d : Dec) (b : Nat) : Option Dec :=
  match appendBits d.core.bits d.accum d.inbits b with
  | (a, n, none) => some { d with accum := a, inbits := n }
  | (a, n, some code) =>
    if code = clearCode then (clr d.core).map fun c => { core := c, accum := a, inbits := n }
    else if code = endData then some { core := { d.core with eolb := true, prev := 0 }, accum := 0, inbits := 0 }
    else (d.core.onCode code).map fun c => { core := c, accum := a, inbits := n }

/-- lzw.tcc:153-160 `clearDict`, lzw.cpp:161-164 `LZWDecompress::onClearCode`. -/
def Core.onClear (c : Core) : Option Core :=
  some { c with bits := 9, dict := [], marked := [], hasItems := false, prev := nullChainCode }

/-- lzw.tcc:138-145 `getNext`. -/
def Dec.getNext (d : Dec) : Option (Nat × Dec) :=
  match d.core.out with
  | [] => none
  | x :: p => some (x, { d with core := { d.core with out := p, hasItems := p.length != 0 } })

/-- lzw.h:172-217 `LZWDecompressBase` as a converter; `flush` does nothing (lzw.tcc:219-221). -/
def decOf (clr : Core → Option Core) : Conv Dec Nat Nat where
  hasItems d := d.core.hasItems
  eolb d := d.core.eolb
  getNext d := d.getNext
  write d b := d.write clr b
  flush d := some d

/-- lzw.h:228-233 `LZWDecompress`. -/
def dec : Conv Dec Nat Nat := decOf Core.onClear

end LS.Lzw

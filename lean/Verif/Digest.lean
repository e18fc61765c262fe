/-!
# Model of the digests, `utils/impl/md5.{h,cpp}`, `utils/impl/sha1.{h,cpp}`, `utils/md5iter.h`

Bytes are `BitVec 8`. MD5 works with 32 bit words (`md5_word_t` is `unsigned int`, md5.h:65). The words
of SHA-1 are `unsigned long` (sha1.h:37), 64 bits on the platform modelled here (LP64). The
instructions of the unrolled rounds are transcribed one by one from the source text.
-/

namespace LS.Digest

abbrev Byte := BitVec 8

/-! ## MD5 -/

namespace Md5

abbrev W := BitVec 32

/-- md5.h:68-72, `abcd`; in `md5_process` the variables `a`, `b`, `c`, `d`. -/
structure R4 where
  a : W
  b : W
  c : W
  d : W
deriving Repr, DecidableEq

inductive Reg
  | a | b | c | d
deriving Repr, DecidableEq

def R4.get (r : R4) : Reg → W
  | .a => r.a
  | .b => r.b
  | .c => r.c
  | .d => r.d

def R4.set (r : R4) : Reg → W → R4
  | .a, v => { r with a := v }
  | .b, v => { r with b := v }
  | .c, v => { r with c := v }
  | .d, v => { r with d := v }

/-- The arguments of one `SET(a, b, c, d, k, s, Ti)`. -/
structure Set1 where
  a : Reg
  b : Reg
  c : Reg
  d : Reg
  k : Nat
  s : Nat
  t : W
deriving Repr, DecidableEq

/-- md5.cpp:74 `T_MASK`. -/
def tmask : W := ~~~0

/-- md5.cpp:206 `ROTATE_LEFT`. -/
def rotateLeft (x : W) (n : Nat) : W := (x <<< n) ||| (x >>> (32 - n))

/-- md5.cpp:211 `F`. -/
def F (x y z : W) : W := (x &&& y) ||| (~~~x &&& z)

/-- md5.cpp:237 `G`. -/
def G (x y z : W) : W := (x &&& z) ||| (y &&& ~~~z)

/-- md5.cpp:263 `H`. -/
def H (x y z : W) : W := x ^^^ y ^^^ z

/-- md5.cpp:289 `I`. -/
def I (x y z : W) : W := y ^^^ (x ||| ~~~z)

/-- md5.cpp:212-214, 238-240, 264-266, 290-292 `SET`. -/
def set1 (f : W → W → W → W) (X : List W) (r : R4) (i : Set1) : R4 :=
  r.set i.a (rotateLeft (r.get i.a + f (r.get i.b) (r.get i.c) (r.get i.d) + X.getD i.k 0 + i.t) i.s + r.get i.b)

/-- md5.cpp:216-231, with the constants of md5.cpp:74-138. -/
def round1 : List Set1 :=
   [⟨.a, .b, .c, .d, 0, 7, tmask ^^^ 0x28955b87⟩, ⟨.d, .a, .b, .c, 1, 12, tmask ^^^ 0x173848a9⟩, ⟨.c, .d, .a, .b, 2, 17, 0x242070db⟩, ⟨.b, .c, .d, .a, 3, 22, tmask ^^^ 0x3e423111⟩,
    ⟨.a, .b, .c, .d, 4, 7, tmask ^^^ 0x0a83f050⟩, ⟨.d, .a, .b, .c, 5, 12, 0x4787c62a⟩, ⟨.c, .d, .a, .b, 6, 17, tmask ^^^ 0x57cfb9ec⟩, ⟨.b, .c, .d, .a, 7, 22, tmask ^^^ 0x02b96afe⟩,
    ⟨.a, .b, .c, .d, 8, 7, 0x698098d8⟩, ⟨.d, .a, .b, .c, 9, 12, tmask ^^^ 0x74bb0850⟩, ⟨.c, .d, .a, .b, 10, 17, tmask ^^^ 0x0000a44e⟩, ⟨.b, .c, .d, .a, 11, 22, tmask ^^^ 0x76a32841⟩,
    ⟨.a, .b, .c, .d, 12, 7, 0x6b901122⟩, ⟨.d, .a, .b, .c, 13, 12, tmask ^^^ 0x02678e6c⟩, ⟨.c, .d, .a, .b, 14, 17, tmask ^^^ 0x5986bc71⟩, ⟨.b, .c, .d, .a, 15, 22, 0x49b40821⟩]

/-- md5.cpp:242-257, with the constants of md5.cpp:74-138. -/
def round2 : List Set1 :=
   [⟨.a, .b, .c, .d, 1, 5, tmask ^^^ 0x09e1da9d⟩, ⟨.d, .a, .b, .c, 6, 9, tmask ^^^ 0x3fbf4cbf⟩, ⟨.c, .d, .a, .b, 11, 14, 0x265e5a51⟩, ⟨.b, .c, .d, .a, 0, 20, tmask ^^^ 0x16493855⟩,
    ⟨.a, .b, .c, .d, 5, 5, tmask ^^^ 0x29d0efa2⟩, ⟨.d, .a, .b, .c, 10, 9, 0x02441453⟩, ⟨.c, .d, .a, .b, 15, 14, tmask ^^^ 0x275e197e⟩, ⟨.b, .c, .d, .a, 4, 20, tmask ^^^ 0x182c0437⟩,
    ⟨.a, .b, .c, .d, 9, 5, 0x21e1cde6⟩, ⟨.d, .a, .b, .c, 14, 9, tmask ^^^ 0x3cc8f829⟩, ⟨.c, .d, .a, .b, 3, 14, tmask ^^^ 0x0b2af278⟩, ⟨.b, .c, .d, .a, 8, 20, 0x455a14ed⟩,
    ⟨.a, .b, .c, .d, 13, 5, tmask ^^^ 0x561c16fa⟩, ⟨.d, .a, .b, .c, 2, 9, tmask ^^^ 0x03105c07⟩, ⟨.c, .d, .a, .b, 7, 14, 0x676f02d9⟩, ⟨.b, .c, .d, .a, 12, 20, tmask ^^^ 0x72d5b375⟩]

/-- md5.cpp:268-283, with the constants of md5.cpp:74-138. -/
def round3 : List Set1 :=
   [⟨.a, .b, .c, .d, 5, 4, tmask ^^^ 0x0005c6bd⟩, ⟨.d, .a, .b, .c, 8, 11, tmask ^^^ 0x788e097e⟩, ⟨.c, .d, .a, .b, 11, 16, 0x6d9d6122⟩, ⟨.b, .c, .d, .a, 14, 23, tmask ^^^ 0x021ac7f3⟩,
    ⟨.a, .b, .c, .d, 1, 4, tmask ^^^ 0x5b4115bb⟩, ⟨.d, .a, .b, .c, 4, 11, 0x4bdecfa9⟩, ⟨.c, .d, .a, .b, 7, 16, tmask ^^^ 0x0944b49f⟩, ⟨.b, .c, .d, .a, 10, 23, tmask ^^^ 0x4140438f⟩,
    ⟨.a, .b, .c, .d, 13, 4, 0x289b7ec6⟩, ⟨.d, .a, .b, .c, 0, 11, tmask ^^^ 0x155ed805⟩, ⟨.c, .d, .a, .b, 3, 16, tmask ^^^ 0x2b10cf7a⟩, ⟨.b, .c, .d, .a, 6, 23, 0x04881d05⟩,
    ⟨.a, .b, .c, .d, 9, 4, tmask ^^^ 0x262b2fc6⟩, ⟨.d, .a, .b, .c, 12, 11, tmask ^^^ 0x1924661a⟩, ⟨.c, .d, .a, .b, 15, 16, 0x1fa27cf8⟩, ⟨.b, .c, .d, .a, 2, 23, tmask ^^^ 0x3b53a99a⟩]

/-- md5.cpp:294-309, with the constants of md5.cpp:74-138. -/
def round4 : List Set1 :=
   [⟨.a, .b, .c, .d, 0, 6, tmask ^^^ 0x0bd6ddbb⟩, ⟨.d, .a, .b, .c, 7, 10, 0x432aff97⟩, ⟨.c, .d, .a, .b, 14, 15, tmask ^^^ 0x546bdc58⟩, ⟨.b, .c, .d, .a, 5, 21, tmask ^^^ 0x036c5fc6⟩,
    ⟨.a, .b, .c, .d, 12, 6, 0x655b59c3⟩, ⟨.d, .a, .b, .c, 3, 10, tmask ^^^ 0x70f3336d⟩, ⟨.c, .d, .a, .b, 10, 15, tmask ^^^ 0x00100b82⟩, ⟨.b, .c, .d, .a, 1, 21, tmask ^^^ 0x7a7ba22e⟩,
    ⟨.a, .b, .c, .d, 8, 6, 0x6fa87e4f⟩, ⟨.d, .a, .b, .c, 15, 10, tmask ^^^ 0x01d3191f⟩, ⟨.c, .d, .a, .b, 6, 15, tmask ^^^ 0x5cfebceb⟩, ⟨.b, .c, .d, .a, 13, 21, 0x4e0811a1⟩,
    ⟨.a, .b, .c, .d, 4, 6, tmask ^^^ 0x08ac817d⟩, ⟨.d, .a, .b, .c, 11, 10, tmask ^^^ 0x42c50dca⟩, ⟨.c, .d, .a, .b, 2, 15, 0x2ad7d2bb⟩, ⟨.b, .c, .d, .a, 9, 21, tmask ^^^ 0x14792c6e⟩]

/-- md5.cpp:152-204: the words of a block, the lowest byte first (whichever of the branches for the byte
order is taken). -/
def words : List Byte → List W
  | b0 :: b1 :: b2 :: b3 :: l => (b3 ++ b2 ++ b1 ++ b0 : W) :: words l
  | _ => []

/-- md5.cpp:141-319 `md5_process`. -/
def process (h : R4) (data : List Byte) : R4 :=
  let X := words data
  let r := round4.foldl (set1 I X) (round3.foldl (set1 H X) (round2.foldl (set1 G X) (round1.foldl (set1 F X) h)))
  { a := h.a + r.a, b := h.b + r.b, c := h.c + r.c, d := h.d + r.d }

/-- md5.h:68-72 `md5_state_s`; the two words of `count` as numbers below 2^32. -/
structure St where
  c0 : Nat
  c1 : Nat
  h : R4
  buf : List Byte
deriving Repr, DecidableEq

/-- md5.cpp:321-328 `md5_init`; `buf` stays uninitialized. -/
def init (buf : List Byte) : St :=
  { c0 := 0, c1 := 0, h := { a := 0x67452301, b := tmask ^^^ 0x10325476, c := tmask ^^^ 0x67452301, d := 0x10325476 }, buf }

/-- `memcpy(buf + off, data, data.length)`. -/
def splice (buf : List Byte) (off : Nat) (data : List Byte) : List Byte :=
  buf.take off ++ data ++ buf.drop (off + data.length)

/-- md5.cpp:359-361: full blocks; the result is the state and what is left. -/
def full : (fuel : Nat) → R4 → List Byte → R4 × List Byte
  | 0, h, d => (h, d)
  | fuel + 1, h, d => if 64 ≤ d.length then full fuel (process h (d.take 64)) (d.drop 64) else (h, d)

/-- md5.cpp:358-366: the part of `md5_append` behind the initial partial block. -/
def tail (p : St) (d : List Byte) : St :=
  let r := full d.length p.h d
  { p with h := r.1, buf := if r.2.length ≠ 0 then splice p.buf 0 r.2 else p.buf }

/-- md5.cpp:330-366 `md5_append`; `none`: `nbytes << 3` leaves the range of `int`, or the length
itself is not an `int`. -/
def append (p : St) (data : List Byte) : Option St :=
  let n := data.length
  if n ≥ 2 ^ 28 then none
  else
    let offset := (p.c0 >>> 3) &&& 63
    let nbits := n <<< 3
    if n = 0 then some p
    else
      let c1 := (p.c1 + (n >>> 29)) % 2 ^ 32
      let c0 := (p.c0 + nbits) % 2 ^ 32
      let c1 := if c0 < nbits then (c1 + 1) % 2 ^ 32 else c1
      let p := { p with c0 := c0, c1 := c1 }
      if offset ≠ 0 then
        let copy := if offset + n > 64 then 64 - offset else n
        let p := { p with buf := splice p.buf offset (data.take copy) }
        if offset + copy < 64 then some p
        else some (tail { p with h := process p.h p.buf } (data.drop copy))
      else some (tail p data)

/-- md5.cpp:370-375 `pad`. -/
def pad : List Byte := 0x80 :: List.replicate 63 0

/-- md5.cpp:368-389 `md5_finish`: the digest and the state left behind. -/
def finish (p : St) : Option (List Byte × St) :=
  let data := (List.range 8).map fun i => BitVec.ofNat 8 ((if i >>> 2 = 0 then p.c0 else p.c1) >>> ((i &&& 3) <<< 3))
  match append p (pad.take (((55 + 2 ^ 32 - (p.c0 >>> 3)) % 2 ^ 32 &&& 63) + 1)) with
  | none => none
  | some p1 =>
    match append p1 data with
    | none => none
    | some p2 =>
      some ((List.range 16).map (fun i => (p2.h.get (match i >>> 2 with | 0 => Reg.a | 1 => .b | 2 => .c | _ => .d) >>> ((i &&& 3) <<< 3)).setWidth 8), p2)

/-- Pieces given to `md5_append` one after another, then `md5_finish` (md5iter.h:26-49). -/
def appends : St → List (List Byte) → Option St
  | p, [] => some p
  | p, d :: ds => match append p d with
    | none => none
    | some p => appends p ds

/-- The iterator (utils/md5iter.h:13-77): the state, `_digest` and `_hexdigest`.  The two arrays are not
initialised by the constructor: `none`.  The next iterator is the null iterator, which accepts
everything. -/
structure Hash where
  st : St
  digest : Option (List Byte)
  hex : Option (List Byte)

/-- md5iter.h:17-23. -/
def Hash.new (junk : List Byte) : Hash := ⟨init junk, none, none⟩

/-- md5iter.h:26-29, 31-42: one item or a block of bytes. -/
def Hash.write (x : Hash) (d : List Byte) : Option Hash := (append x.st d).map fun st => { x with st := st }

/-- md5iter.h:44-47: `finish`; `_hexdigest[0] = 0` marks the text as not computed. -/
def Hash.finish (x : Hash) : Option Hash := (Md5.finish x.st).map fun r => ⟨r.2, some r.1, some (0 :: (x.hex.getD (List.replicate 32 0)).drop 1)⟩

/-- md5iter.h:49-51: `flush` is `finish`. -/
def Hash.flush (x : Hash) : Option Hash := x.finish

/-- md5iter.h:58-61, the first loop: two nibbles of each byte. -/
def nibbles (d : List Byte) : List Byte := d.flatMap fun (b : Byte) => [b >>> 4, b &&& (0xF : Byte)]

/-- md5iter.h:62-66, the second loop: a digit for a nibble. -/
def digit (z : Byte) : Byte := if z ≤ 9 then z + 48 else z + 0x61 - 10

/-- md5iter.h:55-69: `hexdigest`; `none` when it reads an array which nobody wrote. -/
def Hash.hexdigest (x : Hash) : Option (List Byte × Hash) :=
  match x.hex, x.digest with
  | some h, some d =>
    if h.getD 0 0 = 0 then some ((nibbles d).map digit, { x with hex := some ((nibbles d).map digit) })
    else some (h, x)
  | _, _ => none

end Md5

/-! ## SHA-1 -/

namespace Sha1

/-- sha1.h:37 `uint32`. -/
abbrev U := BitVec 64

/-- sha1.h:44 `digest`; in `transform` the variables `a` … `e`. -/
structure R5 where
  a : U
  b : U
  c : U
  d : U
  e : U
deriving Repr, DecidableEq

inductive Reg
  | a | b | c | d | e
deriving Repr, DecidableEq

def R5.get (r : R5) : Reg → U
  | .a => r.a
  | .b => r.b
  | .c => r.c
  | .d => r.d
  | .e => r.e

def R5.set (r : R5) : Reg → U → R5
  | .a, x => { r with a := x }
  | .b, x => { r with b := x }
  | .c, x => { r with c := x }
  | .d, x => { r with d := x }
  | .e, x => { r with e := x }

/-- sha1.cpp:149 `rol`. -/
def rol (value : U) (bits : Nat) : U := (value <<< bits) ||| ((value &&& 0xffffffff) >>> (32 - bits))

/-- sha1.cpp:150 `blk`: the array with the new item, which is also the value. -/
def blk (block : List U) (i : Nat) : List U :=
  block.set (i &&& 15) (rol (block.getD ((i + 13) &&& 15) 0 ^^^ block.getD ((i + 8) &&& 15) 0 ^^^ block.getD ((i + 2) &&& 15) 0 ^^^ block.getD (i &&& 15) 0) 1)

/-- One `Rn(v,w,x,y,z,i)`. -/
structure Rnd where
  n : Nat
  v : Reg
  w : Reg
  x : Reg
  y : Reg
  z : Reg
  i : Nat
deriving Repr, DecidableEq

/-- sha1.cpp:153-157, the functions of `R0`…`R4`. -/
def fn (n : Nat) (w x y : U) : U :=
  match n with
  | 0 => (w &&& (x ^^^ y)) ^^^ y
  | 1 => (w &&& (x ^^^ y)) ^^^ y
  | 2 => w ^^^ x ^^^ y
  | 3 => ((w ||| x) &&& y) ||| (w &&& x)
  | _ => w ^^^ x ^^^ y

/-- sha1.cpp:153-157, the constants of `R0`…`R4`. -/
def kn (n : Nat) : U :=
  match n with
  | 0 => 0x5a827999
  | 1 => 0x5a827999
  | 2 => 0x6ed9eba1
  | 3 => 0x8f1bbcdc
  | _ => 0xca62c1d6

/-- sha1.cpp:153-157 `R0`…`R4`: registers and block. -/
def rnd (s : R5 × List U) (q : Rnd) : R5 × List U :=
  let block := if q.n = 0 then s.2 else blk s.2 q.i
  let r := s.1
  let r := r.set q.z (r.get q.z + (fn q.n (r.get q.w) (r.get q.x) (r.get q.y) + block.getD (q.i &&& 15) 0 + kn q.n + rol (r.get q.v) 5))
  (r.set q.w (rol (r.get q.w) 30), block)

/-- sha1.cpp:160-239. -/
def code : List Rnd :=
   [⟨0, .a, .b, .c, .d, .e, 0⟩, ⟨0, .e, .a, .b, .c, .d, 1⟩, ⟨0, .d, .e, .a, .b, .c, 2⟩, ⟨0, .c, .d, .e, .a, .b, 3⟩, ⟨0, .b, .c, .d, .e, .a, 4⟩,
    ⟨0, .a, .b, .c, .d, .e, 5⟩, ⟨0, .e, .a, .b, .c, .d, 6⟩, ⟨0, .d, .e, .a, .b, .c, 7⟩, ⟨0, .c, .d, .e, .a, .b, 8⟩, ⟨0, .b, .c, .d, .e, .a, 9⟩,
    ⟨0, .a, .b, .c, .d, .e, 10⟩, ⟨0, .e, .a, .b, .c, .d, 11⟩, ⟨0, .d, .e, .a, .b, .c, 12⟩, ⟨0, .c, .d, .e, .a, .b, 13⟩, ⟨0, .b, .c, .d, .e, .a, 14⟩,
    ⟨0, .a, .b, .c, .d, .e, 15⟩, ⟨1, .e, .a, .b, .c, .d, 16⟩, ⟨1, .d, .e, .a, .b, .c, 17⟩, ⟨1, .c, .d, .e, .a, .b, 18⟩, ⟨1, .b, .c, .d, .e, .a, 19⟩,
    ⟨2, .a, .b, .c, .d, .e, 20⟩, ⟨2, .e, .a, .b, .c, .d, 21⟩, ⟨2, .d, .e, .a, .b, .c, 22⟩, ⟨2, .c, .d, .e, .a, .b, 23⟩, ⟨2, .b, .c, .d, .e, .a, 24⟩,
    ⟨2, .a, .b, .c, .d, .e, 25⟩, ⟨2, .e, .a, .b, .c, .d, 26⟩, ⟨2, .d, .e, .a, .b, .c, 27⟩, ⟨2, .c, .d, .e, .a, .b, 28⟩, ⟨2, .b, .c, .d, .e, .a, 29⟩,
    ⟨2, .a, .b, .c, .d, .e, 30⟩, ⟨2, .e, .a, .b, .c, .d, 31⟩, ⟨2, .d, .e, .a, .b, .c, 32⟩, ⟨2, .c, .d, .e, .a, .b, 33⟩, ⟨2, .b, .c, .d, .e, .a, 34⟩,
    ⟨2, .a, .b, .c, .d, .e, 35⟩, ⟨2, .e, .a, .b, .c, .d, 36⟩, ⟨2, .d, .e, .a, .b, .c, 37⟩, ⟨2, .c, .d, .e, .a, .b, 38⟩, ⟨2, .b, .c, .d, .e, .a, 39⟩,
    ⟨3, .a, .b, .c, .d, .e, 40⟩, ⟨3, .e, .a, .b, .c, .d, 41⟩, ⟨3, .d, .e, .a, .b, .c, 42⟩, ⟨3, .c, .d, .e, .a, .b, 43⟩, ⟨3, .b, .c, .d, .e, .a, 44⟩,
    ⟨3, .a, .b, .c, .d, .e, 45⟩, ⟨3, .e, .a, .b, .c, .d, 46⟩, ⟨3, .d, .e, .a, .b, .c, 47⟩, ⟨3, .c, .d, .e, .a, .b, 48⟩, ⟨3, .b, .c, .d, .e, .a, 49⟩,
    ⟨3, .a, .b, .c, .d, .e, 50⟩, ⟨3, .e, .a, .b, .c, .d, 51⟩, ⟨3, .d, .e, .a, .b, .c, 52⟩, ⟨3, .c, .d, .e, .a, .b, 53⟩, ⟨3, .b, .c, .d, .e, .a, 54⟩,
    ⟨3, .a, .b, .c, .d, .e, 55⟩, ⟨3, .e, .a, .b, .c, .d, 56⟩, ⟨3, .d, .e, .a, .b, .c, 57⟩, ⟨3, .c, .d, .e, .a, .b, 58⟩, ⟨3, .b, .c, .d, .e, .a, 59⟩,
    ⟨4, .a, .b, .c, .d, .e, 60⟩, ⟨4, .e, .a, .b, .c, .d, 61⟩, ⟨4, .d, .e, .a, .b, .c, 62⟩, ⟨4, .c, .d, .e, .a, .b, 63⟩, ⟨4, .b, .c, .d, .e, .a, 64⟩,
    ⟨4, .a, .b, .c, .d, .e, 65⟩, ⟨4, .e, .a, .b, .c, .d, 66⟩, ⟨4, .d, .e, .a, .b, .c, 67⟩, ⟨4, .c, .d, .e, .a, .b, 68⟩, ⟨4, .b, .c, .d, .e, .a, 69⟩,
    ⟨4, .a, .b, .c, .d, .e, 70⟩, ⟨4, .e, .a, .b, .c, .d, 71⟩, ⟨4, .d, .e, .a, .b, .c, 72⟩, ⟨4, .c, .d, .e, .a, .b, 73⟩, ⟨4, .b, .c, .d, .e, .a, 74⟩,
    ⟨4, .a, .b, .c, .d, .e, 75⟩, ⟨4, .e, .a, .b, .c, .d, 76⟩, ⟨4, .d, .e, .a, .b, .c, 77⟩, ⟨4, .c, .d, .e, .a, .b, 78⟩, ⟨4, .b, .c, .d, .e, .a, 79⟩]

/-- sha1.cpp:139-251 `transform` without the counter; `block` is overwritten. -/
def transform (h : R5) (block : List U) : R5 :=
  let r := (code.foldl rnd (h, block)).1
  { a := h.a + r.a, b := h.b + r.b, c := h.c + r.c, d := h.d + r.d, e := h.e + r.e }

/-- sha1.cpp:254-264 `buffer_to_block`: the four bytes give an `int` which is converted to `unsigned
long`, so bit 31 fills the upper half. -/
def toBlock : List Byte → List U
  | b0 :: b1 :: b2 :: b3 :: l => (b0 ++ b1 ++ b2 ++ b3 : BitVec 32).signExtend 64 :: toBlock l
  | _ => []

/-- sha1.h:44-46. -/
structure St where
  digest : R5
  buffer : List Byte
  transforms : Nat
deriving Repr, DecidableEq

/-- sha1.cpp:120-132 `reset`, also the constructor (sha1.cpp:31-34). -/
def init : St :=
  { digest := { a := 0x67452301, b := 0xefcdab89, c := 0x98badcfe, d := 0x10325476, e := 0xc3d2e1f0 }, buffer := [], transforms := 0 }

/-- sha1.cpp:267-272 `read` on a stream with the bytes `s`: the bytes read, the rest of the stream,
and whether the stream is still good (it fails when fewer bytes are there). -/
def read (s : List Byte) (max : Nat) : List Byte × List Byte × Bool :=
  (s.take max, s.drop max, decide (max ≤ s.length))

/-- sha1.cpp:50-56: the loop of `update`. -/
def loop : (fuel : Nat) → St → (good : Bool) → List Byte → St
  | 0, p, _, _ => p
  | fuel + 1, p, good, s =>
    if good then
      let r := read s 64
      loop fuel { digest := transform p.digest (toBlock p.buffer), buffer := r.1, transforms := (p.transforms + 1) % 2 ^ 64 } r.2.2 r.2.1
    else p

/-- sha1.cpp:37-57 `update`. -/
def update (p : St) (s : List Byte) : St :=
  let r := read s (64 - p.buffer.length)
  loop (s.length + 2) { p with buffer := p.buffer ++ r.1 } r.2.2 r.2.1

/-- sha1.cpp:64-108 `final`: the digest; the object is reset. -/
def final (p : St) : List Byte × St :=
  let total := ((p.transforms * 64 + p.buffer.length) % 2 ^ 64 * 8) % 2 ^ 64
  let b1 := p.buffer ++ [0x80]
  let b2 := b1 ++ List.replicate (64 - b1.length) 0
  let block := toBlock b2
  let (h, block) := if b1.length > 56 then (transform p.digest block, List.replicate 14 0 ++ block.drop 14) else (p.digest, block)
  let block := (block.set 15 (BitVec.ofNat 64 total)).set 14 (BitVec.ofNat 64 (total >>> 32))
  let h := transform h block
  ([h.a, h.b, h.c, h.d, h.e].flatMap fun (x : U) => (List.range 4).map fun j => ((x >>> ((3 - j) * 8)) &&& (0xFF : U)).setWidth 8, init)

end Sha1

end LS.Digest

/-!
# Specification of MD5 (RFC 1321) and SHA-1 (FIPS 180-4)

Written from the standards, independently of the model: the message is padded as a whole and cut
into blocks of 64 bytes.
-/

namespace LS.Digest.Spec

/-- The complete blocks of 64 bytes. -/
def blocks (m : List (BitVec 8)) : List (List (BitVec 8)) :=
  (List.range (m.length / 64)).map fun i => (m.drop (64 * i)).take 64

/-- RFC 1321, 3.1 and 3.2, FIPS 180-4, 5.1.1: a bit 1, zeros up to 56 bytes modulo 64, then 8 bytes of the length. -/
def padded (len : Nat → List (BitVec 8)) (m : List (BitVec 8)) : List (BitVec 8) :=
  m ++ [0x80] ++ List.replicate ((119 - m.length % 64) % 64) 0 ++ len (m.length * 8)

/-- The length with the lowest byte first. -/
def le64 (n : Nat) : List (BitVec 8) := (List.range 8).map fun i => BitVec.ofNat 8 (n / 256 ^ i)

/-- The length with the highest byte first. -/
def be64 (n : Nat) : List (BitVec 8) := (le64 n).reverse

/-! ## MD5 -/

/-- RFC 1321, 3.4: the integer part of 4294967296 |sin i| for i = 1 … 64. -/
def md5K : List (BitVec 32) :=
   [0xd76aa478, 0xe8c7b756, 0x242070db, 0xc1bdceee, 0xf57c0faf, 0x4787c62a, 0xa8304613, 0xfd469501,
    0x698098d8, 0x8b44f7af, 0xffff5bb1, 0x895cd7be, 0x6b901122, 0xfd987193, 0xa679438e, 0x49b40821,
    0xf61e2562, 0xc040b340, 0x265e5a51, 0xe9b6c7aa, 0xd62f105d, 0x02441453, 0xd8a1e681, 0xe7d3fbc8,
    0x21e1cde6, 0xc33707d6, 0xf4d50d87, 0x455a14ed, 0xa9e3e905, 0xfcefa3f8, 0x676f02d9, 0x8d2a4c8a,
    0xfffa3942, 0x8771f681, 0x6d9d6122, 0xfde5380c, 0xa4beea44, 0x4bdecfa9, 0xf6bb4b60, 0xbebfbc70,
    0x289b7ec6, 0xeaa127fa, 0xd4ef3085, 0x04881d05, 0xd9d4d039, 0xe6db99e5, 0x1fa27cf8, 0xc4ac5665,
    0xf4292244, 0x432aff97, 0xab9423a7, 0xfc93a039, 0x655b59c3, 0x8f0ccc92, 0xffeff47d, 0x85845dd1,
    0x6fa87e4f, 0xfe2ce6e0, 0xa3014314, 0x4e0811a1, 0xf7537e82, 0xbd3af235, 0x2ad7d2bb, 0xeb86d391]

/-- RFC 1321, 3.4: the shifts. -/
def md5Shift (i : Nat) : Nat :=
  ([[7, 12, 17, 22], [5, 9, 14, 20], [4, 11, 16, 23], [6, 10, 15, 21]].getD (i / 16) []).getD (i % 4) 0

/-- RFC 1321, 3.4: which word of the block. -/
def md5Word (i : Nat) : Nat :=
  if i < 16 then i else if i < 32 then (5 * i + 1) % 16 else if i < 48 then (3 * i + 5) % 16 else 7 * i % 16

/-- RFC 1321, 3.4: F, G, H, I. -/
def md5F (i : Nat) (x y z : BitVec 32) : BitVec 32 :=
  if i < 16 then (x &&& y) ||| (~~~x &&& z) else if i < 32 then (x &&& z) ||| (y &&& ~~~z)
  else if i < 48 then x ^^^ y ^^^ z else y ^^^ (x ||| ~~~z)

/-- The word `k` of a block, the lowest byte first. -/
def leWord (blk : List (BitVec 8)) (k : Nat) : BitVec 32 :=
  blk.getD (4 * k + 3) 0 ++ blk.getD (4 * k + 2) 0 ++ blk.getD (4 * k + 1) 0 ++ blk.getD (4 * k) 0

/-- One of the 64 operations on the buffers (A, B, C, D). -/
def md5Op (blk : List (BitVec 8)) (s : BitVec 32 × BitVec 32 × BitVec 32 × BitVec 32) (i : Nat) : BitVec 32 × BitVec 32 × BitVec 32 × BitVec 32 :=
  let (a, b, c, d) := s
  (d, b + (a + md5F i b c d + leWord blk (md5Word i) + md5K.getD i 0).rotateLeft (md5Shift i), b, c)

def md5Block (s : BitVec 32 × BitVec 32 × BitVec 32 × BitVec 32) (blk : List (BitVec 8)) : BitVec 32 × BitVec 32 × BitVec 32 × BitVec 32 :=
  let r := (List.range 64).foldl (md5Op blk) s
  (s.1 + r.1, s.2.1 + r.2.1, s.2.2.1 + r.2.2.1, s.2.2.2 + r.2.2.2)

/-- A word as bytes, the lowest one first. -/
def leBytes (w : BitVec 32) : List (BitVec 8) := [w.extractLsb' 0 8, w.extractLsb' 8 8, w.extractLsb' 16 8, w.extractLsb' 24 8]

def md5 (m : List (BitVec 8)) : List (BitVec 8) :=
  let r := (blocks (padded le64 m)).foldl md5Block (0x67452301, 0xefcdab89, 0x98badcfe, 0x10325476)
  leBytes r.1 ++ leBytes r.2.1 ++ leBytes r.2.2.1 ++ leBytes r.2.2.2

/-! ## SHA-1 -/

/-- FIPS 180-4, 4.1.1. -/
def shaF (t : Nat) (x y z : BitVec 32) : BitVec 32 :=
  if t < 20 then (x &&& y) ^^^ (~~~x &&& z) else if t < 40 then x ^^^ y ^^^ z
  else if t < 60 then (x &&& y) ^^^ (x &&& z) ^^^ (y &&& z) else x ^^^ y ^^^ z

/-- FIPS 180-4, 4.2.1. -/
def shaK (t : Nat) : BitVec 32 :=
  if t < 20 then 0x5a827999 else if t < 40 then 0x6ed9eba1 else if t < 60 then 0x8f1bbcdc else 0xca62c1d6

/-- The word `k` of a block, the highest byte first. -/
def beWord (blk : List (BitVec 8)) (k : Nat) : BitVec 32 :=
  blk.getD (4 * k) 0 ++ blk.getD (4 * k + 1) 0 ++ blk.getD (4 * k + 2) 0 ++ blk.getD (4 * k + 3) 0

/-- FIPS 180-4, 6.1.2, step 1: the message schedule. -/
def shaW (blk : List (BitVec 8)) (t : Nat) : BitVec 32 :=
  if h : t < 16 then beWord blk t
  else (shaW blk (t - 3) ^^^ shaW blk (t - 8) ^^^ shaW blk (t - 14) ^^^ shaW blk (t - 16)).rotateLeft 1
termination_by t

/-- FIPS 180-4, 6.1.2, step 3. -/
def shaOp (blk : List (BitVec 8)) (s : BitVec 32 × BitVec 32 × BitVec 32 × BitVec 32 × BitVec 32) (t : Nat) :
    BitVec 32 × BitVec 32 × BitVec 32 × BitVec 32 × BitVec 32 :=
  let (a, b, c, d, e) := s
  (a.rotateLeft 5 + shaF t b c d + e + shaK t + shaW blk t, a, b.rotateLeft 30, c, d)

/-- FIPS 180-4, 6.1.2. -/
def shaBlock (s : BitVec 32 × BitVec 32 × BitVec 32 × BitVec 32 × BitVec 32) (blk : List (BitVec 8)) :
    BitVec 32 × BitVec 32 × BitVec 32 × BitVec 32 × BitVec 32 :=
  let r := (List.range 80).foldl (shaOp blk) s
  (s.1 + r.1, s.2.1 + r.2.1, s.2.2.1 + r.2.2.1, s.2.2.2.1 + r.2.2.2.1, s.2.2.2.2 + r.2.2.2.2)

/-- A word as bytes, the highest one first. -/
def beBytes (w : BitVec 32) : List (BitVec 8) := (leBytes w).reverse

def sha1 (m : List (BitVec 8)) : List (BitVec 8) :=
  let r := (blocks (padded be64 m)).foldl shaBlock (0x67452301, 0xefcdab89, 0x98badcfe, 0x10325476, 0xc3d2e1f0)
  beBytes r.1 ++ beBytes r.2.1 ++ beBytes r.2.2.1 ++ beBytes r.2.2.2.1 ++ beBytes r.2.2.2.2

end LS.Digest.Spec

/-
Numbers of several bytes to bytes and back: `MultibyteOrder::Value`, `BytesToMultibyte` and `MultibyteToBytes`,
base/streams/multibyte.h:10-155.

Simplified: the number is unsigned and has `n` bytes; a machine stores the least or the greatest byte first. `input` of
`MultibyteToBytes` passes two arguments to `setValue` (line 139), which has one, so it does not compile; it is read as
`setValue(x)`.
-/

namespace LS.Multibyte

/-- How the machine stores numbers, what `detect` (multibyte.h:26-38) finds out. -/
inductive Host where
  | little
  | big
deriving DecidableEq

/-- The template argument `mode`, multibyte.h:12-19. -/
inductive Mode where
  | cur
  | little
  | big
deriving DecidableEq

/-- The number with the given bytes, the least first. -/
def number : List Nat → Nat
  | [] => 0
  | b :: l => b + 256 * number l

/-- The bytes of a number, the least first. -/
def digits : Nat → Nat → List Nat
  | 0, _ => []
  | n + 1, v => v % 256 :: digits n (v / 256)

/-- The number in a memory, `getValue`, multibyte.h:76. -/
def load (h : Host) (m : List Nat) : Nat :=
  match h with
  | .little => number m
  | .big => number m.reverse

/-- The memory of a number, `setValue`, multibyte.h:74. -/
def store (h : Host) (n v : Nat) : List Nat :=
  match h with
  | .little => digits n v
  | .big => (digits n v).reverse

/-- `swapOrder`, multibyte.h:48-49. -/
def swap (h : Host) : Mode → Bool
  | .cur => false
  | .little => h != .little
  | .big => h != .big

/-- The place of a byte, multibyte.h:59, 70. -/
def place (sw : Bool) (n i : Nat) : Nat := if sw then n - i - 1 else i

/-- A filter of either direction: the memory of `value`, and `pos`. -/
structure St where
  mem : List Nat
  pos : Nat
deriving DecidableEq

/-- `BytesToMultibyte::input`, multibyte.h:101-105; `none`: it throws. -/
def bInput (h : Host) (md : Mode) (n : Nat) (s : St) (x : Nat) : Option St :=
  if s.pos < n then some ⟨s.mem.set (place (swap h md) n s.pos) x, s.pos + 1⟩ else none

/-- `BytesToMultibyte::output`, multibyte.h:109-115. -/
def bOutput (h : Host) (n : Nat) (s : St) : Option (Nat × St) :=
  if s.pos = n then some (load h s.mem, ⟨s.mem, 0⟩) else none

/-- `MultibyteToBytes::input`, multibyte.h:136-141. -/
def mInput (h : Host) (n : Nat) (s : St) (v : Nat) : Option St :=
  if s.pos = n then some ⟨store h n v, 0⟩ else none

/-- `MultibyteToBytes::output`, multibyte.h:145-150. -/
def mOutput (h : Host) (md : Mode) (n : Nat) (s : St) : Option (Nat × St) :=
  if s.pos < n then some (s.mem.getD (place (swap h md) n s.pos) 0, ⟨s.mem, s.pos + 1⟩) else none

/-- Bytes one after another. -/
def bFeed (h : Host) (md : Mode) (n : Nat) : List Nat → St → Option St
  | [], s => some s
  | x :: l, s => (bInput h md n s x).bind (bFeed h md n l)

/-- `k` bytes one after another. -/
def mTake (h : Host) (md : Mode) (n : Nat) : Nat → St → Option (List Nat × St)
  | 0, s => some ([], s)
  | k + 1, s => (mOutput h md n s).bind fun r => (mTake h md n k r.2).map fun q => (r.1 :: q.1, q.2)

/-- All bytes of numbers written one after another. -/
def encode (h : Host) (md : Mode) (n : Nat) : List Nat → St → Option (List Nat)
  | [], _ => some []
  | v :: l, s => (mInput h n s v).bind fun s1 => (mTake h md n n s1).bind fun r => (encode h md n l r.2).map (r.1 ++ ·)

/-- `k` numbers read from bytes. -/
def decode (h : Host) (md : Mode) (n : Nat) : Nat → List Nat → St → Option (List Nat)
  | 0, _, _ => some []
  | k + 1, bs, s =>
    (bFeed h md n (bs.take n) s).bind fun s1 => (bOutput h n s1).bind fun r => (decode h md n k (bs.drop n) r.2).map (r.1 :: ·)

end LS.Multibyte

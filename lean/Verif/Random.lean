/-
Model of the random number generators (base/streams/random.h).

`uint32_t` values are natural numbers below 2^32.  Simplified: `Random<double>` is not modelled.
-/
namespace LS.Random

/-- State of `Rand` (random.h:39-41); `current` is the value returned. -/
structure Rand where
  x : Nat
  crry : Nat
deriving DecidableEq

/-- `fetchNext` (random.h:43-48); products and sums of `uint64_t` are modulo 2^64. -/
def Rand.fetchNext (s : Rand) : Rand :=
  let multt := s.x * 2083801278 % 2 ^ 64
  let multt := (multt + s.crry) % 2 ^ 64
  ⟨multt % 2 ^ 32, multt / 2 ^ 32 % 2 ^ 32⟩

/-- `getNext` (random.h:29-33). -/
def Rand.getNext (s : Rand) : Nat × Rand := (s.x, s.fetchNext)

/-- `setSeed` (random.h:20-23). -/
def Rand.setSeed (seed : Nat) : Rand := ⟨seed, 362436069⟩

/-- Constructor (random.h:12-14): the first value is thrown away. -/
def Rand.ctor (seed : Nat) : Rand := (Rand.mk seed 362436069).getNext.2

/-- A function repeated. -/
def iter {α : Type} (f : α → α) : Nat → α → α
  | 0, s => s
  | n + 1, s => iter f n (f s)

/-- State after `n` calls of `getNext`. -/
def Rand.after (s : Rand) (n : Nat) : Rand := iter (fun s => s.getNext.2) n s

/-- Value returned by the call number `n` of `getNext`. -/
def Rand.value (s : Rand) (n : Nat) : Nat := (s.after n).getNext.1

/-- `Random<natural>::transform` (random.h:105-108) with the constructor (85-88). -/
def transformN (lo hi rnd : Nat) : Nat :=
  let mult := (hi + 2 ^ 64 - lo) % 2 ^ 64
  let mm := rnd * mult % 2 ^ 64
  (mm / 2 ^ 32 + lo) % 2 ^ 64

/-- Does a number fit `int64_t`? -/
def Fits (z : Int) : Prop := -2 ^ 63 ≤ z ∧ z < 2 ^ 63

instance (z : Int) : Decidable (Fits z) := by unfold Fits; infer_instance

/-- `Random<integer>::transform` (random.h:75-78) with the constructor (57-60); `none` is an
overflow of a signed type (undefined behaviour).  The offset is not used. -/
def transformI (lo hi : Int) (rnd : Nat) : Option Int :=
  let mult := hi - lo
  if Fits mult then
    let mm := rnd * mult
    if Fits mm then some (mm / 2 ^ 32) else none
  else none

end LS.Random

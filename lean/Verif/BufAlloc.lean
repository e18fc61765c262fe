/-
The allocator in a buffer given by the program.

Source: /repo/src/lightspeed/base/memory/runtimeAlloc.h:161-193 (`AllocInBuffer`),
195-202 (`AllocAtStack` is the same with its own buffer) and 80-93, 136-156
(`createInstance`, `destroyInstance`).

Addresses are offsets from the beginning of the buffer; `natural` has 64 bits.
-/
namespace LS.BufAlloc

def W : Nat := 2 ^ 64

/-- runtimeAlloc.h:189-192 and, for the statements, the blocks the program has:
offset and size. -/
structure St where
  used : Nat
  max : Nat
  live : List (Nat × Nat)
  deriving DecidableEq, Repr

/-- runtimeAlloc.h:163 -/
def new (max : Nat) : St := ⟨0, max, []⟩

inductive Err where
  /-- runtimeAlloc.h:166 the exception with the requested and the remaining size -/
  | limit (n left : Nat)
  /-- the program has no such block -/
  | stuck
  deriving DecidableEq, Repr

/-- runtimeAlloc.h:164-170 -/
def alloc (s : St) (n : Nat) : Except Err (Nat × St) :=
  if (s.used + n) % W > s.max then .error (.limit n ((s.max + W - s.used) % W))
  else .ok (s.used, { s with used := (s.used + n) % W, live := (s.used, n) :: s.live })

/-- runtimeAlloc.h:176-183 -/
def freeAt (used offs n : Nat) : Nat :=
  if (offs + n) % W ≥ used ∧ offs < used then offs else used

/-- `dealloc` of a block the program has. -/
def dealloc (s : St) (b : Nat × Nat) : Except Err St :=
  if b ∈ s.live then .ok { s with used := freeAt s.used b.1 b.2, live := s.live.erase b } else .error .stuck

inductive Op where
  | alloc (n : Nat)
  | dealloc (offs n : Nat)
  /-- runtimeAlloc.h:80-93 when the constructor of the object throws -/
  | createFails (n : Nat)
  deriving DecidableEq, Repr

/-- One call; a refused allocation changes nothing. -/
def step (s : St) : Op → Except Err St
  | .alloc n =>
    match alloc s n with
    | .ok (_, s') => .ok s'
    | .error (.limit _ _) => .ok s
    | .error .stuck => .error .stuck
  | .dealloc o n => dealloc s (o, n)
  | .createFails n =>
    match alloc s n with
    | .ok (p, s') => dealloc s' (p, n)
    | .error (.limit _ _) => .ok s
    | .error .stuck => .error .stuck

def run (s : St) : List Op → Except Err St
  | [] => .ok s
  | op :: l =>
    match step s op with
    | .ok s' => run s' l
    | .error e => .error e

end LS.BufAlloc

import Verif.FastLock
/-!
# Model of `mt/spinlock.h` (`SpinLock`, `SpinLockRecursive`)

One transition is one access to the `owner` word (or to `recursiveCount`).  Threads are
identified by non-zero numbers (`ThreadId::current().asAtomic()`).  `held t` is what thread `t`
knows: its last successful `tryLock`/`lock`/`steal`, or a lock given to it, was not yet followed by
`unlock`/`give`.  `lock` and `tryLock(spinCount)` are repetitions of `tryLock` and need no own
transition.  `recursiveCount` is unbounded here (64 bits in the code).
-/

namespace LS.SpinLock
open LS.FastLock (upd)

/-- Between the check and the write of `give` or `steal`, or outside. -/
inductive PC where
  | run
  /-- spinlock.h:124-125, before the write of `to` -/
  | giving (to : Nat)
  /-- spinlock.h:144-145, before the write of the own id -/
  | stealing (from_ : Nat)
  /-- the thread has ended -/
  | dead
deriving DecidableEq, Repr

structure St where
  owner : Nat := 0
  held : Nat → Bool := fun _ => false
  pc : Nat → PC := fun _ => .run

/-- What the user does next. -/
inductive Op where
  | tryLock
  | unlock
  | give (to : Nat)
  | steal (from_ : Nat)
  | die
deriving DecidableEq, Repr

/-- One transition of thread `t` (spinlock.h:50-60, 123-151). -/
def step (s : St) (t : Nat) (op : Op) : Option St :=
  if t = 0 then none else
  match s.pc t with
  | .run =>
    match op with
    | .tryLock =>
      if s.owner = 0 then some { s with owner := t, held := upd s.held t true }
      else if s.owner = t then some { s with held := upd s.held t true }
      else some s
    | .unlock =>
      if s.owner = t then some { s with owner := 0, held := upd s.held t false }
      else some { s with held := upd s.held t false }
    | .give to =>
      if to = 0 then none
      else if s.owner = t then some { s with pc := upd s.pc t (.giving to) } else some s
    | .steal f =>
      -- documented for threads which no longer exist
      if f = 0 ∨ s.pc f ≠ .dead then none
      else if s.owner = f then some { s with pc := upd s.pc t (.stealing f) } else some s
    | .die => some { s with pc := upd s.pc t .dead }
  | .giving to =>
    some { s with owner := to, held := upd (upd s.held t false) to true, pc := upd s.pc t .run }
  | .stealing f =>
    some { s with owner := t, held := upd (upd s.held f false) t true, pc := upd s.pc t .run }
  | .dead => none

/-- States reachable by operations allowed by `ok`. -/
inductive Reach (ok : Op → Prop) : St → Prop
  | init : Reach ok {}
  | step {s s' t op} : Reach ok s → ok op → step s t op = some s' → Reach ok s'

end LS.SpinLock

namespace LS.SpinLockR
open LS.FastLock (upd)

/-- Program counter inside `SpinLockRecursive`. -/
inductive PC where
  | run
  /-- spinlock.h:181: before `recursiveCount=1` -/
  | set1
  /-- spinlock.h:184: before `recursiveCount++` -/
  | inc
  /-- spinlock.h:194: before `--recursiveCount` -/
  | dec
  /-- spinlock.h:195: before the write of zero to `owner` -/
  | rel
deriving DecidableEq, Repr

structure St where
  owner : Nat := 0
  count : Nat := 0
  pc : Nat → PC := fun _ => .run
  /-- history: successful `tryLock`/`lock` calls of the thread not yet matched by `unlock` -/
  depth : Nat → Nat := fun _ => 0

inductive Op where
  | tryLock
  | unlock
deriving DecidableEq, Repr

/-- One transition of thread `t` (spinlock.h:177-198). -/
def step (s : St) (t : Nat) (op : Op) : Option St :=
  if t = 0 then none else
  match s.pc t with
  | .run =>
    match op with
    | .tryLock =>
      if s.owner = 0 then some { s with owner := t, pc := upd s.pc t .set1 }
      else if s.owner = t then some { s with pc := upd s.pc t .inc }
      else some s
    | .unlock => if s.owner = t then some { s with pc := upd s.pc t .dec } else some s
  | .set1 => some { s with count := 1, pc := upd s.pc t .run, depth := upd s.depth t (s.depth t + 1) }
  | .inc =>
    some { s with count := s.count + 1, pc := upd s.pc t .run, depth := upd s.depth t (s.depth t + 1) }
  | .dec =>
    some { s with count := s.count - 1,
                  pc := upd s.pc t (if s.count - 1 = 0 then .rel else .run),
                  depth := upd s.depth t (s.depth t - 1) }
  | .rel => some { s with owner := 0, pc := upd s.pc t .run }

inductive Reach : St → Prop
  | init : Reach {}
  | step {s s' t op} : Reach s → step s t op = some s' → Reach s'

end LS.SpinLockR

import Verif.FastLock
/-!
# Model of `mt/microlock.h` (`MicroLock`, `Synchronized<MicroLock>`)

Same conventions as in `Verif.FastLock`: one transition is one access to the word of the lock
or to the `next` field of a `Synchronized` object; memory is sequentially consistent; the sleeper
is a binary token, tokens may appear spontaneously.  The `Synchronized` objects are addresses on
the stacks of the threads, `thr a` is the thread of the address `a`; addresses may be reused.
Not modelled: one thread entering the same lock twice, objects destroyed by another thread.
-/

namespace LS.MicroLock
open LS.FastLock (upd)

/-- Program counter of a thread, with its local variables; `a` is `this`. -/
inductive PC where
  | idle
  /-- microlock.h:59, 65: before the interlocked exchange of the expected `next` for `this` -/
  | m0 (a : Nat)
  /-- microlock.h:63: before `next = k` -/
  | m1 (a k : Nat)
  /-- microlock.h:68: before reading `next` -/
  | w (a : Nat)
  /-- microlock.h:70: halted -/
  | h (a : Nat)
  /-- inside of the guarded section -/
  | hold (a : Nat)
  /-- microlock.h:76: before reading `next` -/
  | u (a : Nat)
  /-- microlock.h:78: before the interlocked exchange -/
  | u0 (a : Nat)
  /-- microlock.h:83: before reading `k->next` -/
  | u1 (a k : Nat)
  /-- microlock.h:85: before reading `k->owner` -/
  | u2 (k : Nat)
  /-- microlock.h:87: before `k->next = 0` -/
  | u3 (k n : Nat)
  /-- microlock.h:89: before `n->wakeUp()` -/
  | u4 (n : Nat)
deriving DecidableEq, Repr

/-- The word of the lock, the `next` fields, tokens, program counters and two history variables. -/
structure St where
  top : Nat := 0
  next : Nat → Nat := fun _ => 0
  token : Nat → Bool := fun _ => false
  pc : Nat → PC := fun _ => .idle
  /-- threads in the order of their successful interlocked exchange in `lock` -/
  arrivals : List Nat := []
  /-- threads in the order in which `lock` returned -/
  acquired : List Nat := []

/-- Thread `t` continues at `p`. -/
def St.goto (s : St) (t : Nat) (p : PC) : St := { s with pc := upd s.pc t p }

/-- One transition of thread `t`; `a` is the address of the object where one is created
(microlock.h:52-92). -/
def step (thr : Nat → Nat) (s : St) (t : Nat) (a : Nat) : Option St :=
  match s.pc t with
  | .idle =>
    if a ≠ 0 ∧ thr a = t then some { s with next := upd s.next a 0, pc := upd s.pc t (.m0 a) }
    else none
  | .m0 a =>
    if s.top = s.next a then
      some { s with top := a, arrivals := s.arrivals ++ [t], pc := upd s.pc t (.w a) }
    else some (s.goto t (.m1 a s.top))
  | .m1 a k => some { s with next := upd s.next a k, pc := upd s.pc t (.m0 a) }
  | .w a =>
    if s.next a ≠ 0 then some (s.goto t (.h a))
    else some { s with pc := upd s.pc t (.hold a), acquired := s.acquired ++ [t] }
  | .h a =>
    if s.token t then some { s with token := upd s.token t false, pc := upd s.pc t (.w a) }
    else none
  | .hold a => some (s.goto t (.u a))
  | .u a => if s.next a = 0 then some (s.goto t (.u0 a)) else some (s.goto t .idle)
  | .u0 a =>
    if s.top = a then some { s with top := 0, pc := upd s.pc t .idle }
    else some (s.goto t (.u1 a s.top))
  | .u1 a k => if s.next k = a then some (s.goto t (.u2 k)) else some (s.goto t (.u1 a (s.next k)))
  | .u2 k => some (s.goto t (.u3 k (thr k)))
  | .u3 k n => some { s with next := upd s.next k 0, pc := upd s.pc t (.u4 n) }
  | .u4 n => some { s with token := upd s.token n true, pc := upd s.pc t .idle }

/-- Reachable states; tokens may come from elsewhere too. -/
inductive Reach (thr : Nat → Nat) : St → Prop
  | init : Reach thr {}
  | step {s s' t a} : Reach thr s → step thr s t a = some s' → Reach thr s'
  | wake {s t} : Reach thr s → Reach thr { s with token := upd s.token t true }

end LS.MicroLock

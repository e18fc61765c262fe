import Verif.FastLock
/-!
# Model of `mt/mutex.cpp` (`Mutex`)

One transition is one access to `owner`, to `recursion`, or one operation of the synchronisation
point `waitPt`, whose slots form a queue, the oldest first (this is what C38 proves).  The
operations of `waitPt` exclude each other by its internal lock; `notifyOne` is split into two
transitions, because the waiting thread sees the flag of its slot without the lock: the first one
removes the slot and assigns the pay-load (`MutexData::operator=`), the second one signals; in
between `qlk` names the slot.  A blocking call has one slot on the stack of its thread, so
the slot is named by the thread.  Threads have nonzero numbers (`ThreadId`).  Memory is
sequentially consistent.
Simplified: `recursion++` and `recursion--` are one transition; the two writes of
`MutexData::operator=` are one transition (`recursion` is read by owners only).
Not modelled: `lockAsync`, `cancelAsync`, `setOwner`.
-/

namespace LS.Mutex
open LS.FastLock (upd)

/-- Program counter of a thread. -/
inductive PC where
  | idle
  /-- mutex.cpp:19: before the interlocked exchange of `lock`; `tm`: the time-out is finite -/
  | l0 (tm : Bool)
  /-- mutex.cpp:25: before `recursion++` -/
  | l1
  /-- mutex.cpp:34: before `waitPt.add(sl)` -/
  | l2 (tm : Bool)
  /-- mutex.cpp:36: before the second interlocked exchange -/
  | l3 (tm : Bool)
  /-- mutex.cpp:47: before `waitPt.remove(sl)`, the lock is acquired -/
  | l4
  /-- mutex.cpp:38: in `waitPt.wait` -/
  | l5 (tm : Bool)
  /-- mutex.cpp:40: before `waitPt.remove(sl)` after the time-out -/
  | l6
  /-- mutex.cpp:42: before the test of the slot -/
  | l7
  /-- mutex.cpp:51: before `recursion = 1` -/
  | l9
  /-- mutex.cpp:65: before the interlocked exchange of `tryLock` -/
  | t0
  /-- mutex.cpp:74: before the test of `recursion` -/
  | u0
  /-- mutex.cpp:76: before `recursion--` -/
  | u1
  /-- mutex.cpp:84: before `waitPt.notifyOne` -/
  | u2
  /-- syncPt.h:373: inside of `notifyOne`, before the signal to the slot of thread `p` -/
  | u2s (p : Nat)
  /-- mutex.cpp:86: before `owner = 0` -/
  | u3
  /-- mutex.cpp:89: before `waitPt.empty()` -/
  | u4
  /-- mutex.cpp:89: before the interlocked exchange of the inner `tryLock` -/
  | u5
deriving DecidableEq, Repr

/-- What a thread does next where it has a choice. -/
inductive Op where
  | lock
  | lockTimed
  | tryLock
  | unlock
  /-- the time-out is over -/
  | expire
deriving DecidableEq, Repr

/-- mutex.h:91-95 and `waitPt`; `depth`, `ever`, `clock`, `stamp` are history variables. -/
structure St where
  owner : Nat := 0
  recursion : Nat := 0
  /-- the slots in `waitPt`, the oldest first -/
  queue : List Nat := []
  /-- the slot which a thread inside of `notifyOne` is going to signal (0: nobody is there) -/
  qlk : Nat := 0
  /-- the slot of the thread is signaled -/
  sig : Nat → Bool := fun _ => false
  pc : Nat → PC := fun _ => .idle
  /-- calls of `lock`/`tryLock` that succeeded minus calls of `unlock` that began -/
  depth : Nat → Nat := fun _ => 0
  /-- a call of `lock` succeeded some time -/
  ever : Bool := false
  /-- number of slots added to `waitPt` so far, and the time when the slot was added -/
  clock : Nat := 0
  stamp : Nat → Nat := fun _ => 0

/-- Thread `t` continues at `p`. -/
def St.goto (s : St) (t : Nat) (p : PC) : St := { s with pc := upd s.pc t p }

/-- One transition of thread `t` (mutex.cpp:14-95). -/
def step (s : St) (t : Nat) (op : Op) : Option St :=
  match s.pc t with
  | .idle =>
    match op with
    | .lock => some (s.goto t (.l0 false))
    | .lockTimed => some (s.goto t (.l0 true))
    | .tryLock => some (s.goto t .t0)
    | .unlock =>
      if s.depth t = 0 then none
      else some { s with depth := upd s.depth t (s.depth t - 1), pc := upd s.pc t .u0 }
    | .expire => none
  | .l0 tm =>
    if s.owner = 0 then some { s with owner := t, pc := upd s.pc t .l9 }
    else if s.owner = t then some (s.goto t .l1)
    else some (s.goto t (.l2 tm))
  | .l1 =>
    some { s with recursion := s.recursion + 1, depth := upd s.depth t (s.depth t + 1)
                  pc := upd s.pc t .idle }
  | .l2 tm =>
    if s.qlk = 0 then
      some { s with queue := s.queue ++ [t], sig := upd s.sig t false, pc := upd s.pc t (.l3 tm)
                    clock := s.clock + 1, stamp := upd s.stamp t s.clock }
    else none
  | .l3 tm =>
    if s.owner = 0 then some { s with owner := t, pc := upd s.pc t .l4 }
    else some (s.goto t (.l5 tm))
  | .l4 =>
    if s.qlk = 0 then some { s with queue := s.queue.erase t, pc := upd s.pc t .l9 } else none
  | .l5 tm =>
    if s.sig t = true then some (s.goto t .l9)
    else if tm = true ∧ op = .expire then some (s.goto t .l6)
    else none
  | .l6 =>
    if s.qlk = 0 then some { s with queue := s.queue.erase t, pc := upd s.pc t .l7 } else none
  | .l7 => if s.sig t = true then some (s.goto t .l9) else some (s.goto t .idle)
  | .l9 =>
    some { s with recursion := 1, depth := upd s.depth t (s.depth t + 1), ever := true
                  pc := upd s.pc t .idle }
  | .t0 =>
    if s.owner = 0 then
      some { s with owner := t, depth := upd s.depth t (s.depth t + 1), pc := upd s.pc t .idle }
    else some (s.goto t .idle)
  | .u0 => if s.recursion > 1 then some (s.goto t .u1) else some (s.goto t .u2)
  | .u1 => some { s with recursion := s.recursion - 1, pc := upd s.pc t .idle }
  | .u2 =>
    if s.qlk = 0 then
      match s.queue with
      | [] => some (s.goto t .u3)
      | p :: q =>
        some { s with queue := q, recursion := 1, owner := p, qlk := p, pc := upd s.pc t (.u2s p) }
    else none
  | .u2s p => some { s with sig := upd s.sig p true, qlk := 0, pc := upd s.pc t .idle }
  | .u3 => some { s with owner := 0, pc := upd s.pc t .u4 }
  | .u4 => if s.queue = [] then some (s.goto t .idle) else some (s.goto t .u5)
  | .u5 =>
    if s.owner = 0 then some { s with owner := t, pc := upd s.pc t .u0 } else some (s.goto t .idle)

/-- Reachable states; `P` restricts the transitions (`fun _ _ => True`: no restriction). -/
inductive Reach (P : St → Op → Prop) : St → Prop
  | init : Reach P {}
  | step {s s' t op} : Reach P s → t ≠ 0 → P s op → step s t op = some s' → Reach P s'

/-- Executes a schedule. -/
def exec : St → List (Nat × Op) → Option St
  | s, [] => some s
  | s, (t, op) :: l => match step s t op with
    | none => none
    | some s' => exec s' l

end LS.Mutex

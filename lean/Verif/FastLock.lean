/-!
# Model of `mt/fastlock.h` (`FastLock`)

A transition system; one transition is one access to the shared words `queue`, `owner` or to
the `next` field of a slot, or one interlocked operation; accesses are sequentially consistent.
Threads are numbers, slots are addresses (numbers, 0 is the null pointer) on the stacks of the
threads: `thr a` is the thread on whose stack the address `a` lies.  Where the code creates a slot,
the model allows every address of the thread's stack, including ones used before.

The thread sleeper (`threadHalt`/`wakeUp`, linux/threadSleeper.cpp) is a binary token per thread;
tokens may also appear spontaneously (notifications from other events).
Not modelled: `FastLockR`, life time of the sleeper objects.
-/

namespace LS.FastLock

/-- Program counter of a thread, with its local variables. -/
inductive PC where
  /-- outside of the lock's functions, not owning -/
  | idle
  /-- fastlock.h:68 `lock`: before reading `queue` -/
  | l0
  /-- fastlock.h:68 calling `tryLock` -/
  | t0
  /-- `tryLock` called by the user -/
  | y0
  /-- fastlock.h:118: before `owner = &s` -/
  | t1 (a : Nat)
  /-- fastlock.h:173: before `tmp = queue`; the flag tells `Async` from `lockSlow` -/
  | s0 (async : Bool)
  /-- fastlock.h:177: before `slot->next = tmp2` -/
  | s1 (async : Bool) (a tmp : Nat)
  /-- fastlock.h:179: before the interlocked exchange -/
  | s2 (async : Bool) (a tmp : Nat)
  /-- fastlock.h:198: before `owner = &s` -/
  | s3 (a : Nat)
  /-- fastlock.h:195: before reading `owner` in the wait loop -/
  | w (a : Nat)
  /-- fastlock.h:195: halted -/
  | h (a : Nat)
  /-- owning the lock -/
  | hold
  /-- fastlock.h:83: before `o = owner` -/
  | u0
  /-- fastlock.h:85: before `owner = 0` -/
  | u1 (o : Nat)
  /-- fastlock.h:87: before the interlocked exchange -/
  | u2 (o : Nat)
  /-- fastlock.h:93: before reading `p->next` -/
  | u3 (o p : Nat)
  /-- fastlock.h:95: before reading `p->notify` -/
  | u4 (p : Nat)
  /-- fastlock.h:97: before `owner = p` -/
  | u5 (p n : Nat)
  /-- fastlock.h:99: before `ntf->wakeUp()`; `n` is the thread to wake -/
  | u6 (n : Nat)
deriving DecidableEq, Repr

/-- Shared words, tokens, program counters; the two lists are history variables. -/
structure St where
  queue : Nat := 0
  owner : Nat := 0
  next : Nat → Nat := fun _ => 0
  token : Nat → Bool := fun _ => false
  pc : Nat → PC := fun _ => .idle
  /-- threads in the order of their successful interlocked exchange on `queue` -/
  arrivals : List Nat := []
  /-- threads in the order in which `lock`, `tryLock` returned owning the lock -/
  acquired : List Nat := []

/-- What the user does next. -/
inductive Op where
  | lock
  | tryLock
  | async
  | unlock
  /-- leave the critical section to thread `b`, which will call `unlock` -/
  | give (b : Nat)
deriving DecidableEq, Repr

/-- Function update. -/
def upd {β : Type} (f : Nat → β) (i : Nat) (v : β) : Nat → β := fun j => if j = i then v else f j

/-- Thread `t` continues at `p`. -/
def St.goto (s : St) (t : Nat) (p : PC) : St := { s with pc := upd s.pc t p }

/-- fastlock.h:110-127 `tryLock`: the slot `a` is constructed and the exchange is tried; `fail` is
where the thread continues otherwise. -/
def St.tryCas (s : St) (t a : Nat) (fail : PC) : St :=
  if s.queue = 0 then
    { s with next := upd s.next a 0, queue := a, arrivals := s.arrivals ++ [t],
             pc := upd s.pc t (.t1 a) }
  else { s with next := upd s.next a 0, pc := upd s.pc t fail }

/-- fastlock.h:179-183: the exchange in `addToQueue`, and where its callers continue
(`lockSlow` 186-201, `Async` 141-151). -/
def St.pushCas (s : St) (t : Nat) (async : Bool) (a tmp : Nat) : St :=
  if s.queue = tmp then
    { s with queue := a, arrivals := s.arrivals ++ [t],
             pc := upd s.pc t (if tmp ≠ 0 then .w a else if async then .w a else .s3 a) }
  else s.goto t (.s1 async a s.queue)

/-- One transition of thread `t`.  `op` is used where the user decides, `a` where a slot is
created. -/
def step (thr : Nat → Nat) (s : St) (t : Nat) (op : Op) (a : Nat) : Option St :=
  match s.pc t with
  | .idle =>
    match op with
    | .lock => some (s.goto t .l0)
    | .tryLock => some (s.goto t .y0)
    | .async => some (s.goto t (.s0 true))
    | _ => none
  | .l0 => if s.queue ≠ 0 then some (s.goto t (.s0 false)) else some (s.goto t .t0)
  | .t0 => if a ≠ 0 ∧ thr a = t then some (s.tryCas t a (.s0 false)) else none
  | .y0 => if a ≠ 0 ∧ thr a = t then some (s.tryCas t a .idle) else none
  | .t1 a => some { s with owner := a, pc := upd s.pc t .hold, acquired := s.acquired ++ [t] }
  | .s0 y => if a ≠ 0 ∧ thr a = t then some (s.goto t (.s1 y a s.queue)) else none
  | .s1 y a tmp => some { s with next := upd s.next a tmp, pc := upd s.pc t (.s2 y a tmp) }
  | .s2 y a tmp => some (s.pushCas t y a tmp)
  | .s3 a => some { s with owner := a, pc := upd s.pc t .hold, acquired := s.acquired ++ [t] }
  | .w a =>
    if s.owner = a then some { s with pc := upd s.pc t .hold, acquired := s.acquired ++ [t] }
    else some (s.goto t (.h a))
  | .h a =>
    if s.token t then some { s with token := upd s.token t false, pc := upd s.pc t (.w a) }
    else none
  | .hold =>
    match op with
    | .unlock => some (s.goto t .u0)
    | .give b => if s.pc b = .idle then some ((s.goto t .idle).goto b .hold) else none
    | _ => none
  | .u0 => some (s.goto t (.u1 s.owner))
  | .u1 o => some { s with owner := 0, pc := upd s.pc t (.u2 o) }
  | .u2 o =>
    if s.queue = o then some { s with queue := 0, pc := upd s.pc t .idle }
    else some (s.goto t (.u3 o s.queue))
  | .u3 o p => if s.next p = o then some (s.goto t (.u4 p)) else some (s.goto t (.u3 o (s.next p)))
  | .u4 p => some (s.goto t (.u5 p (thr p)))
  | .u5 p n => some { s with owner := p, pc := upd s.pc t (.u6 n) }
  | .u6 n => some { s with token := upd s.token n true, pc := upd s.pc t .idle }

/-- States reachable by operations allowed by `ok`; tokens may come from elsewhere too. -/
inductive Reach (thr : Nat → Nat) (ok : Op → Prop) : St → Prop
  | init : Reach thr ok {}
  | step {s s' t op a} : Reach thr ok s → ok op → step thr s t op a = some s' → Reach thr ok s'
  | wake {s t} : Reach thr ok s → Reach thr ok { s with token := upd s.token t true }

end LS.FastLock

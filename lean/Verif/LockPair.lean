import Verif.Basic
/-!
# Model of `base/sync/lockPair.h` (`LockPair`)

Any number of threads over any number of locks.  A thread that is idle may start to lock or try to lock a `LockPair`
of any two locks, or lock a single lock; it unlocks what it has got at some later time.  The locks are not recursive
ones: a lock is free or has one owner.  A step of a thread is one operation on one lock.  Locking may throw
instead; unlocking that throws releases its lock, too (lockPair.h:57-60).
-/

namespace LS.LockPair

/-- Where a thread is.  `p q` are the locks `lk1`, `lk2`; `sw` says in which half of the loop of `lock` (lockPair.h:134-152,
159-177) the thread is: `true` is the second one, where the locks are exchanged. -/
inductive PC where
  | idle
  /-- about to lock the first lock of the half (135, 144, 160, 169); `tmo`: with a timeout -/
  | first (tmo sw : Bool) (p q : Nat)
  /-- about to try the second one (137, 146, 162, 171) -/
  | second (tmo sw : Bool) (p q : Nat)
  /-- about to release the first one after a failure (142, 151, 167, 176) -/
  | back (tmo sw : Bool) (p q : Nat)
  /-- about to release the first one in a `catch` (139, 148, 164, 173), or after a failure of `tryLock` (113, 116) -/
  | give (l : Nat)
  /-- `tryLock` (106-119): about to try `lk1` -/
  | try1 (p q : Nat)
  /-- `tryLock`: about to try `lk2` -/
  | try2 (p q : Nat)
  /-- both locks acquired -/
  | held (p q : Nat)
  /-- `unlock` (120-130): about to release `lk2` -/
  | half (q : Nat)
  /-- a user of one lock: about to lock it -/
  | one (l : Nat)
  /-- a user of one lock: got it -/
  | heldOne (l : Nat)
deriving DecidableEq, Repr

/-- Owners of locks and places of threads. -/
structure St where
  owner : Nat → Option Nat
  pc : Nat → PC

/-- One thread goes on. -/
def St.go (s : St) (t : Nat) (c : PC) : St := { s with pc := fun u => if u = t then c else s.pc u }

/-- A lock gets an owner or becomes free. -/
def St.set (s : St) (l : Nat) (o : Option Nat) : St := { s with owner := fun k => if k = l then o else s.owner k }

/-- The lock that is locked first in a half. -/
def fst (sw : Bool) (p q : Nat) : Nat := if sw then q else p

/-- The lock that is tried in a half. -/
def snd (sw : Bool) (p q : Nat) : Nat := if sw then p else q

/-- Steps of thread `t`. -/
inductive Step (t : Nat) : St → St → Prop
  /-- calls -/
  | lock (s : St) (tmo : Bool) (p q : Nat) : s.pc t = .idle → Step t s (s.go t (.first tmo false p q))
  | tryLock (s : St) (p q : Nat) : s.pc t = .idle → Step t s (s.go t (.try1 p q))
  | lockOne (s : St) (l : Nat) : s.pc t = .idle → Step t s (s.go t (.one l))
  /-- lockPair.h:135, 144: the first lock, when it is free -/
  | first (s : St) (tmo sw : Bool) (p q : Nat) : s.pc t = .first tmo sw p q → s.owner (fst sw p q) = none → Step t s ((s.set (fst sw p q) (some t)).go t (.second tmo sw p q))
  /-- the same throws -/
  | firstThrow (s : St) (tmo sw : Bool) (p q : Nat) : s.pc t = .first tmo sw p q → Step t s (s.go t .idle)
  /-- lockPair.h:160, 169: timeout -/
  | firstTimeout (s : St) (sw : Bool) (p q : Nat) : s.pc t = .first true sw p q → Step t s (s.go t .idle)
  /-- lockPair.h:137, 146: success -/
  | secondOk (s : St) (tmo sw : Bool) (p q : Nat) : s.pc t = .second tmo sw p q → s.owner (snd sw p q) = none → Step t s ((s.set (snd sw p q) (some t)).go t (.held p q))
  /-- failure -/
  | secondNo (s : St) (tmo sw : Bool) (p q : Nat) : s.pc t = .second tmo sw p q → s.owner (snd sw p q) ≠ none → Step t s (s.go t (.back tmo sw p q))
  /-- lockPair.h:138, 147: exception -/
  | secondThrow (s : St) (tmo sw : Bool) (p q : Nat) : s.pc t = .second tmo sw p q → Step t s (s.go t (.give (fst sw p q)))
  /-- lockPair.h:142, 151: the other half is next -/
  | back (s : St) (tmo sw : Bool) (p q : Nat) : s.pc t = .back tmo sw p q → Step t s ((s.set (fst sw p q) none).go t (.first tmo (!sw) p q))
  /-- lockPair.h:139, 148, 113, 116 -/
  | give (s : St) (l : Nat) : s.pc t = .give l → Step t s ((s.set l none).go t .idle)
  /-- lockPair.h:108 -/
  | try1Ok (s : St) (p q : Nat) : s.pc t = .try1 p q → s.owner p = none → Step t s ((s.set p (some t)).go t (.try2 p q))
  | try1No (s : St) (p q : Nat) : s.pc t = .try1 p q → s.owner p ≠ none → Step t s (s.go t .idle)
  | try1Throw (s : St) (p q : Nat) : s.pc t = .try1 p q → Step t s (s.go t .idle)
  /-- lockPair.h:110-117 -/
  | try2Ok (s : St) (p q : Nat) : s.pc t = .try2 p q → s.owner q = none → Step t s ((s.set q (some t)).go t (.held p q))
  | try2No (s : St) (p q : Nat) : s.pc t = .try2 p q → s.owner q ≠ none → Step t s (s.go t (.give p))
  | try2Throw (s : St) (p q : Nat) : s.pc t = .try2 p q → Step t s (s.go t (.give p))
  /-- lockPair.h:123-129 -/
  | unlock1 (s : St) (p q : Nat) : s.pc t = .held p q → Step t s ((s.set p none).go t (.half q))
  | unlock2 (s : St) (q : Nat) : s.pc t = .half q → Step t s ((s.set q none).go t .idle)
  /-- users of one lock -/
  | oneOk (s : St) (l : Nat) : s.pc t = .one l → s.owner l = none → Step t s ((s.set l (some t)).go t (.heldOne l))
  | oneDone (s : St) (l : Nat) : s.pc t = .heldOne l → Step t s ((s.set l none).go t .idle)

/-- Free locks, idle threads. -/
def init : St := { owner := fun _ => none, pc := fun _ => .idle }

/-- States that threads get to. -/
inductive Reach : St → Prop
  | init : Reach init
  | step {s s' : St} (t : Nat) : Reach s → Step t s s' → Reach s'

end LS.LockPair

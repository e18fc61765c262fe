/-
The executor with a queue: base/actions/queueExecutor.cpp:17-188,
base/actions/queueExecutor.h:25-110.

Threads are numbered; a thread is outside or inside of `serve()` at one of the places
below. Everything done under the member `lock` without a release in between is one step
(mutual exclusion of FastLock is C08); the work of an action is done outside of the lock
and so is the subtraction from `runningMessages` behind it, which is a load and a store.
The semaphore (mt/semaphore.h:30-97, C36) is its counter and the threads that wait in it, the
oldest first; `unlock` gives the permit to the oldest one. The gate is `isOpen` (C37). The members `acc`, `gone`
and `started` are not in the code: the actions accepted, taken from the queue in any way, and
started, in their order.
Simplified: actions are numbers, `clone` does not throw, `onIdle` gives no time limit (the default,
queueExecutor.cpp:153-156), memory is sequentially consistent.
-/

namespace LS.QueueExec

/-- Where a thread is. -/
inductive PC where
  /-- outside of `serve` -/
  | out
  /-- before the lock, queueExecutor.cpp:90 -/
  | check
  /-- in the action, queueExecutor.cpp:106 -/
  | work (a : Nat)
  /-- `runningMessages` is loaded with `k`, queueExecutor.cpp:108 -/
  | store (k : Nat)
  /-- at the end of the release of the lock, queueExecutor.cpp:109 -/
  | relock
  /-- before the semaphore, queueExecutor.cpp:129 -/
  | idle
  /-- waits in the semaphore, queueExecutor.cpp:131 -/
  | waiting
  /-- in the destructor of `Server`, queueExecutor.cpp:70-82 -/
  | leave
deriving DecidableEq

/-- A thread; `cf` is `Thread::canFinish()`. -/
structure Th where
  pc : PC
  cf : Bool
deriving DecidableEq

/-- The members, queueExecutor.h:87-101. -/
structure St where
  th : List Th
  queue : List Nat
  sem : Nat
  wq : List Nat
  running : Nat
  threadsIn : Nat
  isOpen : Bool
  finish : Bool
  acc : List Nat
  gone : List Nat
  started : List Nat
deriving DecidableEq

/-- What is done by whom. `mid` is a thread that comes to the semaphore between the two calls of `wakeThread`. -/
inductive Op where
  | execute (a : Nat) (mid : Option Nat)
  | finish (mid : Option Nat)
  | reset
  | cancel (i : Nat)
  | enter (i : Nat)
  | check (i : Nat)
  | done (i : Nat)
  | throws (i : Nat)
  | store (i : Nat)
  | relock (i : Nat)
  | wait (i : Nat)
  | leave (i : Nat) (mid : Option Nat)
deriving DecidableEq

/-- The constructor, queueExecutor.cpp:39-41: `finishFlag` is not in the list, so its value `f` is any;
the gate is closed, mt/gate.h:41. There are `n` threads. -/
def start (n : Nat) (f : Bool) : St :=
  ⟨List.replicate n ⟨.out, false⟩, [], 1, [], 0, 0, false, f, [], [], []⟩

/-- Where a thread is. -/
def pcOf (s : St) (i : Nat) : Option PC := (s.th[i]?).map (·.pc)

def cfOf (s : St) (i : Nat) : Bool := ((s.th[i]?).map (·.cf)).getD false

def goto (s : St) (i : Nat) (p : PC) : St :=
  match s.th[i]? with
  | some t => { s with th := s.th.set i { t with pc := p } }
  | none => s

/-- `Semaphore::unlock`, mt/semaphore.h:68-77. -/
def unlock (s : St) : St :=
  match s.wq with
  | j :: q => goto { s with wq := q } j .check
  | [] => { s with sem := s.sem + 1 }

/-- `Semaphore::lockAsync`, mt/semaphore.h:89-97. -/
def lockAsync (s : St) (i : Nat) : St :=
  if 0 < s.sem then goto { s with sem := s.sem - 1 } i .check
  else goto { s with wq := s.wq ++ [i] } i .waiting

/-- `wakeThread`, queueExecutor.cpp:17-23, with `tryLock`, mt/semaphore.h:79-87. -/
def wake (s : St) (mid : Option Nat) : St :=
  let s1 : St := { s with sem := s.sem - 1 }
  match mid with
  | some j => if pcOf s j = some .idle then unlock (lockAsync s1 j) else unlock s1
  | none => unlock s1

/-- `execute`, queueExecutor.cpp:25-37. -/
def execute (s : St) (a : Nat) (mid : Option Nat) : St :=
  if s.finish then s else wake { s with queue := s.queue ++ [a], acc := s.acc ++ [a] } mid

/-- `finish`, queueExecutor.cpp:158-167. -/
def finish (s : St) (mid : Option Nat) : St :=
  wake { s with gone := s.gone ++ s.queue, queue := [], finish := true } mid

/-- The constructor of `Server`, queueExecutor.cpp:59-68. -/
def enter (s : St) (i : Nat) : St :=
  goto { s with threadsIn := s.threadsIn + 1, isOpen := false } i .check

/-- The head of the inner loop under the lock, queueExecutor.cpp:94-104: the next action, or the lock is
given back. -/
def take (s : St) (i : Nat) : St :=
  match s.queue with
  | [] => goto s i .idle
  | a :: q => goto { s with queue := q, running := s.running + 1, gone := s.gone ++ [a], started := s.started ++ [a] } i (.work a)

/-- queueExecutor.cpp:90-92. -/
def check (s : St) (i : Nat) : St :=
  if s.finish || cfOf s i then goto s i .leave else take s i

/-- The end of an action: `runningMessages` is loaded, queueExecutor.cpp:108. -/
def done (s : St) (i : Nat) : St := goto s i (.store s.running)

/-- The value is stored. -/
def store (s : St) (i : Nat) (k : Nat) : St := goto { s with running := k - 1 } i .relock

/-- The action throws: the lock is taken again and the handler is under it, queueExecutor.cpp:109-114. -/
def throws (s : St) (i : Nat) : St := goto { s with running := s.running - 1 } i .leave

/-- Behind the action, under the lock, queueExecutor.cpp:116: the `break` leaves the inner loop only. -/
def relock (s : St) (i : Nat) : St :=
  if s.finish || cfOf s i then goto s i .idle else take s i

/-- The destructor of `Server`, queueExecutor.cpp:70-82. -/
def leave (s : St) (i : Nat) (mid : Option Nat) : St :=
  let s1 := goto { s with threadsIn := s.threadsIn - 1 } i .out
  if s1.threadsIn = 0 then { s1 with isOpen := true } else wake s1 mid

/-- One step; `none` when it is not possible now. -/
def step (s : St) : Op → Option St
  | .execute a mid => some (execute s a mid)
  | .finish mid => some (finish s mid)
  | .reset => some { s with finish := false }
  | .cancel i => match s.th[i]? with
    | some t => some { s with th := s.th.set i { t with cf := true } }
    | none => none
  | .enter i => match pcOf s i with
    | some .out => some (enter s i)
    | _ => none
  | .check i => match pcOf s i with
    | some .check => some (check s i)
    | _ => none
  | .done i => match pcOf s i with
    | some (.work _) => some (done s i)
    | _ => none
  | .throws i => match pcOf s i with
    | some (.work _) => some (throws s i)
    | _ => none
  | .store i => match pcOf s i with
    | some (.store k) => some (store s i k)
    | _ => none
  | .relock i => match pcOf s i with
    | some .relock => some (relock s i)
    | _ => none
  | .wait i => match pcOf s i with
    | some .idle => some (lockAsync s i)
    | _ => none
  | .leave i mid => match pcOf s i with
    | some .leave => some (leave s i mid)
    | _ => none

/-- `isRunning`, queueExecutor.cpp:180-183. -/
def isRunning (s : St) : Bool := decide (0 < s.running)

def run (s : St) : List Op → Option St
  | [] => some s
  | o :: r => match step s o with
    | some s' => run s' r
    | none => none

end LS.QueueExec

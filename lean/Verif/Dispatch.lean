import Verif.Heap
/-
Dispatcher and scheduler: mt/dispatcher.{h,cpp}, mt/scheduler.{h,cpp}.

The dispatcher is a transition system of the dispatching thread (the one in `run`) and any number of other threads.  Everything between taking and
releasing the lock is one transition (C29).  Actions are numbers.  `Thread::sleep`/`wakeUp` is a token (linux/threadSleeper.cpp:26-60); a sleep may also
end without it (EINTR).
-/
namespace LS.Dispatch

/-- The dispatching thread. -/
inductive PC where
  /-- not in `run` -/
  | out
  /-- dispatcher.cpp:51, owning the lock -/
  | loop
  /-- dispatcher.cpp:54-58, the lock is released and there was no action -/
  | idle
  /-- dispatcher.cpp:59-63, the lock is released -/
  | act (a : Nat)
deriving DecidableEq, Repr

/-- dispatcher.h:65-77: the queue holds owning pointers (`none`: null).  The last three are history variables. -/
structure St where
  queue : List (Option Nat) := []
  needstop : Bool := false
  token : Bool := false
  pc : PC := .out
  dispatched : List Nat := []
  ran : List Nat := []
  rejected : List Nat := []
deriving DecidableEq, Repr

/-- dispatcher.cpp:102-107 `getNextAction`: the front pointer is detached (allocPointer.h:92-96: it becomes null), the queue keeps its length. -/
def getNextAction (q : List (Option Nat)) : Option Nat × List (Option Nat) :=
  match q with
  | [] => (none, [])
  | a :: q => (a, none :: q)

/-- dispatcher.cpp:84-87 `onNewMessage`: `currentThread` is set while the thread is in `run` (46, 98). -/
def onNewMessage (s : St) : Bool := s.token || s.pc != .out

/-- dispatcher.cpp:19-25 `dispatch`. -/
def dispatch (s : St) (a : Nat) : St :=
  { s with queue := s.queue ++ [some a], dispatched := s.dispatched ++ [a], token := if s.queue.isEmpty then onNewMessage s else s.token }

/-- dispatcher.cpp:109-116 `rejectQueue`: the loop ends at the first null pointer. -/
def rejectQueue : Nat → List (Option Nat) → List Nat × List (Option Nat)
  | 0, q => ([], q)
  | k + 1, q =>
    match getNextAction q with
    | (none, q) => ([], q)
    | (some a, q) => let r := rejectQueue k q; (a :: r.1, r.2)

/-- dispatcher.cpp:65, 94-100: the end of `run`.  (The bound is the number of pointers which are not null and one more.) -/
def finishRun (s : St) : St :=
  let r := rejectQueue (s.queue.length + 1) s.queue
  { s with queue := r.2, rejected := s.rejected ++ r.1, pc := .out }

/-- dispatcher.cpp:51-53: one round up to the release of the lock. -/
def fetch (s : St) : St :=
  if s.needstop then finishRun s
  else
    match getNextAction s.queue with
    | (none, q) => { s with queue := q, pc := .idle }
    | (some a, q) => { s with queue := q, pc := .act a }

/-- Transitions. -/
inductive Tr : St → St → Prop where
  /-- another thread, or the action itself; the lock must be free -/
  | dispatch (s : St) (a : Nat) (h : s.pc ≠ .loop) : Tr s (dispatch s a)
  /-- dispatcher.cpp:44-50; the gate is open (C37) -/
  | start (s : St) (h : s.pc = .out) : Tr s { s with pc := .loop, needstop := false }
  | fetch (s : St) (h : s.pc = .loop) : Tr s (fetch s)
  /-- dispatcher.cpp:61: the action runs; 53: the lock is taken again.  The action may have used up the token. -/
  | act (s : St) (a : Nat) (b : Bool) (h : s.pc = .act a) : Tr s { s with ran := s.ran ++ [a], pc := .loop, token := s.token && b }
  /-- dispatcher.cpp:55: the thread wakes up, with or without a token -/
  | wake (s : St) (h : s.pc = .idle) : Tr s { s with pc := .loop, token := false }
  /-- dispatcher.cpp:73-77 `quit`, without the lock -/
  | quit (s : St) : Tr s { s with needstop := true, token := onNewMessage s }

/-! ### Scheduler -/

/-- scheduler.h:46-50: `tm` in any unit, `id` is the promise. -/
structure Item where
  tm : Nat
  id : Nat
deriving DecidableEq, Repr

/-- scheduler.cpp:43-46 `CmpQueue`; infinite timeouts are refused (17). -/
def later (a b : Item) : Bool := a.tm > b.tm

structure Sched where
  heap : Heap.Heap Item
  resolved : List Nat
deriving DecidableEq, Repr

/-- scheduler.cpp:15-22 `schedule`. -/
def schedule (s : Sched) (x : Item) : Option Sched :=
  (Heap.push later { s.heap with cont := s.heap.cont ++ [x] }).map fun r => { s with heap := r.2 }

/-- How a round of `Dispatcher::run` without an action ends. -/
inductive Out where
  /-- an object is used after its destruction -/
  | ub
  /-- the thread waits for a lock which it owns itself -/
  | blocked (s : Sched)
  /-- the thread sleeps until the time (`none`: without limit) and is back at the beginning of the loop -/
  | next (s : Sched) (until_ : Option Nat)
deriving DecidableEq, Repr

/-- fastlock.h:81-102 without any other thread: unlocking a free lock changes nothing (`owner` and `queue` are null). -/
def unlock (_ : Bool) : Bool := false
/-- fastlock.h:63-73; `none`: the thread waits for itself. -/
def lock (l : Bool) : Option Bool := if l then none else some true

/-- scheduler.cpp:24-41 `onIdle` at time `cur`, called with the lock in state `l`.  `itm` refers to the first place of the array: after `pop` and `trunc`
there is another item, or none.  The answer is `none` for undefined behaviour. -/
def onIdle (cur : Nat) (s : Sched) (l : Bool) : Option (Sched × Option Nat × Option Bool) :=
  if s.heap.heapSize = 0 then some (s, none, some l)
  else
    match s.heap.cont[0]? with
    | none => none
    | some itm =>
      if cur > itm.tm then
        match Heap.pop later s.heap with
        | none => none
        | some (_, h) =>
          let h := { h with cont := Heap.trunc h.cont 1 }
          let l := unlock l
          match h.cont[0]? with
          | none => none
          | some itm => some ({ s with heap := h, resolved := s.resolved ++ [itm.id] }, some 0, lock l)
      else some (s, some itm.tm, some l)

/-- dispatcher.cpp:51-58, 53: a round without an action, the lock is owned before and after. -/
def round (cur : Nat) (s : Sched) : Out :=
  match onIdle cur s (unlock true) with
  | none => .ub
  | some (s, _, none) => .blocked s
  | some (s, w, some l) =>
    match lock l with
    | none => .blocked s
    | some _ => .next s w

end LS.Dispatch

import Verif.Deque
import Verif.FastLock
/-!
# Model of `mt/semaphore.h` (`Semaphore`)

All operations run under the internal lock of the synchronisation point, so one transition is one
of them; `cancelLockAsync` consists of two (`remove`, then `unlock`).  The chain of slots is a list,
the oldest first (C38; the semaphore uses the order `queue`).  Slots are numbers; each slot is used
once.  A call `lock()` is `lockAsync` and a wait for the signal; the timed `lock` may leave without
removing its slot (`expire`): the slot is destroyed, any later access to it is undefined behaviour.
-/

namespace LS.Semaphore
open LS.FastLock (upd)

/-- State of a slot. -/
inductive SlotSt where
  | fresh
  /-- in the queue -/
  | waiting
  /-- signaled, never in the queue (`charged` is false) -/
  | atOnce
  /-- signaled by `unlock` -/
  | signaled
  /-- `cancelLockAsync` found it signaled and is going to call `unlock` -/
  | returning
  /-- no longer used -/
  | gone
  /-- destroyed while it is in the queue -/
  | dead
deriving DecidableEq, Repr

structure St where
  counter : Nat
  queue : List Nat := []
  slot : Nat → SlotSt := fun _ => .fresh
  /-- history: permits given to slots and to `tryLock`; permits given back by the users, with
  `unlock` or by the cancellation of a signaled slot -/
  grants : Nat := 0
  releases : Nat := 0

inductive Op where
  | lockAsync (x : Nat)
  | tryLock
  | unlock
  | cancel (x : Nat)
  | cancelUnlock (x : Nat)
  /-- the timed `lock` with the slot `x` ends without success -/
  | expire (x : Nat)
deriving DecidableEq, Repr

/-- semaphore.h:68-77 `unlock`; the search for the oldest slot reads all slots of the chain
(syncPt.cpp:120-148). -/
def unlock (s : St) : Except Err St :=
  if s.queue.any (fun x => s.slot x = .dead) then .error .ub
  else
    match s.queue with
    | [] => .ok { s with counter := s.counter + 1 }
    | x :: q => .ok { s with queue := q, slot := upd s.slot x .signaled, grants := s.grants + 1 }

/-- One operation; the result of `tryLock`, otherwise `true`.  Operations on slots in a state
where the user cannot call them do nothing. -/
def step (s : St) : Op → Except Err (Bool × St)
  /- semaphore.h:89-97 -/
  | .lockAsync x =>
    if s.slot x = .fresh then
      if s.counter > 0 then
        .ok (true, { s with counter := s.counter - 1, slot := upd s.slot x .atOnce
                            grants := s.grants + 1 })
      else .ok (true, { s with queue := s.queue ++ [x], slot := upd s.slot x .waiting })
    else .ok (true, s)
  /- semaphore.h:79-87 -/
  | .tryLock =>
    if s.counter > 0 then
      .ok (true, { s with counter := s.counter - 1, grants := s.grants + 1 })
    else .ok (false, s)
  | .unlock => (unlock { s with releases := s.releases + 1 }).map fun s => (true, s)
  /- semaphore.h:98-100, syncPt.cpp:40-77: `remove` returns true for a slot that is not charged,
  and for one that it found; it reads the slots newer than `x` -/
  | .cancel x =>
    match s.slot x with
    | .waiting =>
      if (s.queue.reverse.takeWhile (· ≠ x)).any (fun y => s.slot y = .dead) then .error .ub
      else .ok (true, { s with queue := s.queue.erase x, slot := upd s.slot x .gone })
    | .atOnce => .ok (true, { s with slot := upd s.slot x .gone, releases := s.releases + 1 })
    | .signaled =>
      if s.queue.any (fun y => s.slot y = .dead) then .error .ub
      else .ok (true, { s with slot := upd s.slot x .returning })
    | _ => .ok (true, s)
  /- semaphore.h:102 -/
  | .cancelUnlock x =>
    if s.slot x = .returning then
      (unlock { s with slot := upd s.slot x .gone, releases := s.releases + 1 }).map
        fun s => (true, s)
    else .ok (true, s)
  /- semaphore.h:56-65 -/
  | .expire x =>
    if s.slot x = .waiting then .ok (true, { s with slot := upd s.slot x .dead }) else .ok (true, s)

def run : St → List Op → Except Err St
  | s, [] => .ok s
  | s, op :: l =>
    match step s op with
    | .error e => .error e
    | .ok (_, s') => run s' l

end LS.Semaphore

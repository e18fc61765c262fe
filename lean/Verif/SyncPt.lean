import Verif.FastLock
/-!
# Model of `mt/syncPt.cpp` (`SyncPt`)

`add`, `remove`, `notifyOne`, `notifyAll` run under the internal fast lock (`queueLock`, C29), so
one transition is one call.  Slots are addresses (0 is null) with the fields `next`, `charged`,
`signaled`.  The loops over the chain carry a fuel; `none` is a loop that does not end in time, or
an access through the null pointer.
Not modelled: `wait` (a pure wait for `signaled`), the pay-load of `SyncPtT`.
-/

namespace LS.SyncPt
open LS.FastLock (upd)

/-- syncPt.h:138-140 `Order`. -/
inductive Order where
  | queue
  | stack
deriving DecidableEq, Repr

structure St where
  cur : Nat := 0
  next : Nat → Nat := fun _ => 0
  charged : Nat → Bool := fun _ => false
  signaled : Nat → Bool := fun _ => false

/-- syncPt.cpp:155-162 `add_lk`. -/
def addLk (s : St) (x : Nat) : St :=
  { s with charged := upd s.charged x true, next := upd s.next x s.cur, cur := x }

/-- syncPt.cpp:27-38 `add`. -/
def add (s : St) (x : Nat) : Bool × St :=
  if s.next x ≠ 0 ∨ s.signaled x = true ∨ s.charged x = true then (false, s) else (true, addLk s x)

/-- syncPt.cpp:56-57: `while (q->next != 0 && q->next != &slot) q = q->next`. -/
def findPrev (next : Nat → Nat) (x : Nat) : Nat → Nat → Option Nat
  | 0, _ => none
  | f + 1, q => if next q ≠ 0 ∧ next q ≠ x then findPrev next x f (next q) else some q

/-- syncPt.cpp:40-76 `remove`. -/
def remove (fuel : Nat) (s : St) (x : Nat) : Option (Bool × St) :=
  if s.charged x = true then
    if s.cur = 0 then some (false, s)
    else if s.cur = x then some (true, { s with cur := s.next x })
    else
      match findPrev s.next x fuel s.cur with
      | none => none
      | some q =>
        if s.next q = x then some (true, { s with next := upd s.next q (s.next x) })
        else some (false, s)
  else some (true, s)

/-- syncPt.cpp:129-134: `do { q = p; p = p->next; } while (p->next != 0)`. -/
def toLast (next : Nat → Nat) : Nat → Nat → Option (Nat × Nat)
  | 0, _ => none
  | f + 1, p => if next (next p) ≠ 0 then toLast next f (next p) else some (p, next p)

/-- syncPt.cpp:120-148 `popSlot_lk`: the slot (0 if there is none) and the new state. -/
def popSlot (fuel : Nat) (o : Order) (s : St) : Option (Nat × St) :=
  if s.cur ≠ 0 then
    if o = .queue ∧ s.next s.cur ≠ 0 then
      match toLast s.next fuel s.cur with
      | none => none
      | some (q, p) => some (p, { s with next := upd s.next q 0 })
    else some (s.cur, { s with cur := s.next s.cur, next := upd s.next s.cur 0 })
  else some (0, s)

/-- syncPt.h:92-94 `Slot::notify`: sets the flag (and wakes the thread). -/
def notify (s : St) (x : Nat) : St := { s with signaled := upd s.signaled x true }

/-- syncPt.cpp:98-104 `notifyOne`: the result, the notified slots and the new state. -/
def notifyOne (fuel : Nat) (o : Order) (s : St) : Option (Bool × List Nat × St) :=
  match popSlot fuel o s with
  | none => none
  | some (p, s) => if p = 0 then some (false, [], s) else some (true, [p], notify s p)

/-- syncPt.cpp:111-116: the loop of `notifyAll` from the slot `p`. -/
def notifyLoop : Nat → St → Nat → Option (List Nat × St)
  | 0, _, _ => none
  | f + 1, s, p =>
    if p = 0 then some ([], s)
    else (notifyLoop f (notify s p) (s.next p)).map fun r => (p :: r.1, r.2)

/-- syncPt.cpp:106-118 `notifyAll`. -/
def notifyAll (fuel : Nat) (s : St) : Option (Bool × List Nat × St) :=
  (notifyLoop fuel { s with cur := 0 } s.cur).map fun r => (!r.1.isEmpty, r.1, r.2)

/-- syncPt.h:108-115 `Slot::reset`. -/
def reset (s : St) (x : Nat) : Bool × St :=
  if s.signaled x = true then (true, { s with signaled := upd s.signaled x false }) else (false, s)

inductive Op where
  | add (x : Nat)
  | remove (x : Nat)
  | notifyOne
  | notifyAll
  | reset (x : Nat)
deriving DecidableEq, Repr

/-- One call: the result and the slots that were notified, in the order of the notifications. -/
def step (fuel : Nat) (o : Order) (s : St) : Op → Option ((Bool × List Nat) × St)
  | .add x => some (((add s x).1, []), (add s x).2)
  | .remove x => (remove fuel s x).map fun r => ((r.1, []), r.2)
  | .notifyOne => (notifyOne fuel o s).map fun r => ((r.1, r.2.1), r.2.2)
  | .notifyAll => (notifyAll fuel s).map fun r => ((r.1, r.2.1), r.2.2)
  | .reset x => some (((reset s x).1, []), (reset s x).2)

/-- A sequence of calls: their outputs. -/
def run (fuel : Nat) (o : Order) : St → List Op → Option (List (Bool × List Nat))
  | _, [] => some []
  | s, op :: l =>
    match step fuel o s op with
    | none => none
    | some (out, s') => (run fuel o s' l).map (out :: ·)

end LS.SyncPt

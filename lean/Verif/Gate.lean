import Verif.FastLock
/-!
# Model of `mt/gate.h` (`Gate`)

One transition is one access to `state` or one operation of the synchronisation point `sp` (each
under its internal lock, C38).  A call of `wait` has its slot on the stack, so the slot is named by
the thread.  `notifyAll` is one transition: it removes and signals all slots.
Memory is sequentially consistent.
Not modelled: a user's own use of `waitAsync`/`cancelWaitAsync` (they are the parts of `wait`).
-/

namespace LS.Gate
open LS.FastLock (upd)

/-- Program counter of a thread. -/
inductive PC where
  | idle
  /-- gate.h:101: before reading `state` -/
  | g0
  /-- gate.h:102: before `slot.notify()` on the open gate -/
  | gs
  /-- gate.h:104: before `sp.add(slot)` -/
  | g1
  /-- gate.h:105: before reading `state` again -/
  | g2
  /-- gate.h:106: before `sp.remove(slot)` -/
  | g3
  /-- gate.h:107: before `slot.notify()` -/
  | g4
  /-- gate.h:119, 126: in `sp.wait` -/
  | w
  /-- gate.h:119, 126: before `sp.remove(s)` -/
  | e
  /-- gate.h:86: before `state = open` -/
  | o0
  /-- gate.h:87: before `sp.notifyAll()` -/
  | o1
  /-- gate.h:94: before `state = close` -/
  | c0
deriving DecidableEq, Repr

inductive Op where
  | wait
  | open
  | close
  /-- the time-out of the wait is over -/
  | expire
deriving DecidableEq, Repr

structure St where
  /-- `state == stateOpen` -/
  isOpen : Bool := false
  queue : List Nat := []
  sig : Nat → Bool := fun _ => false
  pc : Nat → PC := fun _ => .idle
  /-- history: result of the last `wait` -/
  res : Nat → Option Bool := fun _ => none
  /-- history: the gate was open at some time since the thread called `wait` -/
  seen : Nat → Bool := fun _ => false

def St.goto (s : St) (t : Nat) (p : PC) : St := { s with pc := upd s.pc t p }

/-- `wait` returns. -/
def St.leave (s : St) (t : Nat) (r : Bool) : St :=
  { s with pc := upd s.pc t .idle, res := upd s.res t (some r) }

/-- One transition of thread `t` (gate.h:84-128). -/
def step (s : St) (t : Nat) (op : Op) : Option St :=
  match s.pc t with
  | .idle =>
    match op with
    | .wait => some { s with sig := upd s.sig t false, pc := upd s.pc t .g0
                             res := upd s.res t none, seen := upd s.seen t s.isOpen }
    | .open => some (s.goto t .o0)
    | .close => some (s.goto t .c0)
    | .expire => none
  | .g0 => if s.isOpen = true then some (s.goto t .gs) else some (s.goto t .g1)
  | .gs => some { s with sig := upd s.sig t true, pc := upd s.pc t .w }
  | .g1 => some { s with queue := t :: s.queue, pc := upd s.pc t .g2 }
  | .g2 => if s.isOpen = true then some (s.goto t .g3) else some (s.goto t .w)
  | .g3 => some { s with queue := s.queue.erase t, pc := upd s.pc t .g4 }
  | .g4 => some { s with sig := upd s.sig t true, pc := upd s.pc t .w }
  | .w =>
    if s.sig t = true then some (s.leave t true)
    else if op = .expire then some (s.goto t .e)
    else none
  | .e =>
    if t ∈ s.queue then some ({ s with queue := s.queue.erase t }.leave t false)
    else some (s.leave t true)
  | .o0 => some { s with isOpen := true, seen := fun _ => true, pc := upd s.pc t .o1 }
  | .o1 =>
    some { s with queue := [], sig := (fun x => decide (x ∈ s.queue) || s.sig x)
                  pc := upd s.pc t .idle }
  | .c0 => some { s with isOpen := false, pc := upd s.pc t .idle }

/-- Reachable states; `P` restricts who does what. -/
inductive Reach (P : Nat → Op → Prop) (b : Bool) : St → Prop
  | init : Reach P b { isOpen := b }
  | step {s s' t op} : Reach P b s → P t op → step s t op = some s' → Reach P b s'

/-- Executes a schedule. -/
def exec : St → List (Nat × Op) → Option St
  | s, [] => some s
  | s, (t, op) :: l => match step s t op with
    | none => none
    | some s' => exec s' l

end LS.Gate

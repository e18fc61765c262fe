import Verif.FastLock
/-!
# Model of `base/actions/promise.{h,tcc}` (`Future`, `Promise`, `Future<T>::Value`)

One future shared by any number of threads. A critical section of the lock of `Future<T>::Value`
(a `FastLock`, see C29) is one transition. An observer is a number and is registered only once.
Calls made by an observer while it is being notified are calls of some other thread. Outcomes are
values or exceptions. The deque of observers is a list (see C13), its front is the head.
-/

namespace LS.Promise
open LS.FastLock (upd)

/-- `value` and `exception` (promise.h:821-822); at most one of them is set. -/
inductive Out where
  | val (v : Nat)
  | exc (e : Nat)
deriving DecidableEq, Repr

/-- promise.tcc:119-124: `i` items go from the front to the back. -/
def rotate : Nat → List Nat → List Nat
  | 0, l => l
  | _ + 1, [] => []
  | i + 1, y :: l => rotate i (l ++ [y])

/-- promise.tcc:114-135: the loop of `unregisterObserver`, `n` is `cnt - i`. -/
def unLoop (x cnt : Nat) : Nat → List Nat → Bool → Bool × List Nat
  | 0, l, found => (found, l)
  | n + 1, l, found =>
    match l.getLast? with
    | none => (found, l)
    | some y =>
      if y = x then
        if cnt - (n + 1) < cnt / 2 then (true, rotate (cnt - (n + 1)) l.dropLast)
        else unLoop x cnt n l.dropLast true
      else unLoop x cnt n (y :: l.dropLast) found

/-- promise.tcc:108-137 `unregisterObserver`. -/
def unregister (x : Nat) (l : List Nat) : Bool × List Nat := unLoop x l.length l.length l false

/-- What a thread does after it has notified an observer. -/
inductive Cont where
  /-- promise.tcc:68-75, the loop of `resolveInternal` -/
  | loop
  /-- promise.tcc:465-466, the loop of `cancel`; the other observers to be notified -/
  | cancel (l : List Nat) (e : Nat)
  /-- promise.tcc:91, 98 `registerObserver` -/
  | ret
  /-- promise.tcc:207, `registerObserver` in `wait` -/
  | wait
deriving DecidableEq, Repr

inductive PC where
  | idle
  /-- before `x->resolve(o)` -/
  | call (x : Nat) (o : Out) (k : Cont)
  /-- in `x->resolve`, the result is stored (promise.tcc:179, 185), before `thread->wakeUp()` -/
  | wake (x : Nat) (k : Cont)
  /-- promise.tcc:71-73, before the lock is taken again -/
  | loop
  /-- promise.tcc:465 -/
  | cancel (l : List Nat) (e : Nat)
  /-- promise.tcc:457, before the critical section of `cancel` -/
  | cancel0 (e : Nat)
  /-- promise.tcc:207, before `registerObserver` in `wait` -/
  | wait0 (x : Nat)
  /-- promise.tcc:209 -/
  | wait (x : Nat)
  /-- promise.tcc:211 -/
  | wait1 (x : Nat)
  /-- promise.tcc:215 -/
  | wait2 (x : Nat)
deriving DecidableEq, Repr

inductive Op where
  | resolve (o : Out)
  | register (x : Nat)
  | unregister (x : Nat)
  | cancel (e : Nat)
  /-- `getPromise` or a copy of a promise -/
  | promise
  /-- destructor of a promise -/
  | release
  | wait (x : Nat)
  /-- the timeout expires -/
  | expire
deriving DecidableEq, Repr

inductive Ev where
  /-- a resolution which took effect -/
  | resolve (o : Out)
  | reg (x : Nat)
  /-- the observer is called with the outcome of the resolution -/
  | call (x : Nat) (o : Out)
  /-- the observer is called by `cancel` -/
  | ccall (x e : Nat)
  | unreg (x : Nat)
  /-- the critical section of `cancel` -/
  | cancel (e : Nat)
  /-- the last promise is dropped -/
  | drop
  /-- `wait` returns with the outcome -/
  | ret (x : Nat) (o : Out)
  /-- `wait` throws `TimeoutException` -/
  | timeout (x : Nat)
deriving DecidableEq, Repr

structure St where
  value : Option Out := none
  resolving : Bool := false
  obs : List Nat := []
  refs : Nat := 0
  pc : Nat → PC := fun _ => .idle
  /-- `result` or `exception` of the observers in `wait` -/
  res : Nat → Option Out := fun _ => none
  /-- the observer in `wait` is out of scope -/
  dead : Nat → Bool := fun _ => false
  /-- memory of a dead observer was read -/
  ub : Bool := false
  log : List Ev := []
  /-- observers which are in use -/
  seen : List Nat := []
  /-- observers on the stack of `wait`; only `wait` knows them -/
  stack : List Nat := []
  /-- history: observers which are taken off the list, or not put there, and not yet called -/
  hands : List Nat := []

/-- The exception of a promise without references (promise.tcc:474). -/
def canceled : Nat := 0

/-- promise.tcc:68-75: in the lock, go on with the next observer or finish. -/
def St.next (s : St) (t : Nat) (o : Out) : St :=
  match s.obs with
  | [] => { s with resolving := false, pc := upd s.pc t .idle }
  | x :: l => { s with obs := l, hands := x :: s.hands, pc := upd s.pc t (.call x o .loop) }

/-- promise.tcc:55-76 `resolveInternal` up to the first release of the lock. -/
def St.resolve (s : St) (t : Nat) (o : Out) : St :=
  if s.value.isSome then s
  else St.next { s with resolving := true, value := some o, log := s.log ++ [.resolve o] } t o

/-- promise.tcc:80-105 `registerObserver`. -/
def St.register (s : St) (t x : Nat) (k : Cont) (p : PC) : St :=
  match s.resolving, s.value with
  | false, some o => { s with log := s.log ++ [Ev.reg x], hands := x :: s.hands, pc := upd s.pc t (.call x o k) }
  | _, _ => { s with log := s.log ++ [Ev.reg x], obs := s.obs ++ [x], pc := upd s.pc t p }

/-- promise.tcc:457-463: the critical section of `cancel`. -/
def St.cancel (s : St) (t e : Nat) : St :=
  { s with obs := [], hands := s.obs ++ s.hands, log := s.log ++ [.cancel e], pc := upd s.pc t (.cancel s.obs e) }

/-- The critical section of `unregisterObserver`. -/
def St.unreg (s : St) (x : Nat) : St :=
  if (unregister x s.obs).1 then { s with obs := (unregister x s.obs).2, log := s.log ++ [.unreg x] }
  else { s with obs := (unregister x s.obs).2 }

/-- promise.tcc:217-219, `wait` returns; its observer goes out of scope. -/
def St.ret (s : St) (t x : Nat) : St :=
  match s.res x with
  | some o => { s with log := s.log ++ [.ret x o], dead := upd s.dead x true, pc := upd s.pc t .idle }
  | none => { s with log := s.log ++ [.timeout x], dead := upd s.dead x true, pc := upd s.pc t .idle }

/-- Where a thread is after the notification. -/
def Cont.pc (x : Nat) : Cont → PC
  | .loop => .loop
  | .cancel l e => .cancel l e
  | .ret => .idle
  | .wait => .wait x

/-- The event of a notification. -/
def Cont.ev (x : Nat) (o : Out) : Cont → Ev
  | .cancel _ e => .ccall x e
  | _ => .call x o

/-- One transition of thread `t`. -/
def step (s : St) (t : Nat) (op : Op) : Option St :=
  match s.pc t with
  | .idle =>
    match op with
    | .resolve o => if s.refs = 0 then none else some (s.resolve t o)
    | .register x => if x ∈ s.seen then none else some (St.register { s with seen := x :: s.seen } t x .ret .idle)
    | .unregister x => if x ∈ s.stack then none else some (s.unreg x)
    | .cancel e => some (s.cancel t e)
    | .promise => some { s with refs := s.refs + 1 }
    -- promise.tcc:570-575
    | .release =>
      if s.refs = 0 then none
      else if s.refs = 1 then some { s with refs := 0, log := s.log ++ [.drop], pc := upd s.pc t (.cancel0 canceled) }
      else some { s with refs := s.refs - 1 }
    -- promise.tcc:195-202; the observer is a new one
    | .wait x =>
      if x ∈ s.seen then none
      else match s.resolving, s.value with
        | false, some o => some { s with log := s.log ++ [.ret x o], seen := x :: s.seen }
        | _, _ => some { s with seen := x :: s.seen, stack := x :: s.stack, pc := upd s.pc t (.wait0 x) }
    | .expire => none
  | .call x o k => some { s with res := upd s.res x (some o), log := s.log ++ [k.ev x o], hands := s.hands.erase x, pc := upd s.pc t (.wake x k), ub := s.ub || s.dead x }
  | .wake x k => some { s with ub := s.ub || s.dead x, pc := upd s.pc t (k.pc x) }
  | .loop => match s.value with
    | some o => some (s.next t o)
    | none => none
  | .cancel l e => match l with
    | [] => some { s with pc := upd s.pc t .idle }
    | x :: l => some { s with pc := upd s.pc t (.call x (.exc e) (.cancel l e)) }
  | .cancel0 e => some (s.cancel t e)
  | .wait0 x => some (s.register t x .wait (.wait x))
  | .wait x =>
    if (s.res x).isSome then some { s with pc := upd s.pc t (.wait1 x) }
    else match op with
      | .expire => some { s with pc := upd s.pc t (.wait1 x) }
      | _ => none
  | .wait1 x =>
    if (unregister x s.obs).1 then some (St.ret (s.unreg x) t x)
    else some { s.unreg x with pc := upd s.pc t (.wait2 x) }
  | .wait2 x => if (s.res x).isSome then some (s.ret t x) else none

/-- Reachable states. -/
inductive Reach : St → Prop
  | init : Reach {}
  | step {s s' t op} : Reach s → step s t op = some s' → Reach s'

/-- Executes a schedule. -/
def exec (s : St) : List (Nat × Op) → Option St
  | [] => some s
  | (t, op) :: l => match step s t op with
    | none => none
    | some s' => exec s' l

end LS.Promise

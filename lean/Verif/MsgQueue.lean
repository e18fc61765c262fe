import Verif.FastLock
/-!
# Model of `base/actions/msgQueue.{h,cpp}` (`MsgQueue`)

One worker and any number of posters; each transition makes at most one access to memory which others
may change. A message is a number, 0 is the null pointer. `run`, `reject` and `done` of the messages are
events; a message which was handled belongs to poster 0, which is the worker in `run`, and may be
posted again. Messages are posted only by the poster who owns them; `give` hands them over.

In `lockCompareExchangePtr(&newMessages,msg->next.get(),msg) != msg->next.get()` (msgQueue.cpp:122, 142)
C++ leaves open whether the right operand is read before or after the exchange. The parameter `late`
says that it is read after.
-/

namespace LS.MsgQueue
open LS.FastLock (upd)

/-- Where a poster is; `b`: posting a priority message. -/
inductive PPC where
  | idle
  /-- msgQueue.cpp:120, 127, 141, 144: before reading the top into `msg->next` -/
  | p0 (b : Bool) (x : Nat)
  /-- msgQueue.cpp:122, 142: before the exchange -/
  | p1 (b : Bool) (x : Nat)
  /-- msgQueue.cpp:122, 142: `late`, after the exchange which returned `old` -/
  | p2 (b : Bool) (x old : Nat)
  /-- msgQueue.cpp:130, 146: before `lockInc(queueLen)` -/
  | p3
deriving DecidableEq, Repr

/-- What becomes of the messages taken by `getNextMsg`: `pumpMessage` runs one, `wtFlush` rejects all. -/
inductive Mode where
  | run
  | rej
deriving DecidableEq, Repr

/-- Where `prepareQueue` was called. -/
inductive Ret where
  /-- msgQueue.cpp:158 -/
  | next (m : Mode)
  /-- msgQueue.cpp:308 -/
  | flush
  /-- msgQueue.cpp:224 -/
  | cancel (x : Nat)
deriving DecidableEq, Repr

/-- Where the worker is. -/
inductive WPC where
  | idle
  /-- msgQueue.cpp:158: `getNextMsg` before the test -/
  | g0 (m : Mode)
  /-- msgQueue.cpp:160: before reading `curQueue` -/
  | g1 (m : Mode)
  /-- msgQueue.cpp:164: before reading `m->next` -/
  | g2 (m : Mode) (x : Nat)
  /-- msgQueue.cpp:164: before the exchange -/
  | g3 (m : Mode) (x n : Nat)
  /-- msgQueue.cpp:166: before reading `curQueue` -/
  | g4 (m : Mode)
  /-- msgQueue.cpp:169-171 -/
  | g5 (m : Mode) (x : Nat)
  /-- msgQueue.cpp:67, 71: `prepareQueue` before reading `newMessages` -/
  | r0 (k : Ret)
  /-- msgQueue.cpp:69: before the exchange -/
  | r1 (p : Nat) (k : Ret)
  /-- msgQueue.cpp:79-88: the loop -/
  | r2 (p r : Nat) (k : Ret)
  /-- msgQueue.cpp:97: before the exchange -/
  | a0 (r : Nat) (k : Ret)
  /-- msgQueue.cpp:106: before reading `curQueue` -/
  | a1 (r : Nat) (k : Ret)
  /-- msgQueue.cpp:108-110 -/
  | a2 (q r : Nat) (k : Ret)
  /-- msgQueue.cpp:228: `wtCancelMessage(x)` before reading `curQueue` -/
  | c0 (x : Nat)
  /-- msgQueue.cpp:230: before reading `p->next` -/
  | c1 (x : Nat)
  /-- msgQueue.cpp:230: before the exchange -/
  | c2 (x n : Nat)
  /-- msgQueue.cpp:244-255: the loop, `n` and `p` as there -/
  | c3 (x n p : Nat)
  /-- msgQueue.cpp:231-234, 247-250 -/
  | c4 (x : Nat)
deriving DecidableEq, Repr

inductive Op where
  | post (x : Nat)
  | prio (x : Nat)
  | give (x u : Nat)
  /-- calls of the worker; without meaning for posters and when it is inside a call -/
  | pump
  | flush
  | cancel (x : Nat)
deriving DecidableEq, Repr

/-- Events in the order in which they took effect. -/
inductive Ev where
  | post (t x : Nat)
  | prio (t x : Nat)
  | run (x : Nat)
  | rej (x : Nat)
  /-- `getNextMsg` returned null -/
  | none
deriving DecidableEq, Repr

structure St where
  newTop : Nat := 0
  curTop : Nat := 0
  next : Nat → Nat := fun _ => 0
  queueLen : Int := 0
  pc : Nat → PPC := fun _ => .idle
  w : WPC := .idle
  /-- who may use the message; `none`: it is in the queue -/
  owner : Nat → Option Nat
  log : List Ev := []
  /-- history: length of `log` when the worker last emptied `newMessages` -/
  mark : Nat := 0
  /-- history: length of `log` when the worker began its last call -/
  start : Nat := 0
  /-- history: posters which have not counted their message yet -/
  uncounted : List Nat := []
  /-- a null pointer was followed -/
  ub : Bool := false

def Mode.ev (x : Nat) : Mode → Ev
  | .run => .run x
  | .rej => .rej x

/-- msgQueue.cpp:122, 142: poster `t` has put the message on top. -/
def St.push (s : St) (t : Nat) (b : Bool) (x : Nat) : St :=
  if b then { s with curTop := x, owner := upd s.owner x none, log := s.log ++ [.prio t x] }
  else { s with newTop := x, owner := upd s.owner x none, log := s.log ++ [.post t x] }

/-- msgQueue.cpp:114-118, 136-140: begin of the posting. -/
def St.begin (s : St) (t : Nat) (b : Bool) (x : Nat) : Option St :=
  if s.owner x = some t then
    if x = 0 ∨ s.next x ≠ 0 then some s else some { s with pc := upd s.pc t (.p0 b x) }
  else none

def St.top (s : St) (b : Bool) : Nat := if b then s.curTop else s.newTop

/-- One transition of poster `t`. -/
def pstep (late : Bool) (s : St) (t : Nat) (op : Op) : Option St :=
  match s.pc t with
  | .idle =>
    match op with
    | .post x => s.begin t false x
    | .prio x => s.begin t true x
    | .give x u => if s.owner x = some t then some { s with owner := upd s.owner x (some u) } else none
    | _ => none
  | .p0 b x => some { s with next := upd s.next x (s.top b), pc := upd s.pc t (.p1 b x) }
  | .p1 b x =>
    if s.top b = s.next x then
      let s' := s.push t b x
      some { s' with pc := upd s.pc t (if late then .p2 b x (s.top b) else .p3), uncounted := s.uncounted ++ [t] }
    else some { s with next := upd s.next x 0, pc := upd s.pc t (.p0 b x) }
  | .p2 b x old =>
    if old = s.next x then some { s with pc := upd s.pc t .p3 }
    else some { s with next := upd s.next x 0, pc := upd s.pc t (.p0 b x) }
  | .p3 => some { s with queueLen := s.queueLen + 1, uncounted := s.uncounted.erase t, pc := upd s.pc t .idle }

/-- The return from `prepareQueue`. -/
def Ret.pc : Ret → WPC
  | .next m => .g1 m
  | .flush => .g0 .rej
  | .cancel x => .c0 x

/-- After a message has been taken out: msgQueue.cpp:169-174, 231-235, 247-251. -/
def St.took (s : St) (x : Nat) (w : WPC) : St :=
  { s with next := upd s.next x 0, queueLen := s.queueLen - 1, owner := upd s.owner x (some 0), w := w }

/-- One transition of the worker. -/
def wstep (s : St) (op : Op) : Option St :=
  match s.w with
  | .idle =>
    match op with
    | .pump => some { s with w := .g0 .run, start := s.log.length }
    | .flush => some { s with w := .r0 .flush, start := s.log.length }
    | .cancel x => if x = 0 then some s else some { s with w := .r0 (.cancel x), start := s.log.length }
    | _ => none
  | .g0 m => some { s with w := if s.curTop = 0 then .r0 (.next m) else .g1 m }
  | .g1 m =>
    if s.curTop = 0 then some { s with w := .idle, log := s.log ++ [.none] } else some { s with w := .g2 m s.curTop }
  | .g2 m x => some { s with w := .g3 m x (s.next x) }
  | .g3 m x n =>
    if s.curTop = x then some { s with curTop := n, log := s.log ++ [m.ev x], w := .g5 m x } else some { s with w := .g4 m }
  | .g4 m =>
    if s.curTop = 0 then some { s with ub := true } else some { s with w := .g2 m s.curTop }
  | .g5 m x => some (s.took x (match m with | .run => .idle | .rej => .g0 .rej))
  | .r0 k => some { s with w := .r1 s.newTop k }
  | .r1 p k =>
    if s.newTop = p then some { s with newTop := 0, mark := s.log.length, w := .r2 p 0 k } else some { s with w := .r0 k }
  | .r2 p r k =>
    if p = 0 then some { s with w := .a0 r k } else some { s with next := upd s.next p r, w := .r2 (s.next p) p k }
  | .a0 r k =>
    if s.curTop = 0 then some { s with curTop := r, w := k.pc } else some { s with w := .a1 r k }
  | .a1 r k => if s.curTop = 0 then some { s with ub := true } else some { s with w := .a2 s.curTop r k }
  | .a2 q r k =>
    if s.next q = 0 then some { s with next := upd s.next q r, w := k.pc } else some { s with w := .a2 (s.next q) r k }
  | .c0 x =>
    if s.curTop = x then some { s with w := .c1 x }
    else if s.curTop = 0 then some { s with w := .idle }
    else some { s with w := .c3 x s.curTop (s.next s.curTop) }
  | .c1 x => some { s with w := .c2 x (s.next x) }
  | .c2 x n =>
    if s.curTop = x then some { s with curTop := n, log := s.log ++ [.rej x], w := .c4 x } else some { s with w := .c0 x }
  | .c3 x n p =>
    if p = 0 then some { s with w := .idle }
    else if p = x then some { s with next := upd s.next n (s.next p), log := s.log ++ [.rej x], w := .c4 x }
    else some { s with w := .c3 x p (s.next p) }
  | .c4 x => some (s.took x .idle)

/-- One transition of the worker (`none`) or a poster. -/
def step (late : Bool) (s : St) : Option Nat → Op → Option St
  | none, op => wstep s op
  | some t, op => pstep late s t op

/-- Reachable states from the empty queue, the messages being given to the posters by `o`. -/
inductive Reach (late : Bool) (o : Nat → Nat) : St → Prop
  | init : Reach late o { owner := fun x => some (o x) }
  | step {s s' a op} : Reach late o s → step late s a op = some s' → Reach late o s'

/-- Executes a schedule. -/
def exec (late : Bool) (s : St) : List (Option Nat × Op) → Option St
  | [] => some s
  | (a, op) :: l => match step late s a op with
    | none => none
    | some s' => exec late s' l

end LS.MsgQueue

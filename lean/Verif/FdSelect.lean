/-
The waiting for descriptors: `LinuxFdSelect`, base/linux/linuxFdSelect.cpp:22-288,
base/linux/linuxFdSelect.h:29-200, with the wake-up pipe.

Masks and events are records of bits. Descriptors are natural numbers, -1 of
`cancelIn`/`cancelOut`/`pendingWakeup` is `none`. The map `fdIndex` (an AVL tree, C06)
is a function. What `poll` answers is given from outside (`Poll`): the state of every
descriptor and the time behind the call; a call without an answer is a program that
waits. Times are numbers of milliseconds. Simplified: `poll` is not interrupted
(linuxFdSelect.cpp:270-273 calls it again), the waiting time is not cut to an `int`;
one thread (only `wakeUp` is called from elsewhere, between the calls).
-/

namespace LS.FdSelect

/-- `waitForInput`, `waitForOutput`, `waitForException`, netio_ifc.h:279-285; all false
is `waitTimeout`. -/
structure Mask where
  inp : Bool
  out : Bool
  exc : Bool
deriving DecidableEq

/-- The bits of `events` and `revents` of a `pollfd`. -/
structure Ev where
  inp : Bool
  out : Bool
  pri : Bool
  err : Bool
  hup : Bool
  nval : Bool
deriving DecidableEq

def Ev.none : Ev := ⟨false, false, false, false, false, false⟩

/-- `waitMaskToEvents`, linuxFdSelect.cpp:22-28. -/
def toEv (m : Mask) : Ev := ⟨m.inp, m.out, m.exc, false, false, false⟩

/-- `eventsToWaitMask`, linuxFdSelect.cpp:30-38. -/
def toMask (e : Ev) : Mask :=
  ⟨e.inp || e.hup || e.nval, e.out || e.nval, e.pri || e.nval⟩

structure PFd where
  fd : Nat
  ev : Ev
  rev : Ev
deriving DecidableEq

/-- `FdExtra`, linuxFdSelect.h:174-177; an infinite timeout is `none`. -/
structure Ext where
  data : Nat
  tm : Option Nat
deriving DecidableEq

/-- The members, linuxFdSelect.h:179-190, and the bytes in the pipe, and the descriptors that
were closed. -/
structure Sel where
  fds : List PFd
  ext : List Ext
  idx : Nat → Option Nat
  cur : Nat
  cin : Option Nat
  cout : Option Nat
  pend : Option Nat
  reason : Nat
  pipe : Nat
  closed : List Nat

/-- `naturalNull`. -/
def null : Nat := 18446744073709551615

/-- The constructor, linuxFdSelect.cpp:57-58. -/
def start : Sel := ⟨[], [], fun _ => none, null, none, none, none, 0, 0, []⟩

/-- `FdInfo`, linuxFdSelect.h:43-58. -/
structure Info where
  fd : Nat
  mask : Mask
  data : Nat
  tm : Option Nat
deriving DecidableEq

def upd (m : Nat → Option Nat) (k : Nat) (v : Option Nat) : Nat → Option Nat :=
  fun x => if x = k then v else m x

/-- `set`, linuxFdSelect.cpp:79-101. -/
def set (s : Sel) (f : Info) : Sel :=
  match s.idx f.fd with
  | none =>
    { s with fds := s.fds ++ [⟨f.fd, toEv f.mask, Ev.none⟩], ext := s.ext ++ [⟨f.data, f.tm⟩], idx := upd s.idx f.fd (some s.fds.length) }
  | some p =>
    { s with fds := s.fds.modify p (fun e => ⟨e.fd, toEv f.mask, Ev.none⟩), ext := s.ext.set p ⟨f.data, f.tm⟩ }

/-- `removeFd`, linuxFdSelect.cpp:148-162. -/
def removeFd (s : Sel) (p : Nat) : Sel :=
  match s.fds[p]?, s.fds.getLast?, s.ext.getLast? with
  | some e, some l, some x =>
    let s1 : Sel :=
      if p = s.fds.length - 1 then
        { s with idx := upd s.idx e.fd none, fds := s.fds.eraseIdx p, ext := s.ext.eraseIdx p }
      else
        { s with idx := upd (upd s.idx e.fd none) l.fd (some p), fds := (s.fds.set p l).eraseIdx (s.fds.length - 1), ext := (s.ext.set p x).eraseIdx (s.fds.length - 1) }
    { s1 with cur := if p < s1.cur then p else s1.cur }
  | _, _, _ => s

/-- `unset`, linuxFdSelect.cpp:68-77. -/
def unset (s : Sel) (fd : Nat) : Nat × Sel :=
  match s.idx fd with
  | some p => ((s.ext[p]?.map (·.data)).getD 0, removeFd s p)
  | none => (0, s)

/-- `isSet`, linuxFdSelect.cpp:178-180. -/
def isSet (s : Sel) (fd : Nat) : Bool := (s.idx fd).isSome

/-- `getData`, linuxFdSelect.cpp:182-197: the data and whether it exists. -/
def getData (s : Sel) (fd : Nat) : Nat × Bool :=
  match s.idx fd with
  | some p => ((s.ext[p]?.map (·.data)).getD 0, true)
  | none => (0, false)

/-- `hasItems`, linuxFdSelect.cpp:103-105. -/
def hasItems (s : Sel) : Bool := !s.fds.isEmpty

/-- `dropAll`, linuxFdSelect.cpp:141-146. -/
def dropAll (s : Sel) : Sel :=
  { s with cur := 0, fds := s.fds.map (fun e => { e with ev := Ev.none }) }

/-- An answer of `poll`. -/
structure Poll where
  ready : Nat → Ev
  now : Nat

/-- What `poll` writes to `revents`: the asked events, and the three that are always
told. -/
def answer (r ev : Ev) : Ev :=
  ⟨r.inp && ev.inp, r.out && ev.out, r.pri && ev.pri, r.err, r.hup, r.nval⟩

/-- `Timeout::expired`, mt/timeout.h:80-83. -/
def expired (tm : Option Nat) (now : Nat) : Bool :=
  match tm with
  | none => false
  | some t => decide (t < now)

/-- `Timeout::getRemain` in milliseconds, mt/timeout.h:104-108. -/
def remain (t now : Nat) : Nat := t - now

/-- The least remaining time of the descriptors, linuxFdSelect.cpp:247-257; `none` is
`naturalNull`. -/
def minTm (now : Nat) : List Ext → Option Nat → Option Nat
  | [], m => m
  | x :: r, m =>
    match x.tm with
    | none => minTm now r m
    | some t =>
      match m with
      | none => minTm now r (some (remain t now))
      | some k => minTm now r (some (if remain t now < k then remain t now else k))

/-- The time that `poll` may wait and `retMask`, linuxFdSelect.cpp:259-268. -/
def waitTm (s : Sel) (now : Nat) (tm : Option Nat) : Option Nat × Bool :=
  match tm with
  | none => (minTm now s.ext none, false)
  | some t =>
    match minTm now s.ext none with
    | none => (some (remain t now), true)
    | some k => if remain t now < k then (some (remain t now), true) else (some k, false)

/-- The loop behind `poll`, linuxFdSelect.cpp:278-282. -/
def mark (now : Nat) : List PFd → List Ext → List PFd
  | e :: es, x :: xs =>
    (if expired x.tm now || e.rev.err then { e with ev := Ev.none } else e) :: mark now es xs
  | es, _ => es

/-- `doWaitPoll`, linuxFdSelect.cpp:269-284. -/
def doPoll (p : Poll) (s : Sel) : Sel :=
  let fds := s.fds.map (fun e => { e with rev := answer (p.ready e.fd) e.ev })
  { s with fds := mark p.now fds s.ext, cur := 0 }

/-- The result of `doWaitPoll`: `(res == 0) && retMask`,
linuxFdSelect.cpp:285. -/
def pollTimedOut (p : Poll) (s : Sel) (mask : Bool) : Bool :=
  (s.fds.all (fun e => answer (p.ready e.fd) e.ev == Ev.none)) && mask

/-- The test of `findSignaled`, linuxFdSelect.cpp:168. -/
def signaled (e : PFd) : Bool := e.rev != Ev.none || e.ev == Ev.none

/-- The inner loop of `findSignaled`, linuxFdSelect.cpp:167-172: the place where it stops. -/
def seek (fds : List PFd) (cur : Nat) : Nat :=
  cur + ((fds.drop cur).takeWhile (fun e => !signaled e)).length

/-- How a call ends. -/
inductive Res where
  | info (i : Info) (s : Sel) (ps : List Poll)
  | noItems (s : Sel)
  | waits (s : Sel)
  | ub
  | hang (s : Sel)

/-- `findSignaled(false)`, linuxFdSelect.cpp:164-176, on a list that is not empty: the
state with the place in `cur`, and the answers of `poll` that are left. -/
def find : List Poll → Sel → Except Sel (Sel × List Poll)
  | [], s =>
    let s1 := { s with cur := seek s.fds s.cur }
    if s1.cur < s.fds.length then .ok (s1, []) else .error s1
  | p :: ps, s =>
    let s1 := { s with cur := seek s.fds s.cur }
    if s1.cur < s.fds.length then .ok (s1, p :: ps) else find ps (doPoll p s1)

/-- `peek`, linuxFdSelect.cpp:121-139. -/
def peek (ps : List Poll) (s : Sel) : Res :=
  if s.pend.isSome then
    match s.cin with
    | some c => .info ⟨c, ⟨true, false, false⟩, 0, some 0⟩ s ps
    | none => .ub
  else if s.fds.isEmpty then .noItems s
  else match find ps s with
  | .ok (s1, ps1) =>
    match s1.fds[s1.cur]?, s1.ext[s1.cur]? with
    | some e, some x => .info ⟨e.fd, toMask e.rev, x.data, x.tm⟩ s1 ps1
    | _, _ => .ub
  | .error s1 => .waits s1

/-- `getNext`, linuxFdSelect.cpp:107-119. The array is not checked (flatArray.h:81). -/
def getNext (ps : List Poll) (s : Sel) : Res :=
  match peek ps s with
  | .info i s1 ps1 =>
    if s1.cur < s1.fds.length then
      let s2 : Sel := { s1 with fds := s1.fds.modify s1.cur (fun e => { e with rev := Ev.none }), cur := s1.cur + 1 }
      if some i.fd = s2.cin && i.mask != ⟨false, false, false⟩ then
        if s2.pipe = 0 then .hang { s2 with pend := none }
        else .info i { s2 with pend := none, pipe := s2.pipe - 1 } ps1
      else .info i s2 ps1
    else .ub
  | o => o

/-- `waitForEvent`, linuxFdSelect.cpp:241-244; `now` is the time before the call. -/
def waitForEvent (p : Poll) (now : Nat) (tm : Option Nat) (s : Sel) : Bool × Sel :=
  let s1 := { s with cur := seek s.fds s.cur }
  if s1.cur < s.fds.length then (false, s1)
  else (pollTimedOut p s1 (waitTm s1 now tm).2, doPoll p s1)

/-- `enableWakeUp`, linuxFdSelect.cpp:202-221; `a`, `b` are the descriptors of a new pipe. -/
def enable (s : Sel) (a b : Nat) : Sel :=
  match s.cin, s.cout with
  | some c, some _ => set s ⟨c, ⟨true, false, false⟩, 0, none⟩
  | _, _ => set { s with cin := some a, cout := some b, pend := none, pipe := 0 } ⟨a, ⟨true, false, false⟩, 0, none⟩

def disable (s : Sel) : Sel :=
  match s.cin, s.cout with
  | some c, some d => { (unset s c).2 with closed := s.closed ++ [c, d] }
  | _, _ => s

/-- `wakeUp`, linuxFdSelect.cpp:223-230; only the first of several writes a byte. -/
def wakeUp (s : Sel) (r : Nat) : Sel :=
  match s.pend with
  | none => { s with reason := r, pend := some 0, pipe := if s.cout.isSome then s.pipe + 1 else s.pipe }
  | some n => { s with reason := r, pend := some (n + 1) }

/-- `isWakeUpRequest`, linuxFdSelect.cpp:232-239. -/
def isWakeUp (s : Sel) (i : Info) : Option Nat :=
  if some i.fd = s.cin then some s.reason else none

end LS.FdSelect

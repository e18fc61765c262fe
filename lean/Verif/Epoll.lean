/-
Waiting for many descriptors: `EPollSelect`, base/linux/epollSelect.cpp:25-247 (the same text, with `poll` in place of
`epoll`, is base/linux/pollSelect.cpp), with the heap of timeouts of base/containers/sort.tcc:35-103.

Simplified: flags are truth values; times are microseconds and `none` is the infinite time; a pointer into `timeoutMap` is
the index (as if the array never moved); a pointer to user data is a number, 0 is null. `kern` and `usable` are the
kernel: which events each descriptor is waited for, and which descriptors `epoll_ctl` takes (open and not a plain file).
The constructor and destructor (epollSelect.cpp:25-50) and negative descriptors (line 53) are not modelled.
-/

namespace LS.Epoll

/-- `waitForInput`, `waitForOutput`, `waitForException`, streams/netio_ifc.h:281-285. -/
structure Want where
  inp : Bool
  out : Bool
  exc : Bool
deriving DecidableEq

/-- Not zero. -/
def Want.any (w : Want) : Bool := w.inp || w.out || w.exc

/-- The flags 0. -/
def Want.zero : Want := ⟨false, false, false⟩

/-- EPOLLIN, EPOLLOUT, EPOLLPRI, EPOLLERR, EPOLLHUP. -/
structure Ev where
  inp : Bool
  out : Bool
  pri : Bool
  err : Bool
  hup : Bool
deriving DecidableEq

/-- `FdInfo`, epollSelect.h:87-95. -/
structure Fd where
  tm : Option Nat
  want : Want
  data : Nat
  ref : Option Nat
deriving DecidableEq

/-- `FdInfo()`. -/
def Fd.new : Fd := ⟨none, .zero, 0, none⟩

/-- The members and the kernel. -/
structure St where
  map : List Fd
  heap : List Nat
  kern : Nat → Option Ev
  usable : Nat → Bool
  wakes : Nat
  reason : Nat

/-- `socketMap[f]`. -/
def St.fd (s : St) (f : Nat) : Fd := s.map.getD f .new

/-- `socketMap(f) = d`. -/
def St.put (s : St) (f : Nat) (d : Fd) : St := { s with map := s.map.set f d }

/-- `owner->tmRef = …`. -/
def St.setRef (s : St) (f : Nat) (r : Option Nat) : St := s.put f { s.fd f with ref := r }

/-- `timeoutMap[i].owner`. -/
def St.own (s : St) (i : Nat) : Nat := s.heap.getD i 0

/-- `Timeout::lessThan`, mt/timeout.h:140-144. -/
def tmLess : Option Nat → Option Nat → Bool
  | none, _ => false
  | some _, none => true
  | some a, some b => decide (a < b)

/-- `Timeout::expired`, mt/timeout.h:82-85. -/
def expired (t : Option Nat) (now : Nat) : Bool :=
  match t with
  | none => false
  | some t => decide (t < now)

/-- `TimeoutCmp`, epollSelect.cpp:184-186, of two places of the heap. -/
def St.later (s : St) (i j : Nat) : Bool := tmLess (s.fd (s.own j)).tm (s.fd (s.own i)).tm

/-- `std::swap` of two places; the assignments of TmInfo (epollSelect.cpp:223-231) move the references. -/
def St.swap (s : St) (i j : Nat) : St :=
  let a := s.own i
  let b := s.own j
  (({ s with heap := (s.heap.set i b).set j a } : St).setRef b (some i)).setRef a (some j)

/-- The loop of `push`, sort.tcc:39-46. -/
def siftUp : Nat → St → Nat → St
  | 0, s, _ => s
  | n + 1, s, c =>
    if 0 < c then
      if s.later ((c - 1) / 2) c then siftUp n (s.swap ((c - 1) / 2) c) ((c - 1) / 2) else s
    else s

/-- The child that is chosen, sort.tcc:94-95. -/
def St.child (s : St) (size r : Nat) : Nat :=
  if 2 * r + 2 < size && s.later (2 * r + 1) (2 * r + 2) then 2 * r + 2 else 2 * r + 1

/-- `shiftDown`, sort.tcc:88-103. -/
def siftDown : Nat → Nat → St → Nat → St
  | 0, _, s, _ => s
  | n + 1, size, s, r =>
    if 2 * r + 1 < size then
      if s.later r (s.child size r) then siftDown n size (s.swap r (s.child size r)) (s.child size r) else s
    else s

/-- `pop(at)`, sort.tcc:68-80: repairs the heap from the root. -/
def popAt (s : St) (p : Nat) : St :=
  if p < s.heap.length - 1 then siftDown s.heap.length (s.heap.length - 1) (s.swap p (s.heap.length - 1)) 0 else s

/-- `removeOldTm`, epollSelect.cpp:208-216. -/
def removeOld (s : St) (f : Nat) : St :=
  match (s.fd f).ref with
  | none => s
  | some pos =>
    let s1 := s.setRef f none
    if s1.heap.length ≤ pos then s1
    else { popAt s1 pos with heap := (popAt s1 pos).heap.dropLast }

/-- `addNewTm`, epollSelect.cpp:188-196. -/
def addNew (s : St) (f : Nat) : St :=
  if (s.fd f).tm = none then s.setRef f none
  else siftUp s.heap.length (({ s with heap := s.heap ++ [f] } : St).setRef f (some s.heap.length)) s.heap.length

/-- How `set` ends: done, `InvalidParamException`, `ErrNoException`. -/
inductive SetAns where
  | ok | refused | failed
deriving DecidableEq

/-- `socketMap.resize`, epollSelect.cpp:57-68. -/
def St.grow (s : St) (f : Nat) : St :=
  { s with map := s.map ++ List.replicate (f + 1 - s.map.length) .new }

/-- The events that are asked for, epollSelect.cpp:81-86; errors and hang-ups are always told. -/
def Want.ev (w : Want) : Ev := ⟨w.inp, w.out, w.exc, true, true⟩

/-- `set` behind the tests, epollSelect.cpp:57-79. -/
def charge (s : St) (f : Nat) (w : Want) (tm : Option Nat) (d : Nat) : St :=
  let s1 := removeOld (s.grow f) f
  addNew (s1.put f ⟨tm, w, d, (s1.fd f).ref⟩) f

/-- `set`, epollSelect.cpp:52-100. -/
def set (s : St) (f : Nat) (w : Want) (tm : Option Nat) (d : Nat) : SetAns × St :=
  if 1024 < f ∧ s.map.length * 4 < f then (.refused, s)
  else
    let s1 := charge s f w tm d
    if s1.usable f then (.ok, { s1 with kern := fun x => if x = f then some w.ev else s1.kern x })
    else (.failed, s1)

/-- `unset`, epollSelect.cpp:198-200. -/
def unset (s : St) (f : Nat) : SetAns × St := set s f .zero none 0

/-- `getUserData`, epollSelect.cpp:202-206. -/
def getData (s : St) (f : Nat) : Nat := if s.map.length ≤ f then 0 else (s.fd f).data

/-- `wakeUp`, epollSelect.cpp:102-105. -/
def wakeUp (s : St) (r : Nat) : St := { s with reason := r, wakes := s.wakes + 1 }

/-- The loop over the timeouts, epollSelect.cpp:115-130: the descriptor that is told with its data, and the time `p`.
`none` as time: nothing in the heap. -/
def expire (now : Nat) : Nat → St → Option (Nat × Nat) × St × Option Nat
  | 0, s => (none, s, none)
  | n + 1, s =>
    match s.heap with
    | [] => (none, s, none)
    | o :: _ =>
      if expired (s.fd o).tm now then
        let s1 := removeOld s o
        if (s1.fd o).want.any then (some (o, (s1.fd o).data), s1.put o { s1.fd o with want := .zero }, none)
        else if s1.heap.isEmpty then (none, s1, (s.fd o).tm)
        else expire now n s1
      else (none, s, (s.fd o).tm)

/-- The answer of `epoll_wait`: EINTR, another error, the time is over (it is `t` when it is asked again), an event, the
pipe. -/
inductive Kern where
  | intr
  | fail
  | over (t : Nat)
  | ev (f : Nat) (e : Ev)
  | pipe
deriving DecidableEq

/-- How `wait` ends; `exn` is an exception (also of the top of an empty heap), `more` means that it still waits. -/
inductive Res where
  | timeout
  | event (f : Nat) (fl : Want) (d : Nat)
  | woken (r : Nat)
  | exn
  | more
deriving DecidableEq

/-- The flags of an event, epollSelect.cpp:168-170. -/
def Ev.flags (e : Ev) : Want := ⟨e.inp, e.out, e.pri || e.err⟩

/-- `finTm`, epollSelect.cpp:114, 131. -/
def finTm (tm p : Option Nat) : Option Nat := if tmLess p tm then p else tm

/-- The milliseconds of `epoll_wait`, epollSelect.cpp:135, mt/timeout.h:104-108, mt/linux/systime.h:97-100: rounded down;
`none` waits for ever. -/
def ms (t : Option Nat) (now : Nat) : Option Nat := t.map (fun t => if t < now then 0 else (t - now) / 1000)

/-- One turn of the loop of `wait` behind the timeouts, epollSelect.cpp:136-176. -/
def answer (s : St) (tm : Option Nat) : Kern → Res × St
  | .intr => (.more, s)
  | .fail => (.exn, s)
  | .over t =>
    if expired tm t then (.timeout, s)
    else match s.heap with
    | [] => (.exn, s)
    | o :: _ =>
      let s1 := removeOld s o
      (.event o .zero (s1.fd o).data, s1.put o { s1.fd o with want := .zero })
  | .ev f e =>
    let s1 := removeOld { s with kern := fun x => if x = f then some ⟨false, false, false, false, false⟩ else s.kern x } f
    if (s1.fd f).want.any then
      (.event f e.flags (s1.fd f).data, s1.put f { s1.fd f with want := .zero })
    else (.more, s1)
  | .pipe => (.woken s.reason, { s with wakes := s.wakes - 1 })

/-- One turn of the loop of `wait`, epollSelect.cpp:114-176. -/
def turn (s : St) (tm : Option Nat) (now : Nat) (k : Kern) : Res × St :=
  match expire now (s.heap.length + 1) s with
  | (some (o, d), s1, _) => (.event o .zero d, s1)
  | (none, s1, _) => answer s1 tm k

/-- `wait`, epollSelect.cpp:111-181, with the times and the answers of the turns. -/
def wait (tm : Option Nat) : List (Nat × Kern) → St → Res × St
  | [], s => (.more, s)
  | (now, k) :: ks, s =>
    match turn s tm now k with
    | (.more, s1) => wait tm ks s1
    | r => r

/-- `cancelAllVt`, epollSelect.cpp:233-244: the calls of the callback. -/
def cancelAll (s : St) : List (Nat × Nat) × St :=
  ((List.range s.map.length).filterMap (fun f => if (s.fd f).want.any then some (f, (s.fd f).data) else none),
   { s with map := s.map.map (fun d => if d.want.any then { d with want := .zero, ref := none } else d), heap := [] })

/-- The kernel forgets a descriptor that is closed. -/
def close (s : St) (f : Nat) : St :=
  { s with kern := fun x => if x = f then none else s.kern x, usable := fun x => if x = f then false else s.usable x }

/-- A descriptor is opened. -/
def open' (s : St) (f : Nat) : St := { s with usable := fun x => if x = f then true else s.usable x }

/-- Nothing registered. -/
def init : St := ⟨[], [], fun _ => none, fun _ => true, 0, 0⟩

/-- The calls, and what happens to descriptors. -/
inductive Op where
  | set (f : Nat) (w : Want) (tm : Option Nat) (d : Nat)
  | wait (tm : Option Nat) (ks : List (Nat × Kern))
  | wake (r : Nat)
  | cancel
  | close (f : Nat)
  | open' (f : Nat)

/-- One of them. -/
def step (s : St) : Op → St
  | .set f w tm d => (set s f w tm d).2
  | .wait tm ks => (wait tm ks s).2
  | .wake r => wakeUp s r
  | .cancel => (cancelAll s).2
  | .close f => close s f
  | .open' f => open' s f

/-- Any number of them. -/
def run (ops : List Op) : St := ops.foldl step init

/-- The events that `PollSelect::set` asks for, pollSelect.cpp:86-88. POLL_IN, POLL_OUT and POLL_PRI are the codes 1, 2, 5 of
the signal SIGPOLL (signal.h), not the bits POLLIN 1, POLLPRI 2, POLLOUT 4, POLLERR 8, POLLHUP 16 of `poll`. -/
def pollMask (w : Want) : Nat :=
  (if w.inp then 1 else 0) ||| (if w.out then 2 else 0) ||| (if w.exc then 5 else 0)

/-- The flags that `PollSelect::wait` tells, pollSelect.cpp:185-187; POLL_ERR is the code 4. -/
def pollFlags (rev : Nat) : Want :=
  ⟨rev &&& 1 != 0, rev &&& 2 != 0, rev &&& (5 ||| 4) != 0⟩

end LS.Epoll

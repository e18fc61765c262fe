import Verif.Epoll

/-
The listener for network events: `LinuxNetworkEventListener`, base/linux/networkEventListener.cpp:20-237 and
networkEventListener.h:23-95, over `EPollSelect` (`Epoll.lean`).

Simplified: one step is one message or one turn of the loop of the worker (there is one worker; starting and ending it,
networkEventListener.cpp:22-36, 44-62, are not modelled). A `FdData` is a number with its list of listeners in `mem`;
`none` is released memory and 0 is the null pointer. Times are absolute. The memory for a new `FdData` is always a new
number.
-/

namespace LS.NetListen

open LS.Epoll (Want St expired tmLess)

/-- `FdListener`, networkEventListener.h:47-54. -/
structure Lst where
  obs : Nat
  tm : Option Nat
  mask : Want
deriving DecidableEq

/-- The members: `fdSelect`, and the `FdData` that are allocated. -/
structure Net where
  poll : St
  mem : Nat → Option (List Lst)
  fresh : Nat

/-- How a step ends: `exn` is an exception that the worker reports and forgets, `ub` a use of released memory or of the
null pointer. -/
inductive Ans where
  | ok | exn | ub
deriving DecidableEq

/-- `waitMask |= e.waitMask`. -/
def or' (a b : Want) : Want := ⟨a.inp || b.inp, a.out || b.out, a.exc || b.exc⟩

/-- `res.flags & l.waitMask`. -/
def and' (a b : Want) : Want := ⟨a.inp && b.inp, a.out && b.out, a.exc && b.exc⟩

/-- The masks together, networkEventListener.cpp:127-133. -/
def masks (l : Lst) (ls : List Lst) : Want := ls.foldl (fun w e => or' w e.mask) l.mask

/-- The lowest time, networkEventListener.cpp:126, 130-131. -/
def lowest (l : Lst) (ls : List Lst) : Option Nat := ls.foldl (fun t e => if tmLess e.tm t then e.tm else t) l.tm

/-- `delete dta`. -/
def Net.free (n : Net) (d : Nat) : Net := { n with mem := fun x => if x = d then none else n.mem x }

/-- A changed list of listeners. -/
def Net.store (n : Net) (d : Nat) (ls : List Lst) : Net := { n with mem := fun x => if x = d then some ls else n.mem x }

/-- `updateFdData`, networkEventListener.cpp:122-141. -/
def update (n : Net) (d f : Nat) : Ans × Net :=
  match n.mem d with
  | none => (.ub, n)
  | some [] =>
    match LS.Epoll.unset n.poll f with
    | (.ok, p) => (.ok, { n with poll := p }.free d)
    | (_, p) => (.exn, { n with poll := p })
  | some (l :: ls) =>
    match LS.Epoll.set n.poll f (masks l ls) (lowest l ls) d with
    | (.ok, p) => (.ok, { n with poll := p })
    | (_, p) => (.exn, { n with poll := p })

/-- The first listener of the observer is erased, networkEventListener.cpp:87-92. -/
def drop (o : Nat) : List Lst → List Lst
  | [] => []
  | l :: ls => if l.obs = o then ls else l :: drop o ls

/-- The first listener of the observer is replaced, or a new one is added, networkEventListener.cpp:105-115. -/
def put (l : Lst) : List Lst → List Lst
  | [] => [l]
  | k :: ls => if k.obs = l.obs then l :: ls else k :: put l ls

/-- `doRequestWithSocket`, networkEventListener.cpp:81-120. -/
def request (n : Net) (l : Lst) (f : Nat) : Ans × Net :=
  let d := LS.Epoll.getData n.poll f
  if l.mask.any = false then
    if d = 0 then (.ok, n)
    else match n.mem d with
    | none => (.ub, n)
    | some ls => update (n.store d (drop l.obs ls)) d f
  else if d = 0 then
    match update ({ n with fresh := n.fresh + 1 }.store n.fresh [l]) n.fresh f with
    | (.ok, m) => (.ok, m)
    | (a, m) => (a, m.free n.fresh)
  else match n.mem d with
  | none => (.ub, n)
  | some ls => update (n.store d (put l ls)) d f

/-- `doRequest`, networkEventListener.cpp:72-79: all the sockets of the resource. -/
def requests (n : Net) (l : Lst) : List Nat → Ans × Net
  | [] => (.ok, n)
  | f :: fs =>
    match request n l f with
    | (.ok, m) => requests m l fs
    | r => r

/-- Is the listener told? networkEventListener.cpp:170-178. -/
def hit (fl : Want) (now : Nat) (l : Lst) : Bool := (and' fl l.mask).any || expired l.tm now

/-- The call for a listener that is told. -/
def call (fl : Want) (l : Lst) : Nat × Want := (l.obs, and' fl l.mask)

/-- The event branch of `workerProc`, networkEventListener.cpp:164-187: the answer, the wake-ups of the observers and the
state. When `updateFdData` throws, the calls are forgotten. -/
def event (n : Net) (f : Nat) (fl : Want) (d now : Nat) : Ans × List (Nat × Want) × Net :=
  if d = 0 then (.ub, [], n)
  else match n.mem d with
  | none => (.ub, [], n)
  | some ls =>
    match update (n.store d (ls.filter (fun l => !hit fl now l))) d f with
    | (.ok, m) => (.ok, (ls.filter (hit fl now)).map (call fl), m)
    | (a, m) => (a, [], m)

/-- One turn of `workerProc`, networkEventListener.cpp:154-197: `ks` are the answers of the kernel, `now` the time when the
listeners are looked at. Messages are steps of their own. -/
def work (n : Net) (ks : List (Nat × LS.Epoll.Kern)) (now : Nat) : Ans × List (Nat × Want) × Net :=
  match LS.Epoll.wait none ks n.poll with
  | (.event f fl d, p) => event { n with poll := p } f fl d now
  | (.exn, p) => (.exn, [], { n with poll := p })
  | (_, p) => (.ok, [], { n with poll := p })

/-- A message, or a turn of the loop. -/
inductive Op where
  | req (l : Lst) (f : Nat)
  | work (ks : List (Nat × LS.Epoll.Kern)) (now : Nat)

/-- One of them. -/
def step (n : Net) : Op → Net
  | .req l f => (request n l f).2
  | .work ks now => (work n ks now).2.2

/-- Nothing registered. -/
def init : Net := ⟨LS.Epoll.init, fun _ => none, 1⟩

/-- Any number of them. -/
def run (ops : List Op) : Net := ops.foldl step init

end LS.NetListen

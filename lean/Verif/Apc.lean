/-
The queue of messages for another thread: `AbstractAPC`, `IAPCServer`, `AbstractAPCServer`, mt/apc.h:29-159, for any number
of threads. One step is one access to the shared memory.

Simplified: messages are numbers, 0 is the null pointer; `lockCompareExchangePtr` (mt/linux/atomic.h:164-182) is one atomic
step that gives the old value; memory is sequentially consistent; calls to `run` and `rejected` are only recorded.
-/

namespace LS.Apc

/-- Where a thread is. -/
inductive Pc where
  | idle
  /-- `execute`, line 95: about to write the link; the message and `n`. -/
  | link (a n : Nat)
  /-- `execute`, line 96. -/
  | cas (a n : Nat)
  /-- `executeOne`, line 140. -/
  | load
  /-- `executeOne`, line 142. -/
  | test (k : Nat)
  /-- `executeOne`, line 143. -/
  | take (k : Nat)
  /-- `executeOne`, line 150. -/
  | walk (k : Nat)
  /-- `executeOne`, lines 153-156. -/
  | last (k : Nat)
  /-- `rejectAll`, lines 130-134. -/
  | reject (k : Nat)
deriving DecidableEq

/-- The memory, the threads, and what happened: calls of `execute` that returned (thread, message, answer), messages that
ran, messages that were rejected, calls of `executeQueue` and `rejectAll` that returned. -/
structure St where
  queue : Nat
  next : Nat → Nat
  pc : Nat → Pc
  rets : List (Nat × Nat × Bool)
  ran : List Nat
  rejected : List Nat
  done : List Nat

/-- A new server, lines 89, 32. -/
def init : St := ⟨0, fun _ => 0, fun _ => .idle, [], [], [], []⟩

/-- `setNext`, line 71. -/
def St.setNext (s : St) (p q : Nat) : St := { s with next := fun x => if x = p then q else s.next x }

/-- `getNext`, line 72: gives the message itself. -/
def St.getNext (_ : St) (p : Nat) : Nat := p

/-- The thread is at another place. -/
def St.at (s : St) (t : Nat) (c : Pc) : St := { s with pc := fun x => if x = t then c else s.pc x }

/-- `onExecute`, lines 118-120. -/
def St.exec (s : St) (k : Nat) : St := { s with ran := s.ran ++ [k] }

/-- `executeQueue` ends: `executeOne` gave false, line 108. -/
def St.finish (s : St) (t : Nat) : St := { s with done := s.done ++ [t] }.at t .idle

/-- One step of a thread. -/
def step (s : St) (t : Nat) : St :=
  match s.pc t with
  | .idle => s
  | .link a n => (s.setNext a n).at t (.cas a n)
  | .cas a n =>
    let o := s.queue
    let s1 : St := { s with queue := if s.queue = n then a else s.queue }
    if o = 0 then { s1 with rets := s1.rets ++ [(t, a, decide (n = 0))] }.at t .idle
    else s1.at t (.link a n)
  | .load => if s.queue = 0 then s.finish t else s.at t (.test s.queue)
  | .test k => if s.getNext k = 0 then s.at t (.take k) else s.at t (.walk k)
  | .take k =>
    let o := s.queue
    let s1 : St := { s with queue := if s.queue = k then 0 else s.queue }
    if o = k then (s1.exec k).finish t else s1.at t (.walk o)
  | .walk k => if s.getNext (s.getNext k) ≠ 0 then s.at t (.walk (s.getNext k)) else s.at t (.last k)
  | .last k => ((s.setNext k 0).exec (s.getNext k)).at t .load
  | .reject k =>
    if k = 0 then s.finish t
    else ({ s with rejected := s.rejected ++ [k] } : St).at t (.reject (s.getNext k))

/-- What can happen: a thread that does nothing calls `execute` (line 93 reads the queue), `executeQueue`, `rejectAll` (line
129; also the destructor), or a thread goes on. -/
inductive Op where
  | execute (t a : Nat)
  | executeQueue (t : Nat)
  | rejectAll (t : Nat)
  | go (t : Nat)

/-- One of them. -/
def act (s : St) : Op → St
  | .execute t a => if s.pc t = .idle ∧ a ≠ 0 then s.at t (.link a s.queue) else s
  | .executeQueue t => if s.pc t = .idle then s.at t .load else s
  | .rejectAll t => if s.pc t = .idle then s.at t (.reject s.queue) else s
  | .go t => step s t

/-- Any number of them. -/
def run (ops : List Op) : St := ops.foldl act init

end LS.Apc

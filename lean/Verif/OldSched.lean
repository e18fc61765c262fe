import Verif.Basic
/-
Message queue with timed messages: base/actions/schedulerOld.{h,cpp}.

One thread: the lists are taken and put back by single compare-exchange operations (see C42 for the queue below under concurrency).  A linked
list of messages is a list.
-/
namespace LS.OldSched

/-- schedulerOld.h:29-35: a message, with a time if it is an `AbstractEvent`; the tag tells messages apart. -/
structure Msg where
  time : Option Nat
  tag : Nat
deriving DecidableEq, Repr

/-- schedulerOld.cpp:87-105: the time relative to the current time, `(integer)(time - curTime)`, or zero. -/
def rel (cur : Nat) (m : Msg) : Int :=
  match m.time with
  | none => 0
  | some t => Int.bmod ((t : Int) - cur) (2 ^ 64)

/-- schedulerOld.cpp:77-110 `compareMsg`: is the answer `cmpResultLess`? -/
def less (cur : Nat) : Option Msg → Option Msg → Bool
  | none, _ => false
  | some _, none => true
  | some a, some b => rel cur a < rel cur b

/-- schedulerOld.cpp:113-151 `mergeSort`: the head, then the loop while one of the lists has a message.  `none`: a null pointer is used (two
empty lists). -/
def mergeLoop (cur : Nat) : Nat → List Msg → List Msg → Option (List Msg)
  | 0, a, b => if a = [] ∧ b = [] then some [] else none
  | k + 1, a, b =>
    if a = [] ∧ b = [] then some []
    else if less cur a.head? b.head? then
      match a with
      | [] => none
      | x :: a => (mergeLoop cur k a b).map (x :: ·)
    else
      match b with
      | [] => none
      | y :: b => (mergeLoop cur k a b).map (y :: ·)

def mergeSort (cur : Nat) (a b : List Msg) : Option (List Msg) :=
  if a = [] ∧ b = [] then none else mergeLoop cur (a.length + b.length) a b

/-- schedulerOld.cpp:62-65: the loop over the pairs; `none` also for an access outside of the buffer. -/
def passLoop (cur cnt : Nat) : Nat → List (List Msg) → Nat → Option (List (List Msg) × Nat)
  | 0, buff, i => if i < cnt then none else some (buff, i)
  | k + 1, buff, i =>
    if i < cnt then
      match buff[i - 1]?, buff[i]? with
      | some a, some b => (mergeSort cur a b).bind fun m => passLoop cur cnt k (buff.set (i / 2) m) (i + 2)
      | _, _ => none
    else some (buff, i)

/-- schedulerOld.cpp:68: the single item at the end. -/
def single (cnt : Nat) (r : List (List Msg) × Nat) : Option (List (List Msg)) :=
  if r.2 = cnt then
    match r.1[r.2 - 1]? with
    | none => none
    | some a => some (r.1.set (r.2 / 2) a)
  else some r.1

/-- schedulerOld.cpp:58-71: the passes. -/
def sortLoop (cur : Nat) : Nat → List (List Msg) → Nat → Option (List (List Msg))
  | 0, buff, cnt => if 1 < cnt then none else some buff
  | k + 1, buff, cnt =>
    if 1 < cnt then ((passLoop cur cnt cnt buff 1).bind (single cnt)).bind fun b => sortLoop cur k b ((cnt + 1) / 2)
    else some buff

/-- schedulerOld.cpp:37-74 `sortList`. -/
def sortList (cur : Nat) (p : List Msg) : Option (List Msg) :=
  if p.length < 2 then some p
  else (sortLoop cur p.length (p.map fun m => [m]) p.length).bind fun buff => buff[0]?

/-- msgQueue.h: `curQueue` and the stack `newMessages` (the newest first). -/
structure St where
  curQueue : List Msg
  newMessages : List Msg

/-- schedulerOld.cpp:8-35 `prepareQueue`; `appendQueue` then finds an empty queue (msgQueue.cpp:94-99). -/
def prepareQueue (cur : Nat) (s : St) : Option St :=
  if s.newMessages = [] then some s
  else (sortList cur s.newMessages).bind fun p => (mergeSort cur p s.curQueue).map fun q => ⟨q, []⟩

/-- schedulerOld.cpp:165-181 `getWaitTime() const`; `none` stands for `naturalNull`. -/
def waitTime (cur : Nat) (s : St) : Option Nat :=
  match s.curQueue with
  | [] => none
  | m :: _ =>
    match m.time with
    | none => some 0
    | some _ => some (if rel cur m < 0 then 0 else (rel cur m).toNat)

/-- schedulerOld.cpp:153-163 `pumpMessage` at a fixed time: the message which is run and the new state.  (`getWaitTime()` calls `prepareQueue`, 183-188, so
`newMessages` is empty afterwards and the loop ends in the first round.)  msgQueue.cpp:147-169 takes the first message. -/
def pump (cur : Nat) (s : St) : Option (Option Msg × St) :=
  (prepareQueue cur s).map fun t =>
    if waitTime cur t = some 0 then
      match t.curQueue with
      | [] => (none, t)
      | m :: q => (some m, { t with curQueue := q })
    else (none, t)

/-- msgQueue.cpp:111-130 `postMessage`. -/
def post (s : St) (m : Msg) : St := { s with newMessages := m :: s.newMessages }

/-- schedulerOld.cpp:202-206 `schedule`: the time is a 64-bit sum. -/
def schedule (cur : Nat) (s : St) (interval tag : Nat) : St := post s ⟨some ((cur + interval) % 2 ^ 64), tag⟩

end LS.OldSched

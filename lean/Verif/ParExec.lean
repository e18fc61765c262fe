import Verif.FastLock
/-
Parallel executor: base/actions/parallelExecutor.{h,cpp}.

A transition system: one transition is one access to the shared words.  `execute` and `stopAll` hold `executeLock`, so there is one caller at a time (C29).  Every
call of `execute` has a new number, which also stands for its action and its notifier.  The synchronization point is a stack of registered workers; a worker
which waits and is not in the stack has been notified (C38).  Timeouts may expire at any moment, except the infinite one.
Not modelled: `idleCount` (never read), the lists of workers for `join` and `delete`, exceptions, `execute` from a worker.
-/
namespace LS.ParExec
open LS.FastLock (upd)

/-- A worker, parallelExecutor.cpp:220-311. -/
inductive W where
  /-- no thread -/
  | off
  /-- 226: loop condition -/
  | top
  /-- 228 -/
  | take1
  /-- 237: before `add(slot)` -/
  | reg
  /-- 241 -/
  | take2
  /-- 247: before `remove(slot)` with an action -/
  | unreg (a : Nat)
  /-- 260 -/
  | wait
  /-- 265 -/
  | dec
  /-- 267 -/
  | take3
  /-- 278 -/
  | inc (a : Nat)
  /-- 205: the action is cloned, the caller not notified yet -/
  | notify (a : Nat)
  /-- 206-216 -/
  | exec (a : Nat)
  /-- 301, with the value of `cont` -/
  | chk (cont : Bool)
  /-- 303 -/
  | cas (cont : Bool) (p : Nat)
  /-- 310 -/
  | dead
deriving DecidableEq, Repr

/-- The caller. -/
inductive C where
  | idle
  /-- 113 -/
  | e1 (n : Nat)
  /-- 118 -/
  | e2 (n : Nat)
  /-- 120 -/
  | e3 (n : Nat)
  /-- 135 -/
  | e4 (n : Nat)
  /-- 144-186; `ct`; the flag tells whether the wait is unlimited because of 161 -/
  | loop (n : Nat) (ct unl : Bool)
  /-- 378, called from `execute` -/
  | started (n : Nat) (unl : Bool)
  /-- 378, called from `spawnThreads` -/
  | spawned
  /-- 165: before the exception -/
  | fail (n : Nat)
  /-- 189 -/
  | done (n : Nat)
  /-- 318 -/
  | s1
  /-- 319 -/
  | s2
  /-- 320 -/
  | s3
deriving DecidableEq, Repr

structure St where
  curAction : Option Nat := none
  callerNtf : Option Nat := none
  /-- `signaled` of the notifier of a call -/
  sig : Nat → Bool := fun _ => false
  count : Nat := 0
  maxThreads : Nat
  orderStop : Bool := false
  slots : List Nat := []
  w : Nat → W := fun _ => .off
  c : C := .idle
  /-- history: number of the calls so far, how often a worker took the action of a call, how often it ran, how the call ended -/
  calls : Nat := 0
  takes : Nat → Nat := fun _ => 0
  runs : Nat → Nat := fun _ => 0
  accepted : Nat → Bool := fun _ => false
  failed : Nat → Bool := fun _ => false

/-- Worker `i` continues at `p`. -/
def St.go (s : St) (i : Nat) (p : W) : St := { s with w := upd s.w i p }

/-- 228, 241, 267: `lockExchangePtr(&owner.curAction, 0)`: worker `i` continues at `p a` with an action, at `q` without. -/
def St.take (s : St) (i : Nat) (p : Nat → W) (q : W) : St :=
  match s.curAction with
  | none => s.go i q
  | some a => { s with curAction := none, takes := upd s.takes a (s.takes a + 1), w := upd s.w i (p a) }

/-- A transition; `inf` tells whether `maxWaitTimeout` is infinite. -/
inductive Tr (inf : Bool) : St → St → Prop where
  /-- 226: the conditions are read; `canFinish` may be set at any time while stopping -/
  | top (s : St) (i : Nat) (h : s.w i = .top) : Tr inf s (s.go i (if s.orderStop then .dead else .take1))
  | take1 (s : St) (i : Nat) (h : s.w i = .take1) : Tr inf s (s.take i .notify .reg)
  | reg (s : St) (i : Nat) (h : s.w i = .reg) : Tr inf s { s with slots := i :: s.slots, w := upd s.w i .take2 }
  | take2 (s : St) (i : Nat) (h : s.w i = .take2) : Tr inf s (s.take i .unreg .wait)
  | unreg (s : St) (i a : Nat) (h : s.w i = .unreg a) : Tr inf s { s with slots := s.slots.filter (· ≠ i), w := upd s.w i (.notify a) }
  /-- 260: notified -/
  | woken (s : St) (i : Nat) (h : s.w i = .wait) (hn : i ∉ s.slots) : Tr inf s (s.go i (.chk true))
  /-- 260-263: timeout, the slot is removed -/
  | timeout (s : St) (i : Nat) (h : s.w i = .wait) (hn : i ∈ s.slots) : Tr inf s { s with slots := s.slots.filter (· ≠ i), w := upd s.w i .dec }
  | dec (s : St) (i : Nat) (h : s.w i = .dec) : Tr inf s { s with count := s.count - 1, w := upd s.w i .take3 }
  | take3 (s : St) (i : Nat) (h : s.w i = .take3) : Tr inf s (s.take i .inc (.chk false))
  | inc (s : St) (i a : Nat) (h : s.w i = .inc a) : Tr inf s { s with count := s.count + 1, w := upd s.w i (.notify a) }
  /-- 205: the notifier which is registered now -/
  | notify (s : St) (i a n : Nat) (h : s.w i = .notify a) (hn : s.callerNtf = some n) : Tr inf s { s with sig := upd s.sig n true, w := upd s.w i (.exec a) }
  | exec (s : St) (i a : Nat) (h : s.w i = .exec a) : Tr inf s { s with runs := upd s.runs a (s.runs a + 1), w := upd s.w i (.chk true) }
  | chk (s : St) (i : Nat) (k : Bool) (h : s.w i = .chk k) : Tr inf s (s.go i (.cas k s.count))
  | cas (s : St) (i p : Nat) (k : Bool) (h : s.w i = .cas k p) (hp : s.maxThreads < p ∧ s.count = p) : Tr inf s { s with count := s.count - 1, w := upd s.w i .dead }
  | stay (s : St) (i p : Nat) (k : Bool) (h : s.w i = .cas k p) (hp : ¬ (s.maxThreads < p ∧ s.count = p)) : Tr inf s (s.go i (if k then .top else .dead))
  /-- 109-111: a new call -/
  | call (s : St) (h : s.c = .idle) : Tr inf s { s with c := .e1 s.calls, calls := s.calls + 1 }
  | e1 (s : St) (n : Nat) (h : s.c = .e1 n) : Tr inf s { s with orderStop := false, c := .e2 n }
  | e2 (s : St) (n : Nat) (h : s.c = .e2 n) : Tr inf s { s with callerNtf := some n, c := .e3 n }
  | e3 (s : St) (n : Nat) (h : s.c = .e3 n) : Tr inf s { s with curAction := some n, c := .e4 n }
  /-- 135: `notifyOne` takes the newest slot -/
  | e4 (s : St) (n : Nat) (h : s.c = .e4 n) : Tr inf s { s with slots := s.slots.tail, c := .loop n s.slots.isEmpty false }
  /-- 146-154, 174-181: `startNewThread`, the thread is started -/
  | start (s : St) (n i : Nat) (ct u : Bool) (h : s.c = .loop n ct u) (hm : s.count < s.maxThreads) (hi : s.w i = .off)
      (hr : ct = true ∨ s.count = 0 ∨ ∀ j, s.w j = .off ∨ s.w j = .dead) : Tr inf s { s with c := .started n u, w := upd s.w i .top }
  /-- 378 -/
  | started (s : St) (n : Nat) (u : Bool) (h : s.c = .started n u) : Tr inf s { s with count := s.count + 1, c := .loop n false false }
  /-- the same with the limit reached -/
  | nostart (s : St) (n : Nat) (ct u : Bool) (h : s.c = .loop n ct u) (hm : ¬ s.count < s.maxThreads)
      (hr : ct = true ∨ s.count = 0 ∨ ∀ j, s.w j = .off ∨ s.w j = .dead) : Tr inf s { s with c := .loop n false false }
  /-- 155-169: timeout -/
  | expire (s : St) (n : Nat) (h : s.c = .loop n false false) (hf : inf = false) :
      Tr inf s (match s.curAction with
        | none => { s with c := .loop n false true }
        | some _ => { s with curAction := none, c := .fail n })
  | fail (s : St) (n : Nat) (h : s.c = .fail n) : Tr inf s { s with callerNtf := none, failed := upd s.failed n true, c := .idle }
  /-- 183 -/
  | waited (s : St) (n : Nat) (ct u : Bool) (h : s.c = .loop n ct u) (hs : s.sig n = true) : Tr inf s { s with c := .done n }
  | done (s : St) (n : Nat) (h : s.c = .done n) : Tr inf s { s with callerNtf := none, accepted := upd s.accepted n true, c := .idle }
  /-- 313-325 `stopAll` -/
  | stop (s : St) (h : s.c = .idle) : Tr inf s { s with c := .s1 }
  | s1 (s : St) (h : s.c = .s1) : Tr inf s { s with orderStop := true, c := .s2 }
  | s2 (s : St) (h : s.c = .s2) : Tr inf s { s with slots := [], c := .s3 }
  /-- 320-324: all threads have ended, or timeout -/
  | s3 (s : St) (h : s.c = .s3) : Tr inf s { s with c := .idle }
  /-- 338-343 `spawnThreads`, while no `execute` runs -/
  | spawn (s : St) (i : Nat) (h : s.c = .idle) (hm : s.count < s.maxThreads) (hi : s.w i = .off) : Tr inf s { s with c := .spawned, w := upd s.w i .top }
  | spawned (s : St) (h : s.c = .spawned) : Tr inf s { s with count := s.count + 1, c := .idle }
  /-- 417-419 `finish`, without the lock -/
  | finish (s : St) : Tr inf s { s with orderStop := true }

/-- 327-332 `setMaxThreadCount`: the two accesses as one transition. -/
def setMax (s : St) (n : Nat) : St := { s with maxThreads := if n = 0 then 1 else n, slots := [] }

/-- Reachable from a new executor; `setMaxThreadCount` may be called at any time. -/
inductive Reach (inf : Bool) (m : Nat) : St → Prop where
  | init : Reach inf m { maxThreads := m }
  | step {s s' : St} : Reach inf m s → Tr inf s s' → Reach inf m s'
  | setMax {s : St} (n : Nat) : Reach inf m s → Reach inf m (setMax s n)

end LS.ParExec

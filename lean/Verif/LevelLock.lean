import Verif.Deque
/-!
# Model of `mt/rwlock.h` (`LevelLock`, `RWLock`)

Every operation runs under the internal `FastLock` (`protectInternals`, mutual exclusion is C29),
so one transition is one whole operation; waiting (`while (!s.signaled) threadHalt()`) is the time
between the request and its appearance in `holders`.
The chain from `qtop` along `next` is a list of the waiting slots, the oldest first; `qbot` is the
pointer to the slot that was appended last.  Writing through `qbot` when it is not the last slot of
the chain is undefined behaviour (the slot is gone).  Slots are numbered, levels are numbers.
`holders` is a history variable: granted requests which were not unlocked yet.
-/

namespace LS.LevelLock

structure St where
  q : List (Nat × Nat) := []
  qbot : Option Nat := none
  cur : Nat := 0
  use : Nat := 0
  holders : List (Nat × Nat) := []
deriving DecidableEq, Repr

inductive Op where
  | lock (id level : Nat)
  | tryLock (id level : Nat)
  | unlock (id : Nat)
  | cancel (id : Nat)
deriving DecidableEq, Repr

/-- rwlock.h:78-103 `lockAsync` (called by `lock`, 61-69). -/
def lockAsync (s : St) (id level : Nat) : Except Err St :=
  if s.qbot ≠ none ∨ (level ≠ s.cur ∧ s.use ≠ 0) then
    if s.q = [] then .ok { s with q := [(id, level)], qbot := some id }
    else if s.qbot = s.q.getLast?.map Prod.fst then
      .ok { s with q := s.q ++ [(id, level)], qbot := some id }
    else .error .ub
  else .ok { s with cur := level, use := s.use + 1, holders := s.holders ++ [(id, level)] }

/-- rwlock.h:134-147 `tryLock`. -/
def tryLock (s : St) (id level : Nat) : St :=
  if s.qbot ≠ none ∨ (level ≠ s.cur ∧ s.use ≠ 0) then s
  else { s with cur := level, use := s.use + 1, holders := s.holders ++ [(id, level)] }

/-- rwlock.h:168-182 `releaseTopThread`, for the slot `x` at the top and the rest `r`. -/
def releaseTop (s : St) (x : Nat × Nat) (r : List (Nat × Nat)) : St :=
  { s with cur := x.2, q := r, use := s.use + 1, holders := s.holders ++ [x] }

/-- rwlock.h:161-163: releases the slots of the current level at the top, `q` being the queue. -/
def releaseSame (s : St) : List (Nat × Nat) → St
  | [] => { s with q := [] }
  | x :: r => if x.2 = s.cur then releaseSame (releaseTop s x r) r else { s with q := x :: r }

/-- rwlock.h:150-166 `unlock` by the holder `x`. -/
def unlock (s : St) (x : Nat × Nat) : St :=
  let s := { s with use := s.use - 1, holders := s.holders.erase x }
  if s.use = 0 then
    match s.q with
    | [] => s
    | y :: r => releaseSame (releaseTop s y r) r
  else s

/-- rwlock.h:111-131 `cancelAsync`; `none` when the slot was never registered. -/
def cancel (s : St) (id : Nat) : Option (Except Err St) :=
  match s.holders.find? (fun x => x.1 = id) with
  | some x => some (.ok (unlock s x))
  | none =>
    if s.q.any (fun x => x.1 = id) then some (.ok { s with q := s.q.eraseP (fun x => x.1 = id) })
    else none

/-- One operation; `none` when the caller may not call it. -/
def step (s : St) : Op → Option (Except Err St)
  | .lock id level => some (lockAsync s id level)
  | .tryLock id level => some (.ok (tryLock s id level))
  | .unlock id => (s.holders.find? (fun x => x.1 = id)).map fun x => .ok (unlock s x)
  | .cancel id => cancel s id

/-- States reachable by operations allowed by `ok`, without undefined behaviour. -/
inductive Reach (ok : Op → Prop) : St → Prop
  | init : Reach ok {}
  | step {s s' op} : Reach ok s → ok op → step s op = some (.ok s') → Reach ok s'

end LS.LevelLock

/-
Locks held by scopes: `Synchronized` and `SyncReleased`, base/sync/synchronize.h:27-84, and `TrySynchronized`,
base/sync/trysynchronized.h:51-59, with the locks `FastLock` and `FastLockR`, mt/fastlock.h:57-288.

Simplified: the view of one thread; the state is how many times it holds the lock. A lock held by other threads is given up
some time, so `lock` waits and gets it; whether it is free at a `tryLock` is written in the program. Programs are trees of
scopes; `act` is any statement, it records how many times the lock is held there. The variants with `Spec` (synchronize.h:
87-143) do the same with an argument.
-/

namespace LS.Scopes

/-- A program: statements in scopes of lock objects. -/
inductive Prog where
  /-- a statement -/
  | act
  /-- a statement that throws -/
  | throw
  | seq (p q : Prog)
  /-- `try { p } catch (...) {}` -/
  | catch (p : Prog)
  /-- `{ Synchronized<T> _(lk); p }` -/
  | sync (p : Prog)
  /-- `{ Synchronized<T> _(lk, tryLock); p }`; the flag: no other thread holds the lock -/
  | syncTry (free : Bool) (p : Prog)
  /-- `{ Synchronized<T> _(other); p }`, the copy of a lock object -/
  | copied (p : Prog)
  /-- `{ SyncReleased<T> _(lk); p }` -/
  | released (p : Prog)
  /-- `{ TrySynchronized<T> _(lk); p }` -/
  | trySync (free : Bool) (p : Prog)

/-- How a program ends. -/
inductive Out where
  | fin
  | exn
  /-- it waits for ever -/
  | hang
  /-- undefined behaviour -/
  | ub
deriving DecidableEq

/-- Result: how it ends, how many times the lock is held, what the statements saw. -/
abbrev Res := Out × Nat × List Nat

/-- `lock`, fastlock.h:213-227 for the recursive lock (`r`); the other waits for itself. `none`: for ever. -/
def lock (r : Bool) (d : Nat) : Option Nat := if d = 0 then some 1 else if r then some (d + 1) else none

/-- `tryLock`, fastlock.h:245-265 for the recursive lock. `none`: false. -/
def tryLock (r : Bool) (free : Bool) (d : Nat) : Option Nat :=
  if d = 0 then (if free then some 1 else none) else if r then some (d + 1) else none

/-- `unlock`, fastlock.h:272-287 for the recursive lock, which does nothing when it is not held; the other is not to be
unlocked then. `none`: undefined behaviour. -/
def unlock (r : Bool) (d : Nat) : Option Nat := if d = 0 then (if r then some 0 else none) else some (d - 1)

/-- The end of a scope whose destructor unlocks, synchronize.h:48-50. -/
def endSync (r : Bool) : Res → Res
  | (.hang, d, t) => (.hang, d, t)
  | (.ub, d, t) => (.ub, d, t)
  | (o, d, t) => match unlock r d with
    | none => (.ub, d, t)
    | some d' => (o, d', t)

/-- The end of a scope whose destructor locks, synchronize.h:77-79. -/
def endReleased (r : Bool) : Res → Res
  | (.hang, d, t) => (.hang, d, t)
  | (.ub, d, t) => (.ub, d, t)
  | (o, d, t) => match lock r d with
    | none => (.hang, d, t)
    | some d' => (o, d', t)

/-- Runs a program. -/
def run (r : Bool) : Prog → Nat → Res
  | .act, d => (.fin, d, [d])
  | .throw, d => (.exn, d, [])
  | .seq p q, d => match run r p d with
    | (.fin, d', t) => ((run r q d').1, (run r q d').2.1, t ++ (run r q d').2.2)
    | x => x
  | .catch p, d => match run r p d with
    | (.exn, d', t) => (.fin, d', t)
    | x => x
  -- synchronize.h:39-41
  | .sync p, d => match lock r d with
    | none => (.hang, d, [])
    | some d' => endSync r (run r p d')
  -- synchronize.h:43-45
  | .syncTry free p, d => match tryLock r free d with
    | none => (.exn, d, [])
    | some d' => endSync r (run r p d')
  -- synchronize.h:52-54; `lockR` is `lock`, fastlock.h:233-235, other locks have none
  | .copied p, d => match lock r d with
    | none => (.hang, d, [])
    | some d' => endSync r (run r p d')
  -- synchronize.h:73-75
  | .released p, d => match unlock r d with
    | none => (.ub, d, [])
    | some d' => endReleased r (run r p d')
  -- trysynchronized.h:55-58: the base class locks, then it is tried once more; a throw there destroys the base
  | .trySync _ p, d => match lock r d with
    | none => (.hang, d, [])
    | some d' => match tryLock r true d' with
      | none => endSync r (.exn, d', [])
      | some d'' => endSync r (run r p d'')

end LS.Scopes

/-
Locking several locks at once: `MultiLock2` and `MultiLock3`, base/sync/multilock.h:14-134.

Simplified: the header is not valid C++ (`byter` in line 18; the base class of `MultiLock3` without its arguments in line 40);
`byter` is read as `byte`, and the lock types are references, so that the parameters taken by value (lines 26, 40) do not
dangle. Locks are their addresses. Locks are plain: a thread waits for a lock that any thread holds, itself, too.
-/

namespace LS.MultiLock

/-- The locks of a multilock. -/
inductive Multi where
  | two (a b : Nat)
  | three (a b c : Nat)
deriving DecidableEq

/-- The order in which `MultiLock2::lock` locks, multilock.h:54-62. -/
def order2 (a b : Nat) : List Nat := if a < b then [a, b] else [b, a]

/-- The order in which `MultiLock3::lock` locks, multilock.h:82-124. -/
def order3 (a b c : Nat) : List Nat :=
  if a < b then
    if a < c then
      if b < c then [a, b, c] else [a, c, b]
    else
      if a < b then [c, a, b] else [c, b, a]
  else
    if b < c then
      if a < c then [b, a, c] else [b, c, a]
    else [c, b, a]

/-- `lock`. -/
def Multi.locks : Multi → List Nat
  | .two a b => order2 a b
  | .three a b c => order3 a b c

/-- What is held after `unlock`, multilock.h:65-68; the one of `MultiLock3`, 127-129, is empty. -/
def Multi.unlock (held : List Nat) : Multi → List Nat
  | .two a b => held.filter fun x => x != a && x != b
  | .three _ _ _ => held

/-- A thread: what it holds, what it still has to lock, its multilock, the multilocks it locks and unlocks later. -/
structure Th where
  held : List Nat
  want : List Nat
  cur : Option Multi
  later : List Multi
deriving DecidableEq

/-- A step of thread `i`; `none`: it waits, or is finished. -/
def step (s : List Th) (i : Nat) : Option (List Th) :=
  match s[i]? with
  | none => none
  | some t =>
    match t.want with
    | x :: w =>
      if s.any (fun u => u.held.contains x) then none
      else some (s.set i { t with held := t.held ++ [x], want := w })
    | [] =>
      match t.cur with
      | some m => some (s.set i { t with held := m.unlock t.held, cur := none })
      | none =>
        match t.later with
        | [] => none
        | m :: l => some (s.set i { t with want := m.locks, cur := some m, later := l })

/-- Threads before their first step. -/
def init (ps : List (List Multi)) : List Th := ps.map fun p => ⟨[], [], none, p⟩

/-- Steps of the threads in any order; a thread that waits makes no step. -/
def run : List Nat → List Th → List Th
  | [], s => s
  | i :: l, s => run l ((step s i).getD s)

/-- Result of `tryLock`. -/
inductive Try where
  | no (held : List Nat)
  /-- it ends without a return -/
  | ub
deriving DecidableEq

/-- `MultiLock2::tryLock`, multilock.h:71-79, where `free` says which locks are free; on success nothing is returned. -/
def tryLock2 (free : Nat → Bool) (a b : Nat) : Try :=
  if a < b then
    if !free a then .no []
    else if !free b then .no ([a].filter (· != a))
    else .ub
  else
    if !free b then .no []
    else if !free a then .no ([b].filter (· != b))
    else .ub

end LS.MultiLock

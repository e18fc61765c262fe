/-
The pool of memory blocks used by several threads.

Source: /repo/src/lightspeed/base/memory/poolalloc.h:8-103.

Every access to a shared variable is one step of a thread. `SList` push and pop
are one step each (mt/slist.h; properties C39 and C72 are about it). Sizes are
in bytes; `sizeof(BlockBase)` is 8 and `sizeof(Block)` is 16.

Simplified: `largestAlloc` and `destroyed` are plain variables, so two threads
that use them at the same time are already a data race; the model gives them
the order of some interleaving. The object itself is not destroyed while it is
used.
-/
namespace LS.PoolAlloc

/-- Where a thread is. `q` is the size the caller asked for, `r` the adjusted
size. -/
inductive PC where
  | idle
  /-- poolalloc.h:32 before `lockInc(refs)` -/
  | aInc (q : Nat)
  /-- poolalloc.h:36 and 50 before `pop` -/
  | aPop (q r : Nat)
  /-- poolalloc.h:43 with a block -/
  | aChk (q r b : Nat)
  /-- poolalloc.h:45 before `operator delete` -/
  | aDel (q r b : Nat)
  /-- poolalloc.h:53 before reading `largestAlloc` -/
  | aCmp1 (q r : Nat)
  /-- poolalloc.h:53 before writing it -/
  | aSet (q r : Nat)
  /-- poolalloc.h:54 before reading it for the comparison -/
  | aCmp2 (q r : Nat)
  /-- poolalloc.h:54 before reading it for the assignment -/
  | aGet (q r : Nat)
  /-- poolalloc.h:57 before `operator new` for `z` bytes -/
  | aNew (q z : Nat)
  /-- poolalloc.h:68 before reading `destroyed` -/
  | dChk (b : Nat)
  /-- poolalloc.h:69 -/
  | dDel (b : Nat)
  /-- poolalloc.h:71 -/
  | dPush (b : Nat)
  /-- poolalloc.h:92 before `lockDec(refs)` -/
  | rDec
  /-- poolalloc.h:81 before `pop` -/
  | fPop
  /-- poolalloc.h:82 -/
  | fDel (b : Nat)
  /-- poolalloc.h:94 -/
  | fSet
  deriving DecidableEq, Repr

/-- Blocks are numbered in the order of their creation. `live` are blocks the
program has, with the size it asked for; `lost` counts the allocations that
ended with an exception; `owner` is the reference the pool is created with. -/
structure St where
  n : Nat
  size : Nat → Nat
  list : List Nat
  live : List (Nat × Nat)
  freed : List Nat
  refs : Nat
  destroyed : Bool
  largest : Nat
  owner : Bool
  lost : Nat
  thr : List PC

/-- poolalloc.h:77 the constructor, used by `k` threads. -/
def new (k : Nat) : St := ⟨0, fun _ => 0, [], [], [], 1, false, 0, true, 0, List.replicate k .idle⟩

/-- What a thread does next. -/
inductive Act where
  /-- an idle thread calls `alloc(q)` -/
  | alloc (q : Nat)
  /-- an idle thread calls `dealloc` with a block it has -/
  | dealloc (b : Nat)
  /-- an idle thread calls `release` for the owner -/
  | release
  /-- the next step; `ok` tells whether `operator new` succeeds -/
  | go (ok : Bool)
  deriving DecidableEq, Repr

/-- Result of a step: not possible, undefined behaviour, a state. -/
inductive Out where
  | stuck
  | ub
  | ok (s : St)

def St.pc (s : St) (i : Nat) (p : PC) : St := { s with thr := s.thr.set i p }

/-- poolalloc.h:34 -/
def adjust (q : Nat) : Nat := if q < 8 then 8 else q

/-- poolalloc.h:57-61: the size is computed in 64 bits; the block must at least
have room for what was computed. -/
def opNew (s : St) (i q z : Nat) (ok : Bool) : Out :=
  if !ok then .ok { s.pc i .idle with lost := s.lost + 1 }
  else if (8 + z) % 2 ^ 64 < 8 + z then .ub
  else .ok { s.pc i .idle with n := s.n + 1, size := fun b => if b = s.n then z else s.size b, live := (s.n, q) :: s.live }

/-- One step of thread `i` at `p`. -/
def go (s : St) (i : Nat) (ok : Bool) : PC → Out
  | .idle => .stuck
  | .aInc q => .ok { s.pc i (.aPop q (adjust q)) with refs := s.refs + 1 }
  | .aPop q r =>
    match s.list with
    | [] => .ok (s.pc i (.aCmp1 q r))
    | b :: l => .ok { s.pc i (.aChk q r b) with list := l }
  | .aChk q r b =>
    if s.size b < r then .ok (s.pc i (.aDel q r b))
    else .ok { s.pc i .idle with live := (b, q) :: s.live }
  | .aDel q r b => .ok { s.pc i (.aPop q r) with freed := b :: s.freed }
  | .aCmp1 q r => .ok (s.pc i (if r > s.largest then .aSet q r else .aCmp2 q r))
  | .aSet q r => .ok { s.pc i (.aNew q r) with largest := r }
  | .aCmp2 q r => .ok (s.pc i (if r < s.largest then .aGet q r else .aNew q r))
  | .aGet q _ => .ok (s.pc i (.aNew q s.largest))
  | .aNew q z => opNew s i q z ok
  | .dChk b => .ok (s.pc i (if s.destroyed then .dDel b else .dPush b))
  | .dDel b => .ok { s.pc i .rDec with freed := b :: s.freed }
  | .dPush b => .ok { s.pc i .rDec with list := b :: s.list }
  | .rDec => .ok { s.pc i (if s.refs = 1 then .fPop else .idle) with refs := s.refs - 1 }
  | .fPop =>
    match s.list with
    | [] => .ok (s.pc i .fSet)
    | b :: l => .ok { s.pc i (.fDel b) with list := l }
  | .fDel b => .ok { s.pc i .fPop with freed := b :: s.freed }
  | .fSet => .ok { s.pc i .idle with destroyed := true }

/-- A step of thread `i`. -/
def step (s : St) (i : Nat) (a : Act) : Out :=
  match s.thr[i]? with
  | none => .stuck
  | some p =>
    match a with
    | .go ok => go s i ok p
    | .alloc q => if p = .idle then .ok (s.pc i (.aInc q)) else .stuck
    | .dealloc b =>
      match s.live.find? (fun x => x.1 = b) with
      | none => .stuck
      | some x => if p = .idle then .ok { s.pc i (.dChk b) with live := s.live.erase x } else .stuck
    | .release => if p = .idle ∧ s.owner = true then .ok { s.pc i .rDec with owner := false } else .stuck

/-- A history of the threads. -/
def run (s : St) : List (Nat × Act) → Out
  | [] => .ok s
  | (i, a) :: l =>
    match step s i a with
    | .ok s' => run s' l
    | .stuck => .stuck
    | .ub => .ub

end LS.PoolAlloc

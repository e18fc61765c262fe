import Verif.FastLock
/-
Pool of resources: base/containers/resourcePool.{h,cpp}.

A transition system: one transition is one access to `curLimit` or one section under `queueLock` (C29).  The synchronization point is the list of waiting
operations, the newest first; a slot is taken from it, gets its payload and is notified under the lock, and the owner of the slot reads the payload after it took
the lock in `remove` (C38).  Operations (calls of `acquire`, `release` and `setLimit`) are numbered; a resource has a number which is never used again.  Whether a
resource is expired, whether a wait times out and whether `createResource` throws is free in every step.
Simplified: `curLimit` and `limit` are integers without overflow.  Not modelled: destructor of the pool, the sharing of one resource by several pointers (C49).
-/
namespace LS.ResPool
open LS.FastLock (upd)

/-- An operation. -/
inductive P where
  /-- not running -/
  | idle
  /-- `acquire`, top of the loop 74, before the lock is taken -/
  | lk
  /-- 80: the limit was positive, the lock is released -/
  | mk
  /-- 84: resource created -/
  | dec (r : Nat)
  /-- 98: waiting, or between the wait and `remove` -/
  | wt
  /-- 105: payload received -/
  | gv (r : Nat)
  /-- 120 -/
  | del (r : Nat)
  /-- 122 -/
  | inc
  /-- `release`, 158 -/
  | rchk (r : Nat)
  /-- 160 -/
  | rdel (r : Nat)
  /-- 162 -/
  | rinc
  /-- 165 -/
  | rlk (r : Nat)
  /-- `setLimit`, 143: the argument is computed -/
  | sub (d : Int)
deriving DecidableEq, Repr

structure St where
  /-- idle resources, resourcePool.h:98 -/
  pool : List Nat := []
  /-- `curLimit`, resourcePool.h:100 -/
  lim : Int
  /-- slots of `SyncPt`, newest first -/
  q : List Nat := []
  pc : Nat → P := fun _ => .idle
  /-- resources returned by `acquire` and not passed to `release` yet -/
  held : List Nat := []
  /-- number of the next created resource -/
  fresh : Nat := 0

/-- Control of operation `i` goes to `p`. -/
def St.go (s : St) (i : Nat) (p : P) : St := { s with pc := upd s.pc i p }

/-- What is allowed to happen: `createResource` throws; `setLimit` is called. -/
structure Cfg where
  /-- `limit`, resourcePool.h:103; never changed after the constructor (141 and 144 assign the parameter) -/
  limit : Nat
  /-- number of concurrent operations -/
  n : Nat
  throws : Bool := true
  set : Bool := true

/-- Steps of the operations. -/
inductive Tr (cf : Cfg) : St → St → Prop
  /-- resourcePool.cpp:67 -/
  | acquire (s : St) (i : Nat) (hi : i < cf.n) (h : s.pc i = .idle) : Tr cf s (s.go i .lk)
  /-- 110-112, 127, 134: resource taken from the pool -/
  | pop (s : St) (i r : Nat) (p : List Nat) (hi : i < cf.n) (h : s.pc i = .lk) (hp : s.pool = r :: p) :
      Tr cf s { s with pool := p, held := r :: s.held, pc := upd s.pc i .idle }
  /-- 110-118: the resource is expired -/
  | popExp (s : St) (i r : Nat) (p : List Nat) (hi : i < cf.n) (h : s.pc i = .lk) (hp : s.pool = r :: p) :
      Tr cf s { s with pool := p, pc := upd s.pc i (.del r) }
  /-- 74-78 -/
  | room (s : St) (i : Nat) (hi : i < cf.n) (h : s.pc i = .lk) (hp : s.pool = []) (hl : s.lim > 0) : Tr cf s (s.go i .mk)
  /-- 80 -/
  | create (s : St) (i : Nat) (hi : i < cf.n) (h : s.pc i = .mk) : Tr cf s { s with fresh := s.fresh + 1, pc := upd s.pc i (.dec s.fresh) }
  /-- 80: exception -/
  | throw (s : St) (i : Nat) (hi : i < cf.n) (h : s.pc i = .mk) (ht : cf.throws = true) : Tr cf s (s.go i .idle)
  /-- 84-86 -/
  | dec (s : St) (i r : Nat) (hi : i < cf.n) (h : s.pc i = .dec r) : Tr cf s { s with lim := s.lim - 1, held := r :: s.held, pc := upd s.pc i .idle }
  /-- 89-94 -/
  | wait (s : St) (i : Nat) (hi : i < cf.n) (h : s.pc i = .lk) (hp : s.pool = []) (hl : ¬ s.lim > 0) :
      Tr cf s { s with q := i :: s.q, pc := upd s.pc i .wt }
  /-- 100-102: timeout -/
  | timeout (s : St) (i : Nat) (hi : i < cf.n) (h : s.pc i = .wt) (hq : i ∈ s.q) : Tr cf s { s with q := s.q.erase i, pc := upd s.pc i .idle }
  /-- 105, 127, 134 -/
  | given (s : St) (i r : Nat) (hi : i < cf.n) (h : s.pc i = .gv r) : Tr cf s { s with held := r :: s.held, pc := upd s.pc i .idle }
  /-- 105, 116-118 -/
  | givenExp (s : St) (i r : Nat) (hi : i < cf.n) (h : s.pc i = .gv r) : Tr cf s (s.go i (.del r))
  /-- 120 -/
  | del (s : St) (i r : Nat) (hi : i < cf.n) (h : s.pc i = .del r) : Tr cf s (s.go i .inc)
  /-- 122-132 -/
  | inc (s : St) (i : Nat) (hi : i < cf.n) (h : s.pc i = .inc) : Tr cf s { s with lim := s.lim + 1, pc := upd s.pc i .lk }
  /-- 156 -/
  | release (s : St) (i r : Nat) (hi : i < cf.n) (h : s.pc i = .idle) (hr : r ∈ s.held) :
      Tr cf s { s with held := s.held.erase r, pc := upd s.pc i (.rchk r) }
  /-- 158 -/
  | rchk (s : St) (i r : Nat) (hi : i < cf.n) (h : s.pc i = .rchk r) : Tr cf s (s.go i (if s.lim < 0 then .rdel r else .rlk r))
  /-- 160 -/
  | rdel (s : St) (i r : Nat) (hi : i < cf.n) (h : s.pc i = .rdel r) : Tr cf s (s.go i .rinc)
  /-- 162 -/
  | rinc (s : St) (i : Nat) (hi : i < cf.n) (h : s.pc i = .rinc) : Tr cf s { s with lim := s.lim + 1, pc := upd s.pc i .idle }
  /-- 165-173 -/
  | store (s : St) (i r : Nat) (hi : i < cf.n) (h : s.pc i = .rlk r) (hq : s.q = []) : Tr cf s { s with pool := r :: s.pool, pc := upd s.pc i .idle }
  /-- 165-178: the oldest slot gets the resource -/
  | give (s : St) (i r j : Nat) (p : List Nat) (hi : i < cf.n) (h : s.pc i = .rlk r) (hq : s.q = p ++ [j]) :
      Tr cf s { s with q := p, pc := upd (upd s.pc i .idle) j (.gv r) }
  /-- 139-140 -/
  | raise (s : St) (m : Nat) (hs : cf.set = true) (hm : m > cf.limit) : Tr cf s { s with lim := s.lim + (m - cf.limit) }
  /-- 142-143: the argument `limit - curLimit` -/
  | lower (s : St) (i m : Nat) (hs : cf.set = true) (hm : m < cf.limit) (hi : i < cf.n) (h : s.pc i = .idle) : Tr cf s (s.go i (.sub (cf.limit - s.lim)))
  /-- 143 -/
  | sub (s : St) (i : Nat) (d : Int) (hi : i < cf.n) (h : s.pc i = .sub d) : Tr cf s { s with lim := s.lim - d, pc := upd s.pc i .idle }

/-- The constructor, 31-36. -/
def St.init (cf : Cfg) : St := { lim := cf.limit }

inductive Reach (cf : Cfg) : St → Prop
  | init : Reach cf (St.init cf)
  | step {s s' : St} : Reach cf s → Tr cf s s' → Reach cf s'

end LS.ResPool

import Verif.FastLock
/-!
# Model of `mt/slist.h` (`SList<T, 16>`)

A thread does one atomic memory access per transition.  A node is a number, 0 is the null pointer;
the word `_top` (slist.h:182) is a pointer with a cookie of four bits in its low bits
(`cookieToPtr`, `ptrToCookie`, slist.h:185-193; alignment 16), it is modelled as a pair.  Nodes are
never given back to the allocator, so `ptop->next` of a node popped meanwhile can be read
(slist.h:71); a program which frees popped nodes needs more than this.
-/

namespace LS.SList
open LS.FastLock (upd)

/-- Where a thread is. `c`, `k` are the pointer and the cookie in `ctop`. -/
inductive PC where
  | idle
  /-- slist.h:49: `push(x)` before reading `_top` -/
  | pu0 (x : Nat)
  /-- slist.h:53: before `itm->next = cookieToPtr(ctop)` -/
  | pu1 (x c k : Nat)
  /-- slist.h:54: before the compare and exchange -/
  | pu2 (x c k : Nat)
  /-- slist.h:69: `pop` before reading `_top` -/
  | po0
  /-- slist.h:74: before reading `ptop->next` -/
  | po1 (c k : Nat)
  /-- slist.h:76: before the compare and exchange, `pnext` is `n` -/
  | po2 (c k n : Nat)
deriving DecidableEq, Repr

inductive Op where
  | push (x : Nat)
  | pop
  /-- `t.take(*this)` with `t` a list of the calling thread, empty and never used -/
  | take
  /-- the thread gives its node `x` to thread `u` -/
  | give (x u : Nat)
deriving DecidableEq, Repr

/-- What an operation did, in the order of the atomic accesses which took effect. -/
inductive Ev where
  | push (x : Nat)
  | pop (r : Option Nat)
  | take (l : List Nat)
deriving DecidableEq, Repr

structure St where
  /-- `_top` -/
  top : Nat × Nat := (0, 0)
  /-- field `next` of the nodes -/
  next : Nat → Nat := fun _ => 0
  pc : Nat → PC := fun _ => .idle
  /-- who may use the node; `none`: it is in the list -/
  owner : Nat → Option Nat
  /-- history: operations with the thread which did them -/
  log : List (Nat × Ev) := []
  /-- history: the result of the last `pop` -/
  res : Nat → Option (Option Nat) := fun _ => none
  /-- history: number of calls of `take`; number of nodes popped since the last of them -/
  takes : Nat := 0
  pops : Nat := 0
  /-- history: the two numbers at the time the thread read `ctop` -/
  rTakes : Nat → Nat := fun _ => 0
  rPops : Nat → Nat := fun _ => 0

/-- slist.h:49-53, 57: the thread has `_top` in `ctop` and goes on with `push`. -/
def St.pushRead (s : St) (t x : Nat) : St :=
  { s with pc := upd s.pc t (.pu1 x s.top.1 s.top.2) }

/-- slist.h:69-73, 78: the thread has `_top` in `ctop` and goes on with `pop`; on an empty list it
returns null. -/
def St.popRead (s : St) (t : Nat) : St :=
  if s.top.1 = 0 then
    { s with pc := upd s.pc t .idle, log := s.log ++ [(t, .pop none)]
             res := upd s.res t (some none) }
  else
    { s with pc := upd s.pc t (.po1 s.top.1 s.top.2)
             rTakes := upd s.rTakes t s.takes, rPops := upd s.rPops t s.pops }

/-- The nodes from `p` on, at most `n` of them. -/
def nodes (next : Nat → Nat) : Nat → Nat → List Nat
  | 0, _ => []
  | n + 1, p => if p = 0 then [] else p :: nodes next n (next p)

/-- One transition of thread `t`. (The list is no longer than the number of operations done.) -/
def step (s : St) (t : Nat) (op : Op) : Option St :=
  match s.pc t with
  | .idle =>
    match op with
    | .push x =>
      if x ≠ 0 ∧ s.owner x = some t then some { s with pc := upd s.pc t (.pu0 x) } else none
    | .pop => some { s with pc := upd s.pc t .po0, res := upd s.res t none }
    -- slist.h:154-156; the other list has the cookie 0
    | .take =>
      let l := nodes s.next s.log.length s.top.1
      some { s with top := (0, 0), owner := (fun x => if x ∈ l then some t else s.owner x)
                    log := s.log ++ [(t, .take l)], takes := s.takes + 1, pops := 0 }
    | .give x u => if s.owner x = some t then some { s with owner := upd s.owner x (some u) }
      else none
  | .pu0 x => some (s.pushRead t x)
  | .pu1 x c k => some { s with next := upd s.next x c, pc := upd s.pc t (.pu2 x c k) }
  | .pu2 x c k =>
    if s.top = (c, k) then
      some { s with top := (x, k), pc := upd s.pc t .idle, owner := upd s.owner x none
                    log := s.log ++ [(t, .push x)] }
    else some (s.pushRead t x)
  | .po0 => some (s.popRead t)
  | .po1 c k => some { s with pc := upd s.pc t (.po2 c k (s.next c)) }
  | .po2 c k n =>
    if s.top = (c, k) then
      some { s with top := (n, (k + 1) % 16), pc := upd s.pc t .idle
                    owner := upd s.owner c (some t), log := s.log ++ [(t, .pop (some c))]
                    res := upd s.res t (some (some c)), pops := s.pops + 1 }
    else some (s.popRead t)

/-- Reachable states from the empty list with the nodes given to the threads by `o`; `P` restricts
the transitions. -/
inductive Reach (P : St → Nat → Op → Prop) (o : Nat → Nat) : St → Prop
  | init : Reach P o { owner := fun x => some (o x) }
  | step {s s' t op} : Reach P o s → P s t op → step s t op = some s' → Reach P o s'

/-- Executes a schedule. -/
def exec (s : St) : List (Nat × Op) → Option St
  | [] => some s
  | (t, op) :: l => match step s t op with
    | none => none
    | some s' => exec s' l

end LS.SList

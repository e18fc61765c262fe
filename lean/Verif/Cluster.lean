/-
Model of the cluster allocator (base/memory/clusterAlloc.{h,cpp}).

`ClusterAlloc` keeps a tree of `AllocMulticluster` by the size of blocks; each keeps a tree of
its `AllocCluster`s by address and a linked list of those with a free block.  A cluster is one
piece of memory of the underlying allocator: a header and `count` blocks; free blocks are
linked through their first byte.

The memory is modelled byte by byte (`mem`), so that a user which writes to its block can
destroy the links of an allocator which has handed out a free block.  The fields of headers
are kept in `Clu`; `llnext` in `ll`.  Addresses are natural numbers, 0 is null.

Simplified: the trees are sets (the results about them are C18 to C20; `seek` backward gives
the greatest key not above, `c20_seek`); the memory of the objects `AllocMulticluster` is not
modelled; requests above 2^55 bytes are excluded (the computation of the size of a cluster
could overflow).
-/
namespace LS.Cluster

def upd {α : Type} (f : Nat → α) (i : Nat) (v : α) : Nat → α := fun j => if j = i then v else f j

/-- `strict`: the rules of use under which the property is proved (blocks are returned through
`owner` only with a size that needs no rounding and no allocation is made through a cluster).
`sz` is `sizeof(AllocCluster)`. -/
structure Cfg where
  sz : Nat
  strict : Bool

/-- `allocClusterSize` (clusterAlloc.cpp:10-11). -/
def Cfg.hdr (cf : Cfg) : Nat := (cf.sz + 7) / 8 * 8

/-- Loop of clusterAlloc.cpp:37; `fs` is at most 8, so at most 4 iterations are made. -/
def fsLoop (n : Nat) : Nat → Nat → Nat
  | 0, fs => fs
  | k + 1, fs => if n < fs then fsLoop n k (fs >>> 1) else fs

/-- `fs--` of `natural`, 64 bits. -/
def dec (fs : Nat) : Nat := if fs = 0 then 2 ^ 64 - 1 else fs - 1

/-- `AllocCluster::objSize2bksize` (clusterAlloc.cpp:34-40). -/
def bksz (n : Nat) : Nat :=
  let fs := dec (fsLoop n 4 8)
  ((n + fs) % 2 ^ 64) &&& (2 ^ 64 - 1 - fs)

/-- Header of a cluster (clusterAlloc.h:147-151).  `bk` is the size of blocks, known to the
multicluster that owns it. -/
structure Clu where
  bk : Nat
  cnt : Nat
  ff : Nat
  used : Nat

/-- A block handed out: what the user asked for and what he got. -/
structure Blk where
  addr : Nat
  size : Nat
  owner : Nat
deriving DecidableEq

/-- `cl b`: cluster at address `b`; `head bk`: `freeClusters` of the multicluster of blocks of
`bk` bytes; `next bk`: its `nextCnt`, `none` if there is no such multicluster; `out`: blocks
handed out and not returned (ghost); `err`: an exception or null pointer as answer to a
correct request; `ub`: division by zero. -/
structure St where
  mem : Nat → Nat
  cl : Nat → Option Clu
  ll : Nat → Nat
  head : Nat → Nat
  next : Nat → Option Nat
  out : List Blk
  err : Bool
  ub : Bool

def St.init (mem : Nat → Nat) : St :=
  ⟨mem, fun _ => none, fun _ => 0, fun _ => 0, fun _ => none, [], false, false⟩

/-- `AllocCluster::mapIndex` (clusterAlloc.cpp:42-48). -/
def adr (cf : Cfg) (b bk i : Nat) : Nat := b + cf.hdr + i * bk

/-- Constructor of `AllocCluster`, the loop after iterations `i = 1 … k` (clusterAlloc.cpp:17-20). -/
def links (cf : Cfg) (mem : Nat → Nat) (b bk : Nat) : Nat → (Nat → Nat)
  | 0 => mem
  | k + 1 => upd (links cf mem b bk k) (adr cf b bk k) (k + 1)

/-- Memory after the constructor (clusterAlloc.cpp:17-21). -/
def ctor (cf : Cfg) (mem : Nat → Nat) (b bk cnt : Nat) : Nat → Nat :=
  upd (links cf mem b bk (cnt - 1)) (adr cf b bk (cnt - 1)) 255

/-- Constructor of `AllocMulticluster`: `nextCnt` (clusterAlloc.h:183); `none` is the division
by zero. -/
def firstCnt (cf : Cfg) (bk : Nat) : Option Nat :=
  if bk = 0 then none else some ((1 + (cf.sz + bk / 2) / bk) % 256)

/-- `nextCnt` of the multicluster found in the tree or created (clusterAlloc.cpp:252-258). -/
def cntOf (cf : Cfg) (s : St) (bk : Nat) : Option Nat :=
  match s.next bk with
  | some n => some n
  | none => firstCnt cf bk

/-- First part of `AllocMulticluster::alloc` (clusterAlloc.cpp:132-137) with the memory at `b`
from the underlying allocator. -/
def create (cf : Cfg) (s : St) (bk n b : Nat) : St :=
  { s with mem := ctor cf s.mem b bk n, cl := upd s.cl b (some ⟨bk, n, 0, 0⟩), ll := upd s.ll b 0, next := upd s.next bk (some (if n < 255 then n + 1 else n)), head := upd s.head bk b }

/-- `AllocCluster::isFull`, `isEmpty` (clusterAlloc.h:114-116). -/
def isFull (s : St) (b : Nat) : Bool := match s.cl b with | some c => c.ff == 255 | none => false
def isEmpty (s : St) (b : Nat) : Bool := match s.cl b with | some c => c.used == 0 | none => false

/-- `AllocMulticluster::checkEmpty` (clusterAlloc.cpp:196-205).  `fuel` bounds the loop; each
iteration destroys a cluster of the list. -/
def checkEmpty : Nat → St → Nat → St
  | 0, s, _ => s
  | fuel + 1, s, k =>
    if s.ll k ≠ 0 ∧ isEmpty s k = true ∧ isEmpty s (s.ll k) = true then
      checkEmpty fuel { s with ll := upd s.ll k (s.ll (s.ll k)), cl := upd s.cl (s.ll k) none } k
    else s

/-- Second part of `AllocMulticluster::alloc` (clusterAlloc.cpp:138-145), `makeAlloc`
(clusterAlloc.cpp:82-90) included.  `sz` is the size asked for. -/
def take (cf : Cfg) (fuel : Nat) (s : St) (bk sz : Nat) : St :=
  let b := s.head bk
  match s.cl b with
  | none => { s with err := true }
  | some c =>
    if c.ff = 255 then { s with err := true }
    else
      let z := adr cf b bk c.ff
      let s1 := { s with cl := upd s.cl b (some { c with ff := s.mem z, used := (c.used + 1) % 256 }), out := ⟨z, sz, b⟩ :: s.out }
      let s2 := checkEmpty fuel s1 b
      if isFull s2 b then { s2 with head := upd s2.head bk (s2.ll b) } else s2

/-- `ClusterAlloc::alloc` (clusterAlloc.cpp:249-260) and `AllocMulticluster::alloc`
(clusterAlloc.cpp:130-146).  `nb` is the memory that the underlying allocator would give. -/
def alloc (cf : Cfg) (fuel : Nat) (s : St) (sz nb : Nat) : St :=
  let bk := bksz sz
  match cntOf cf s bk with
  | none => { s with ub := true }
  | some n =>
    if s.head bk = 0 then take cf fuel (create cf { s with next := upd s.next bk (some n) } bk n nb) bk sz
    else take cf fuel { s with next := upd s.next bk (some n) } bk sz

/-- `AllocCluster::makeDealloc` (clusterAlloc.cpp:92-100), `mapAddress` (clusterAlloc.cpp:67-72). -/
def makeDealloc (cf : Cfg) (s : St) (b ptr bk : Nat) : St :=
  match s.cl b with
  | none => { s with ub := true }
  | some c => { s with mem := upd s.mem ptr c.ff, cl := upd s.cl b (some { c with ff := ((ptr - (b + cf.hdr)) / bk) % 256, used := (c.used + 255) % 256 }) }

/-- `AllocCluster::isMyPtr` (clusterAlloc.cpp:74-80). -/
def isMyPtr (cf : Cfg) (s : St) (b ptr bk : Nat) : Prop :=
  match s.cl b with
  | none => False
  | some c => b + cf.hdr ≤ ptr ∧ ptr < b + cf.hdr + c.cnt * bk

instance (cf : Cfg) (s : St) (b ptr bk : Nat) : Decidable (isMyPtr cf s b ptr bk) := by
  unfold isMyPtr; split <;> infer_instance

/-- `AllocMulticluster::onDealloc` (clusterAlloc.cpp:187-194). -/
def onDealloc (fuel : Nat) (s : St) (bk b : Nat) (wasFull : Bool) : St :=
  if wasFull then checkEmpty fuel { s with ll := upd s.ll b (s.head bk), head := upd s.head bk b } b
  else checkEmpty fuel s b

/-- `ClusterAlloc::dealloc` (clusterAlloc.cpp:268-277), `AllocMulticluster::dealloc`
(clusterAlloc.cpp:160-178).  `k` is the result of the search in the tree. -/
def dealloc (cf : Cfg) (fuel : Nat) (s : St) (ptr sz : Nat) (k : Option Nat) : St :=
  let bk := bksz sz
  if s.next bk = none then { s with err := true }
  else if s.head bk ≠ 0 ∧ isMyPtr cf s (s.head bk) ptr bk then
    onDealloc fuel (makeDealloc cf s (s.head bk) ptr bk) bk (s.head bk) false
  else
    match k with
    | none => s
    | some b =>
      if ¬ isMyPtr cf s b ptr bk then { s with err := true }
      else onDealloc fuel (makeDealloc cf s b ptr bk) bk b (isFull s b)

/-- Search of clusterAlloc.cpp:167-168: the greatest cluster of the multicluster whose node
(8 bytes after the beginning) is not above `ptr`. -/
def Seek (s : St) (bk ptr : Nat) : Option Nat → Prop
  | none => ∀ b c, s.cl b = some c → c.bk = bk → ptr < b + 8
  | some k => (∃ c, s.cl k = some c ∧ c.bk = bk) ∧ k + 8 ≤ ptr ∧
      ∀ b c, s.cl b = some c → c.bk = bk → b + 8 ≤ ptr → b ≤ k

/-- `AllocCluster::dealloc` (clusterAlloc.cpp:57-65), called on the cluster `b`.  The
multicluster is that of the blocks of the cluster. -/
def deallocOwner (cf : Cfg) (fuel : Nat) (s : St) (b ptr sz : Nat) : St :=
  match s.cl b with
  | none => { s with ub := true }
  | some c =>
    if ¬ isMyPtr cf s b ptr (bksz sz) then { s with err := true }
    else
      let wasFull := isFull s b
      let s1 := makeDealloc cf s b ptr sz
      if wasFull = true ∨ isEmpty s1 b = true then onDealloc fuel s1 c.bk b wasFull else s1

/-- `AllocCluster::alloc(objSize, owner)` called on the cluster `b` (clusterAlloc.h:84-87,
clusterAlloc.cpp:50-55): the block comes from the master, the owner is set to this cluster. -/
def allocVia (cf : Cfg) (fuel : Nat) (s : St) (b sz nb : Nat) : St :=
  let s' := alloc cf fuel s sz nb
  { s' with out := match s'.out with | o :: l => { o with owner := b } :: l | [] => [] }

/-- Loop of `AllocCluster::reportLeaks` (clusterAlloc.cpp:119-124); `none` is the exception of
an index out of range.  Every iteration marks a block, so `count + 1` iterations are enough. -/
def marks (nx : Nat → Nat) (cnt : Nat) : Nat → Nat → (Nat → Bool) → Option (Nat → Bool)
  | 0, _, use => some use
  | k + 1, z, use =>
    if z = 255 then some use
    else if z ≥ cnt then none
    else if use z = false then some use
    else marks nx cnt k (nx z) (upd use z false)

/-- `AllocCluster::reportLeaks` (clusterAlloc.cpp:115-128): addresses that are reported. -/
def reportLeaks (cf : Cfg) (s : St) (b : Nat) : Option (List Nat) :=
  match s.cl b with
  | none => none
  | some c =>
    (marks (fun i => s.mem (adr cf b c.bk i)) c.cnt (c.cnt + 1) c.ff (fun _ => true)).map fun use =>
      ((List.range c.cnt).filter use).map (adr cf b c.bk)

/-- `[b, b + n)` does not touch a living cluster. -/
def Fresh (cf : Cfg) (s : St) (b n : Nat) : Prop :=
  0 < b ∧ ∀ b' c, s.cl b' = some c → b + n ≤ b' ∨ b' + cf.hdr + c.cnt * c.bk ≤ b

/-- Number of blocks of the next cluster. -/
def nextN (cf : Cfg) (s : St) (bk : Nat) : Nat :=
  (cntOf cf s bk).getD 0

/-- Address belongs to memory that a user may write: its block or memory outside of clusters. -/
def Usable (cf : Cfg) (s : St) (a : Nat) : Prop :=
  (∃ o, o ∈ s.out ∧ o.addr ≤ a ∧ a < o.addr + o.size) ∨
  ∀ b c, s.cl b = some c → ¬ (b ≤ a ∧ a < b + cf.hdr + c.cnt * c.bk)

/-- Operations.  `fuel` is arbitrary: results hold after any number of iterations of the loop of
`checkEmpty`, in particular after the number at which it ends. -/
inductive Tr (cf : Cfg) : St → St → Prop
  | alloc {s : St} (sz nb fuel : Nat) (h0 : 0 < sz) (h1 : sz ≤ 2 ^ 55)
      (hf : s.head (bksz sz) = 0 → Fresh cf s nb (cf.hdr + nextN cf s (bksz sz) * bksz sz)) :
      Tr cf s (alloc cf fuel s sz nb)
  | dealloc {s : St} (o : Blk) (k : Option Nat) (fuel : Nat) (h : o ∈ s.out)
      (hk : Seek s (bksz o.size) o.addr k) :
      Tr cf s (dealloc cf fuel { s with out := s.out.erase o } o.addr o.size k)
  | deallocOwner {s : St} (o : Blk) (fuel : Nat) (h : o ∈ s.out)
      (hs : cf.strict = true → bksz o.size = o.size) :
      Tr cf s (deallocOwner cf fuel { s with out := s.out.erase o } o.owner o.addr o.size)
  | allocVia {s : St} (b sz nb fuel : Nat) (hs : cf.strict = false) (hb : s.cl b ≠ none)
      (h0 : 0 < sz) (h1 : sz ≤ 2 ^ 55)
      (hf : s.head (bksz sz) = 0 → Fresh cf s nb (cf.hdr + nextN cf s (bksz sz) * bksz sz)) :
      Tr cf s (allocVia cf fuel s b sz nb)
  | write {s : St} (a v : Nat) (h : Usable cf s a) : Tr cf s { s with mem := upd s.mem a v }

inductive Reach (cf : Cfg) : St → Prop
  | init (mem : Nat → Nat) : Reach cf (.init mem)
  | step {s s' : St} : Reach cf s → Tr cf s s' → Reach cf s'

end LS.Cluster

import Verif.FastLock
/-
Counted pointers: base/memory/refCntPtr.h (with base/memory/allocPointer.h).

A transition system of any number of threads, pointers and objects.  One transition is one access to the counter of an object, one write of a pointer, or one
step of the life of an object.  A pointer (a variable of type `RefCntPtr`) and an object have a number, 0 is no object.  A pointer may be a member of an object
(`Cfg.home`); it is constructed and destroyed with the object.  Destruction of an object destroys its members, which may destroy more objects; the
release of the pointer which started it ends after all of it.
Users have to follow rules (`Lockable`): one pointer is not changed while another thread uses it, no pointer is used after its destructor started, and the object in which a used pointer lives is kept alive by a pointer
which is not changed meanwhile.  With `strict := false` the rules do not apply inside one operation.
Simplified: members of an object are destroyed in any order, also concurrently; the two writes of a move (168-169), with both pointers locked, are one step; the
counter does not overflow.  A pointer made from a raw pointer (106) to a living object behaves as a copy of the pointer which keeps the object alive.
Not modelled: `serialize`, `manualAddRef`, `manualRelease`, `detach`, debug code.
-/
namespace LS.RefCnt
open LS.FastLock (upd)

/-- State of an object. -/
inductive OS where
  | none
  | alive
  /-- the destructor runs -/
  | dying
  | freed
deriving DecidableEq, Repr

/-- State of a pointer: is it being released? -/
inductive VP where
  | no
  /-- 293: `releasePtr` is called -/
  | rel
  /-- 302: the counter was decremented, not to zero -/
  | nul
  /-- 300: the counter of `o` reached zero -/
  | nulk (o : Nat)
  /-- allocPointer.h:114: the pointer is NULL now -/
  | kll (o : Nat)
  /-- destructor of `o` runs -/
  | dst (o : Nat)
deriving DecidableEq, Repr

/-- A thread. -/
inductive P where
  | idle
  /-- copy constructor, 122 -/
  | cpy (x y : Nat)
  /-- 124 -/
  | cadd (x y : Nat)
  /-- `RefCntPtr(new T)`, 106; or `create`, 272, after `clear` -/
  | new (x o : Nat)
  /-- 107 -/
  | nadd (x o : Nat)
  /-- assignment, 152 -/
  | asg (x y : Nat)
  /-- 153-154 -/
  | aset (x y : Nat)
  /-- assignment from an rvalue, 167-169 -/
  | mset (x y : Nat)
  /-- `clear`, 281 -/
  | wt (x : Nat)
  /-- destructor, 136 -/
  | wd (x : Nat)
deriving DecidableEq, Repr

structure St where
  ptr : Nat → Nat := fun _ => 0
  /-- counters of the objects -/
  cnt : Nat → Nat := fun _ => 0
  st : Nat → OS := fun _ => .none
  /-- the pointer exists -/
  vl : Nat → Bool := fun _ => false
  vp : Nat → VP := fun _ => .no
  /-- the destructor of the pointer runs -/
  dt : Nat → Bool := fun _ => false
  pc : Nat → P := fun _ => .idle
  /-- the thread whose operation changes the pointer -/
  wl : Nat → Option Nat := fun _ => none
  /-- pointers read by the operation of a thread, or which have to be kept for it -/
  rd : Nat → List Nat := fun _ => []
  /-- objects in order of their destruction -/
  log : List Nat := []
  /-- for the proof only: the object on whose counter the pointer is counted; no transition depends on it -/
  own : Nat → Nat := fun _ => 0
  /-- for the proof only: the object whose counter was incremented by 152 -/
  pend : Nat → Nat := fun _ => 0

structure Cfg where
  /-- numbers of pointers and threads -/
  nv : Nat
  nt : Nat
  /-- the object a pointer is a member of, or 0 -/
  home : Nat → Nat := fun _ => 0
  /-- users follow the rules -/
  strict : Bool := true

/-- Rules for the user: an operation may change `W`, and needs `R`. -/
structure Lockable (cf : Cfg) (s : St) (W R : List Nat) : Prop where
  wfree : ∀ v, v ∈ W → s.wl v = none ∧ ∀ t, v ∉ s.rd t
  rfree : ∀ v, v ∈ R → s.wl v = none
  nv : ∀ v, v ∈ W → v < cf.nv
  live : ∀ v, v ∈ R → s.vl v = true ∧ s.dt v = false
  wdt : ∀ v, v ∈ W → s.dt v = false
  disj : cf.strict = true → ∀ v, v ∈ W → v ∉ R
  whome : cf.strict = true → ∀ v, v ∈ W → cf.home v ≠ 0 → ∃ g ∈ R, s.ptr g = cf.home v
  rhome : cf.strict = true → ∀ v, v ∈ R → cf.home v ≠ 0 → ∃ g ∈ R, s.ptr g = cf.home v

/-- End of the operation of a thread, which changed `x`. -/
def St.done (s : St) (t x : Nat) : St := { s with pc := upd s.pc t .idle, wl := upd s.wl x none, rd := upd s.rd t [] }

/-- Begin of an operation which changes `x` and needs `R`. -/
def St.start (s : St) (t : Nat) (p : P) (x : Nat) (R : List Nat) : St := { s with pc := upd s.pc t p, wl := upd s.wl x (some t), rd := upd s.rd t R }

/-- 287-291, `addRefPtr` of a pointer to `o`. -/
def St.add (s : St) (o : Nat) : St := { s with cnt := if o ≠ 0 then upd s.cnt o (s.cnt o + 1) else s.cnt }

/-- Allocation of object `o`; its members are constructed empty. -/
def St.alloc (cf : Cfg) (s : St) (o : Nat) : St :=
  { s with st := upd s.st o .alive, vl := fun v => if cf.home v = o then true else s.vl v, ptr := fun v => if cf.home v = o then 0 else s.ptr v }

inductive Tr (cf : Cfg) : St → St → Prop
  /-- 94 -/
  | empty (s : St) (x : Nat) (hh : cf.home x = 0) (hv : s.vl x = false) (hl : Lockable cf s [x] []) :
      Tr cf s { s with vl := upd s.vl x true, ptr := upd s.ptr x 0 }
  /-- 122 -/
  | copy (s : St) (t x y : Nat) (R : List Nat) (ht : t < cf.nt) (h : s.pc t = .idle) (hh : cf.home x = 0) (hv : s.vl x = false) (hy : y ∈ R)
      (hl : Lockable cf s [x] R) : Tr cf s (s.start t (.cpy x y) x R)
  /-- 123 -/
  | cpySet (s : St) (t x y : Nat) (ht : t < cf.nt) (h : s.pc t = .cpy x y) :
      Tr cf s { s with ptr := upd s.ptr x (s.ptr y), vl := upd s.vl x true, pc := upd s.pc t (.cadd x y) }
  /-- 124 -/
  | cpyAdd (s : St) (t x y : Nat) (ht : t < cf.nt) (h : s.pc t = .cadd x y) :
      Tr cf s { (s.add (s.ptr x)).done t x with own := upd s.own x (s.ptr x) }
  /-- a new object and a pointer from it -/
  | new (s : St) (t x o : Nat) (R : List Nat) (ht : t < cf.nt) (h : s.pc t = .idle) (hh : cf.home x = 0) (hv : s.vl x = false) (ho : o ≠ 0) (hs : s.st o = .none)
      (hl : Lockable cf s [x] R) : Tr cf s ((s.alloc cf o).start t (.new x o) x R)
  /-- 272 `create`, allocPointer.h:136 `clear`: without a look at the counter -/
  | create (s : St) (t x o : Nat) (R : List Nat) (ht : t < cf.nt) (h : s.pc t = .idle) (hv : s.vl x = true) (ho : o ≠ 0) (hs : s.st o = .none)
      (hst : cf.strict = true → s.ptr x = 0) (hl : Lockable cf s [x] R) :
      Tr cf s { (s.alloc cf o).start t (.new x o) x R with vp := upd s.vp x (if s.ptr x = 0 then .no else .nulk (s.ptr x)) }
  /-- 106, allocPointer.h:138 -/
  | newSet (s : St) (t x o : Nat) (ht : t < cf.nt) (h : s.pc t = .new x o) (hp : s.vp x = .no) :
      Tr cf s { s with ptr := upd s.ptr x o, vl := upd s.vl x true, pc := upd s.pc t (.nadd x o) }
  /-- 107, 272 -/
  | newAdd (s : St) (t x o : Nat) (ht : t < cf.nt) (h : s.pc t = .nadd x o) : Tr cf s { (s.add (s.ptr x)).done t x with own := upd s.own x (s.ptr x) }
  /-- 150 -/
  | assign (s : St) (t x y : Nat) (R : List Nat) (ht : t < cf.nt) (h : s.pc t = .idle) (hv : s.vl x = true) (hy : if cf.strict then y ∈ R else s.vl y = true)
      (hl : Lockable cf s [x] R) : Tr cf s (s.start t (.asg x y) x R)
  /-- 152 -/
  | asgAdd (s : St) (t x y : Nat) (ht : t < cf.nt) (h : s.pc t = .asg x y) :
      Tr cf s { s.add (s.ptr y) with pc := upd s.pc t (.aset x y), pend := upd s.pend t (s.ptr y), vp := upd s.vp x .rel }
  /-- 154 -/
  | asgSet (s : St) (t x y : Nat) (ht : t < cf.nt) (h : s.pc t = .aset x y) (hp : s.vp x = .no) :
      Tr cf s { s.done t x with ptr := upd s.ptr x (s.ptr y), own := upd s.own x (s.ptr y), pend := upd s.pend t 0 }
  /-- 161-163 -/
  | moveCtor (s : St) (x y : Nat) (R : List Nat) (hh : cf.home x = 0) (hx : s.vl x = false) (hy : s.vl y = true) (hl : Lockable cf s [x, y] R) :
      Tr cf s { s with ptr := upd (upd s.ptr x (s.ptr y)) y 0, vl := upd s.vl x true, own := upd (upd s.own x (s.own y)) y 0 }
  /-- 165-167 -/
  | move (s : St) (t x y : Nat) (R : List Nat) (ht : t < cf.nt) (h : s.pc t = .idle) (hxy : x ≠ y) (hx : s.vl x = true) (hy : s.vl y = true)
      (hl : Lockable cf s [x, y] R) : Tr cf s { s.start t (.mset x y) x R with wl := upd (upd s.wl x (some t)) y (some t), vp := upd s.vp x .rel }
  /-- 168-169 -/
  | mvSet (s : St) (t x y : Nat) (ht : t < cf.nt) (h : s.pc t = .mset x y) (hp : s.vp x = .no) :
      Tr cf s { s.done t x with wl := upd (upd s.wl x none) y none, ptr := upd (upd s.ptr x (s.ptr y)) y 0, own := upd (upd s.own x (s.own y)) y 0 }
  /-- 280-281 -/
  | clear (s : St) (t x : Nat) (R : List Nat) (ht : t < cf.nt) (h : s.pc t = .idle) (hv : s.vl x = true) (hl : Lockable cf s [x] R) :
      Tr cf s { s.start t (.wt x) x R with vp := upd s.vp x .rel }
  | clrDone (s : St) (t x : Nat) (ht : t < cf.nt) (h : s.pc t = .wt x) (hp : s.vp x = .no) : Tr cf s (s.done t x)
  /-- 135-137 -/
  | dest (s : St) (t x : Nat) (R : List Nat) (ht : t < cf.nt) (h : s.pc t = .idle) (hh : cf.home x = 0) (hv : s.vl x = true) (hl : Lockable cf s [x] R) :
      Tr cf s { s.start t (.wd x) x R with vp := upd s.vp x .rel, dt := upd s.dt x true }
  | destDone (s : St) (t x : Nat) (ht : t < cf.nt) (h : s.pc t = .wd x) (hv : s.vl x = false) : Tr cf s (s.done t x)
  /-- 294 -/
  | relNull (s : St) (v : Nat) (h : s.vp v = .rel) (hp : s.ptr v = 0) : Tr cf s { s with vp := upd s.vp v .no }
  /-- 295, 38 -/
  | relDec (s : St) (v : Nat) (h : s.vp v = .rel) (hp : s.ptr v ≠ 0) (hc : s.cnt (s.ptr v) - 1 ≠ 0) :
      Tr cf s { s with cnt := upd s.cnt (s.ptr v) (s.cnt (s.ptr v) - 1), own := upd s.own v 0, vp := upd s.vp v .nul }
  /-- 295, 38: the counter reaches zero -/
  | relZero (s : St) (v : Nat) (h : s.vp v = .rel) (hp : s.ptr v ≠ 0) (hc : s.cnt (s.ptr v) - 1 = 0) :
      Tr cf s { s with cnt := upd s.cnt (s.ptr v) 0, own := upd s.own v 0, vp := upd s.vp v (.nulk (s.ptr v)) }
  /-- 302, allocPointer.h:94 -/
  | nul (s : St) (v : Nat) (h : s.vp v = .nul) : Tr cf s { s with ptr := upd s.ptr v 0, vp := upd s.vp v .no }
  /-- 300, allocPointer.h:113 -/
  | nulk (s : St) (v o : Nat) (h : s.vp v = .nulk o) : Tr cf s { s with ptr := upd s.ptr v 0, vp := upd s.vp v (.kll o) }
  /-- allocPointer.h:114: destructor of the object, then those of its members -/
  | kill (s : St) (v o : Nat) (h : s.vp v = .kll o) :
      Tr cf s { s with st := upd s.st o .dying, log := s.log ++ [o], vp := fun u => if u = v then .dst o else if cf.home u = o ∧ s.vl u = true then .rel else s.vp u, dt := fun u => if cf.home u = o ∧ s.vl u = true then true else s.dt u }
  /-- end of the life of a pointer -/
  | die (s : St) (v : Nat) (h : s.vp v = .no) (hd : s.dt v = true) : Tr cf s { s with vl := upd s.vl v false, dt := upd s.dt v false }
  /-- allocPointer.h:114: the memory is returned -/
  | free (s : St) (o : Nat) (h : s.st o = .dying) (hm : ∀ u, cf.home u = o → s.vl u = false) : Tr cf s { s with st := upd s.st o .freed }
  /-- return from the release -/
  | fin (s : St) (v o : Nat) (h : s.vp v = .dst o) (hs : s.st o = .freed) : Tr cf s { s with vp := upd s.vp v .no }

inductive Reach (cf : Cfg) : St → Prop
  | init : Reach cf {}
  | step {s s' : St} : Reach cf s → Tr cf s s' → Reach cf s'

/-- The next step of a thread reads or writes a pointer which does not exist, the counter of an object which is being destroyed or gone, or destroys an
object which is not alive. -/
inductive UB (s : St) : Prop
  | cpy (t x y : Nat) (h : s.pc t = .cpy x y) (hv : s.vl y = false)
  | cadd (t x y : Nat) (h : s.pc t = .cadd x y) (hv : s.vl x = false ∨ s.ptr x ≠ 0 ∧ s.st (s.ptr x) ≠ .alive)
  | new (t x o : Nat) (h : s.pc t = .nadd x o) (hv : s.vl x = false ∨ s.ptr x ≠ 0 ∧ s.st (s.ptr x) ≠ .alive)
  | asg (t x y : Nat) (h : s.pc t = .asg x y) (hv : s.vl y = false ∨ s.ptr y ≠ 0 ∧ s.st (s.ptr y) ≠ .alive)
  | aset (t x y : Nat) (h : s.pc t = .aset x y) (hp : s.vp x = .no) (hv : s.vl x = false ∨ s.vl y = false)
  | mset (t x y : Nat) (h : s.pc t = .mset x y) (hp : s.vp x = .no) (hv : s.vl x = false ∨ s.vl y = false)
  | rel (v : Nat) (h : s.vp v = .rel) (hv : s.vl v = false ∨ s.ptr v ≠ 0 ∧ s.st (s.ptr v) ≠ .alive)
  | nul (v : Nat) (h : s.vp v = .nul) (hv : s.vl v = false)
  | nulk (v o : Nat) (h : s.vp v = .nulk o) (hv : s.vl v = false)
  | kill (v o : Nat) (h : s.vp v = .kll o) (hv : s.st o ≠ .alive)

end LS.RefCnt

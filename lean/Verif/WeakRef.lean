import Verif.FastLock
/-
Weak references: base/memory/weakref.h.

A transition system of one target (thread which calls `setNull`) and `n` users of copies of its reference.  One transition is one atomic operation on `lockCount`, the
write of `clearOutNotify`, a wake-up or a halt.  Simplified: `lockCount` is an integer without overflow; `C48_range` shows that it stays in the range of the type when
there are less than 2^62 users.  A thread may also be woken by somebody else.  The lifetime of the shared block is counted by `RefCntPtr` (C47).
-/
namespace LS.WeakRef
open LS.FastLock (upd)

/-- weakref.h:58 -/
def initedFlag : Int := -2 ^ 63
/-- weakref.h:59 -/
def leftFlag : Int := 2 ^ 62

/-- A user of the reference. -/
inductive U where
  | out
  /-- locked, with the pointer to the target -/
  | has
  /-- locked, with NULL -/
  | nul
  /-- 144: about to wake the target -/
  | wk
deriving DecidableEq, Repr

/-- The target. -/
inductive D where
  /-- before `setNull` -/
  | run
  /-- 180 -/
  | d1
  /-- 184 -/
  | d2
  /-- 192 -/
  | d3
  /-- 197 -/
  | d4
  /-- 208 -/
  | d5
  /-- `setNull` returned -/
  | done
  /-- the thread of the target ended, its sleeper is destroyed -/
  | gone
deriving DecidableEq, Repr

structure St where
  /-- `lockCount`, 77 -/
  v : Int := initedFlag
  /-- `clearOutNotify`, 78: NULL or the sleeper of the target -/
  notify : Bool := false
  /-- wake-ups received by the sleeper and not consumed -/
  tok : Nat := 0
  u : Nat → U := fun _ => .out
  d : D := .run

inductive Tr (n : Nat) : St → St → Prop
  /-- 125-132: the result of the increment is tested -/
  | lock (s : St) (i : Nat) (hi : i < n) (h : s.u i = .out) : Tr n s { s with v := s.v + 1, u := upd s.u i (if s.v + 1 < 0 then .has else .nul) }
  /-- 138-142 -/
  | unlock (s : St) (i : Nat) (hi : i < n) (h : s.u i = .has ∨ s.u i = .nul) : Tr n s { s with v := s.v - 1, u := upd s.u i (if s.v - 1 = 0 then .wk else .out) }
  /-- 144 -/
  | wake (s : St) (i : Nat) (hi : i < n) (h : s.u i = .wk) : Tr n s { s with tok := s.tok + 1, u := upd s.u i .out }
  /-- 172, 210-211: the reference is not locked -/
  | casOk (s : St) (h : s.d = .run) (hv : s.v = initedFlag) : Tr n s { s with v := leftFlag, d := .done }
  /-- 172-175 -/
  | casFail (s : St) (h : s.d = .run) (hv : s.v ≠ initedFlag) (hl : initedFlag < s.v ∧ s.v < 0) : Tr n s { s with d := .d1 }
  /-- 172, 213: nothing to do -/
  | casSkip (s : St) (h : s.d = .run) (hv : s.v ≠ initedFlag) (hl : ¬(initedFlag < s.v ∧ s.v < 0)) : Tr n s { s with d := .done }
  /-- 180 -/
  | notify (s : St) (h : s.d = .d1) : Tr n s { s with notify := true, d := .d2 }
  /-- 184-190: the old value is returned -/
  | sub (s : St) (h : s.d = .d2) : Tr n s { s with v := s.v - initedFlag, d := if s.v - initedFlag ≠ 0 then .d3 else .d5 }
  /-- 192 -/
  | halt (s : St) (h : s.d = .d3) (ht : s.tok > 0) : Tr n s { s with tok := s.tok - 1, d := .d4 }
  /-- 192: woken by somebody else -/
  | spurious (s : St) (h : s.d = .d3) : Tr n s { s with d := .d4 }
  /-- 197, 190 -/
  | look (s : St) (h : s.d = .d4) : Tr n s { s with d := if s.v ≠ 0 then .d3 else .d5 }
  /-- 208-209 -/
  | left (s : St) (h : s.d = .d5) : Tr n s { s with v := s.v + leftFlag, d := .done }
  | exit (s : St) (h : s.d = .done) : Tr n s { s with d := .gone }

inductive Reach (n : Nat) : St → Prop
  | init : Reach n {}
  | step {s s' : St} : Reach n s → Tr n s s' → Reach n s'

/-- The next step of a user calls a NULL or a destroyed object (144). -/
def UB (s : St) : Prop := ∃ i, s.u i = .wk ∧ (s.notify = false ∨ s.d = .gone)

/-! ### The pointer class, one thread -/

/-- `WeakRefPtr`: the pointer and the reference to be unlocked, both as the number of the target; `none` is NULL. -/
structure H where
  ptr : Option Nat
  me : Nat
deriving DecidableEq, Repr

/-- Counts of targets and holders. -/
structure Seq where
  v : Nat → Int := fun _ => initedFlag
  h : Nat → Option H := fun _ => none

/-- weakref.h:125-132 -/
def Seq.lockInt (s : Seq) (r : Nat) : Seq × Option Nat := ({ s with v := upd s.v r (s.v r + 1) }, if s.v r + 1 < 0 then some r else none)

inductive Op where
  | lock (a r : Nat)
  | copy (a b : Nat)
  | assign (a b : Nat)
  | drop (a : Nat)
  | setNull (r : Nat)
deriving DecidableEq, Repr

/-- One operation; `none`: not possible, or `setNull` waits. -/
def Seq.step (s : Seq) : Op → Option Seq
  -- 290
  | .lock a r => if s.h a = none then (let (s, p) := s.lockInt r; some { s with h := upd s.h a (some ⟨p, r⟩) }) else none
  -- 293
  | .copy a b =>
    match s.h a, s.h b with
    | none, some hb => let (s, p) := s.lockInt hb.me; some { s with h := upd s.h a (some ⟨p, hb.me⟩) }
    | _, _ => none
  -- there is no assignment operator in 286-299: the compiler assigns both members
  | .assign a b =>
    match s.h a, s.h b with
    | some _, some hb => some { s with h := upd s.h a (some hb) }
    | _, _ => none
  -- 296
  | .drop a =>
    match s.h a with
    | some ha => some { v := upd s.v ha.me (s.v ha.me - 1), h := upd s.h a none }
    | none => none
  -- 169-213, without other threads
  | .setNull r =>
    if s.v r = initedFlag then some { s with v := upd s.v r leftFlag }
    else if initedFlag < s.v r ∧ s.v r < 0 then none else some s

def Seq.run : Seq → List Op → Option Seq
  | s, [] => some s
  | s, o :: os =>
    match s.step o with
    | none => none
    | some s => s.run os

end LS.WeakRef

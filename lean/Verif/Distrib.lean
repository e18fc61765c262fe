/-
Distribution of messages to listeners which may use the distributor while they
are called.

Source: /repo/src/lightspeed/base/actions/distrubutor.tcc:16-253 and
/repo/src/lightspeed/base/actions/distributor.h:110-380 over the list of
/repo/src/lightspeed/base/containers/linkedList.h:62-269.

Simplified: one thread (with `NullLock`); listeners are values that can be
compared; an item of a list is named by a number that is never used again. The
pointer to the last item of a list is wrong after the last item is erased while
items stay in front of it (linkedList.h:251-258), which is kept as a flag. The
exit message is defined. `log`, `xlog`, `done`, `canc` and `start` are only for the
specification.
-/
namespace LS.Distrib

/-- distributor.h:339-351: a message being distributed. `cur` and `prev` are the
iterator into the listeners. -/
structure Stage where
  sid : Nat
  sel : Nat
  cur : Option Nat
  prev : Option Nat
  sender : Option Nat
  /-- the listeners at the time of sending -/
  start : List Nat
  deriving DecidableEq, Repr

/-- A call that waits for the listener it called. -/
inductive Frame where
  /-- distrubutor.tcc:74-86, its stage is on the stack -/
  | send (sid sel : Nat)
  /-- distrubutor.tcc:99-108 -/
  | fin (sel : Nat)
  /-- distrubutor.tcc:146-176; in the destructor of the cycle after an exception -/
  | exit (cur : Option Nat) (thrown : Bool)
  deriving DecidableEq, Repr

structure St where
  ls : List (Nat × Nat)
  lbad : Bool
  nid : Nat
  st : List Stage
  sbad : Bool
  nsid : Nat
  fr : List Frame
  /-- messages delivered to items, the last one first -/
  log : List (Nat × Nat)
  /-- messages that were distributed, with the listeners at the time of sending -/
  done : List (Nat × List Nat)
  /-- messages that were stopped -/
  canc : List Nat
  /-- items that got the exit message, the last one first -/
  xlog : List Nat
  deriving DecidableEq, Repr

/-- distributor.h:108 -/
def new : St := ⟨[], false, 0, [], false, 0, [], [], [], [], []⟩

/-- What the program, or the listener that was called last, does. -/
inductive Op where
  | add (v : Nat)
  | padd (v : Nat)
  | remove (v : Nat)
  | removeAll
  | send (sender : Option Nat) (sel : Nat)
  | finish (sel : Nat)
  | stop (sel : Nat)
  | current (sel : Nat)
  | exit
  /-- the listener returns -/
  | ret
  /-- the listener throws -/
  | throw
  deriving DecidableEq, Repr

inductive Out where
  | ub
  /-- nobody to return -/
  | stuck
  /-- an exception in a destructor -/
  | term
  | ok (s : St)
  deriving DecidableEq, Repr

/-- linkedList.h:233-269: the pointer to the last item after `p` are erased. -/
def badAfter {α : Type} (p : α → Bool) (l : List α) (bad : Bool) : Bool :=
  if (l.filter (fun x => !p x)).isEmpty then false
  else match l.getLast? with
    | none => bad
    | some x => if p x then true else bad

/-- linkedList.h:71: the item behind `i`. -/
def after (i : Nat) : List (Nat × Nat) → Option Nat
  | [] => none
  | x :: r => if x.1 = i then r.head?.map (·.1) else after i r

/-- distrubutor.tcc:46-56: skips the item that is removed. -/
def Stage.skip (ls : List (Nat × Nat)) (r : Nat) (g : Stage) : Stage :=
  if g.cur = some r then { g with cur := after r ls, prev := some r } else g

/-- distrubutor.tcc:39-63 -/
def remove (s : St) (v : Nat) : St :=
  match s.ls.find? (fun x => x.2 == v) with
  | none => s
  | some x => { s with ls := s.ls.filter (fun y => !(y.1 == x.1)), lbad := badAfter (fun y => y.1 == x.1) s.ls s.lbad, st := s.st.map (Stage.skip s.ls x.1) }

/-- distrubutor.tcc:66-71 -/
def removeAll (s : St) : St :=
  { s with ls := [], lbad := false, st := [], sbad := false, canc := s.canc ++ s.st.map (·.sid) }

/-- distrubutor.tcc:237-247 -/
def stop (s : St) (sel : Nat) : St :=
  { s with st := s.st.filter (fun g => !(g.sel == sel)), sbad := badAfter (fun g => g.sel == sel) s.st s.sbad, canc := s.canc ++ (s.st.filter (fun g => g.sel == sel)).map (·.sid) }

/-- distrubutor.tcc:118 -/
def eraseStage (s : St) (g : Stage) : St :=
  { s with st := s.st.filter (fun h => !(h.sid == g.sid)), sbad := badAfter (fun h => h.sid == g.sid) s.st s.sbad, done := (g.sid, g.start) :: s.done }

/-- distrubutor.tcc:120 -/
def advance (s : St) (g : Stage) (i : Nat) : St :=
  { s with st := s.st.map (fun h => if h.sid = g.sid then { h with cur := after i s.ls, prev := some i } else h), log := (g.sid, i) :: s.log }

inductive Next where
  | ub
  /-- a listener is called -/
  | call (s : St)
  /-- nothing more to distribute -/
  | idle (s : St)
  deriving DecidableEq, Repr

def live (s : St) (i : Nat) : Bool := s.ls.any (fun x => x.1 == i)

/-- distrubutor.tcc:111-133 until the next call of a listener. -/
def loop (sel : Nat) : Nat → St → Next
  | 0, s => .idle s
  | n + 1, s =>
    match s.st.find? (fun g => g.sel == sel) with
    | none => .idle s
    | some g =>
      match g.cur with
      | none => loop sel n (eraseStage s g)
      | some i => if live s i then .call (advance s g i) else .ub

/-- distrubutor.tcc:152-160 until the next call of a listener. -/
def cycle (s : St) (cur : Option Nat) (thrown : Bool) : Out :=
  match cur with
  | none => .ok s
  | some i => if live s i then .ok { s with fr := .exit (after i s.ls) thrown :: s.fr, xlog := i :: s.xlog } else .ub

/-- The call `f` runs until it calls a listener or returns. The stage of `send`
must not be in the list when it returns. -/
def resume (s : St) (f : Frame) : Out :=
  match f with
  | .send sid sel =>
    match loop sel (s.st.length + 1) s with
    | .ub => .ub
    | .call s => .ok { s with fr := f :: s.fr }
    | .idle s => if s.st.any (fun g => g.sid == sid) then .ub else .ok s
  | .fin sel =>
    match loop sel (s.st.length + 1) s with
    | .ub => .ub
    | .call s => .ok { s with fr := f :: s.fr }
    | .idle s => .ok s
  | .exit cur thrown => cycle s cur thrown

/-- distrubutor.tcc:74-86 before `_finish` -/
def pushStage (s : St) (sender : Option Nat) (sel : Nat) : St :=
  { s with st := s.st ++ [⟨s.nsid, sel, s.ls.head?.map (·.1), none, sender, s.ls.map (·.1)⟩], nsid := s.nsid + 1 }

/-- distrubutor.tcc:123-128 and 158-165: an exception from the listener. The
caller of the distributor may catch it or throw again. -/
def unwind (s : St) (f : Frame) : Out :=
  match f with
  | .send sid sel => if (stop s sel).st.any (fun g => g.sid == sid) then .ub else .ok (stop s sel)
  | .fin sel => .ok (stop s sel)
  | .exit cur thrown => if thrown then .term else cycle s cur true

/-- distrubutor.tcc:179-190: the item before the position. -/
def current (s : St) (sel : Nat) : Out :=
  match s.st.find? (fun g => g.sel == sel) with
  | none => .ok s
  | some g =>
    match g.prev with
    | none => .ok s
    | some i => if live s i then .ok s else .ub

def step (s : St) : Op → Out
  | .add v => if s.lbad then .ub else .ok { s with ls := s.ls ++ [(s.nid, v)], nid := s.nid + 1 }
  | .padd v => .ok { s with ls := (s.nid, v) :: s.ls, nid := s.nid + 1 }
  | .remove v => .ok (remove s v)
  | .removeAll => .ok (removeAll s)
  | .send sender sel => if s.sbad then .ub else resume (pushStage s sender sel) (.send s.nsid sel)
  | .finish sel => resume s (.fin sel)
  | .stop sel => .ok (stop s sel)
  | .current sel => current s sel
  | .exit => cycle s (s.ls.head?.map (·.1)) false
  | .ret =>
    match s.fr with
    | [] => .stuck
    | f :: r => resume { s with fr := r } f
  | .throw =>
    match s.fr with
    | [] => .stuck
    | f :: r => unwind { s with fr := r } f

def run (s : St) : List Op → Out
  | [] => .ok s
  | o :: l =>
    match step s o with
    | .ok s => run s l
    | r => r

end LS.Distrib

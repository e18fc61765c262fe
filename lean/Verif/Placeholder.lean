import Verif.FilterIter
/-!
# Model of `base/iter/placeholders.h` (`declPlaceholder`, `PlaceholderFilter`, `PlaceholderConvert`)

Characters are numbers: 36 is `$`, 123 `{`, 125 `}`.  Simplified: the address `chrout` is the character itself; the memory of `varSpace` does not end.
Not modelled: `PlaceholderConvert::peek` (placeholders.h:141), which is ill-formed when instantiated (`this->state` is no member).
-/

namespace LS.Placeholder

open LS.FilterIter

/-- `declPlaceholder` (placeholders.h:18-34): the chain of declarations, the last one first. -/
abbrev Table := List (List Nat × List Nat)

/-- `getValue` (placeholders.h:22-25). -/
def getValue : Table → List Nat → List Nat
  | [], _ => []
  | (var, val) :: nx, name => if name = var then val else getValue nx name

/-- `operator()` (placeholders.h:27-29). -/
def decl (t : Table) (var val : List Nat) : Table := (var, val) :: t

/-- `State` (placeholders.h:38-44). -/
inductive State where
  | empty
  | charin
  | beginVar
  | readVar
  | blockin
deriving DecidableEq, Repr

/-- `PlaceholderFilter` (placeholders.h:101-106). -/
structure Ph where
  state : State
  chrout : Nat
  varSpace : List Nat
  outText : List Nat
deriving DecidableEq, Repr

/-- The constructor (placeholders.h:49-50). -/
def init : Ph := ⟨.empty, 0, [], []⟩

/-- `needItems` (placeholders.h:54-56). -/
def needItems (p : Ph) : Bool := p.state == .empty || p.state == .beginVar || p.state == .readVar

/-- `input` (placeholders.h:57-81). -/
def input (t : Table) (p : Ph) (x : Nat) : Except Fail Ph :=
  match p.state with
  | .empty => if x = 36 then .ok { p with state := .beginVar } else .ok { p with chrout := x, state := .charin }
  | .beginVar => if x = 123 then .ok { p with state := .readVar } else .ok { p with chrout := x, state := .charin }
  | .readVar =>
    if x = 125 then .ok ⟨if getValue t p.varSpace = [] then .empty else .blockin, p.chrout, [], getValue t p.varSpace⟩
    else .ok { p with varSpace := p.varSpace ++ [x] }
  | _ => .error .noSpace

/-- `hasItems` (placeholders.h:82-84). -/
def hasOut (p : Ph) : Bool := p.state == .charin || p.state == .blockin

/-- `output` (placeholders.h:85-97). -/
def output (p : Ph) : Except Fail (Nat × Ph) :=
  match p.state with
  | .charin => .ok (p.chrout, { p with state := .empty })
  | .blockin =>
    match p.outText with
    | [] => .error .ub
    | c :: r => .ok (c, { p with outText := r, state := if r = [] then .empty else .blockin })
  | _ => .error .noItems

/-- The filter (placeholders.h:37-109) as the iterators see it. -/
def filter (t : Table) : Flt Ph Nat Nat where
  need := needItems
  inp := input t
  has := hasOut
  out := output
  flush := fun p => p

/-- `PlaceholderConvert` (placeholders.h:111-165) with the members `hasItems` and `needItems` of its base (iterConv.h). -/
structure Conv where
  pls : Ph
  hasItems : Bool
  needItems : Bool

/-- `updateState` (placeholders.h:158-161). -/
def updateState (p : Ph) : Conv := ⟨p, hasOut p, needItems p⟩

/-- `write` (placeholders.h:148-151). -/
def convWrite (t : Table) (c : Conv) (x : Nat) : Except Fail Conv :=
  match input t c.pls x with
  | .error e => .error e
  | .ok p => .ok (updateState p)

/-- `getNext` (placeholders.h:124-139). -/
def convNext (c : Conv) : Except Fail (Nat × Conv) :=
  match output c.pls with
  | .error e => .error e
  | .ok (x, p) => .ok (x, updateState p)

end LS.Placeholder

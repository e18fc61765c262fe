import Verif.UrlEncode
/-
Models of `QueryParser` (utils/queryParser.{h,cpp}) and of `CmdLineIterator`
(base/framework/cmdLineIterator.{h,cpp}).  Characters are natural numbers.

Simplified: sections of strings (`head`, `offset`, `mid`) and `find`, `split` of flat strings are
written as functions on lists; that they are these functions is proved in C83, C85 and C86.
-/
namespace LS.Query

/-- `itm.find(c)` (arrayt.h:495-499): the characters before and after the first `c`. -/
def cut (c : Nat) : List Nat → Option (List Nat × List Nat)
  | [] => none
  | x :: l => if x = c then some ([], l) else (cut c l).map fun p => (x :: p.1, p.2)

/-- Parts given by `split(c)` (arrayt.h:609-670). -/
def parts (c : Nat) : List Nat → List (List Nat)
  | [] => [[]]
  | x :: l =>
    if x = c then [] :: parts c l
    else match parts c l with
      | p :: ps => (x :: p) :: ps
      | [] => [[x]]

/-- `QueryField` (queryParser.h:16-21); `none` as value is an exception of the decoder. -/
structure Field where
  name : List Nat
  value : Option (List Nat)
deriving DecidableEq

/-- Decoding of the value (queryParser.cpp:76-78). -/
def decode (v : List Nat) : Option (List Nat) := UrlEncode.dec.run 3 {} v

/-- State: parts not yet read from `_iter`; `_tmpResult[0]`, `_tmpResult[1]`; `_hasNext`, `_swp`
(queryParser.h:37-43). -/
structure QP where
  items : List (List Nat)
  slot : Bool → Field
  hasNext : Bool
  swp : Bool

/-- queryParser.cpp:79-82. -/
def QP.store (s : QP) (ld : Bool) (f : Field) : QP :=
  { s with slot := fun i => if i = ld then f else s.slot i, swp := ld, hasNext := true }

/-- `preload` (queryParser.cpp:56-84).  After the recursive call for an empty part (line 66) the
function continues with an empty name and value. -/
def preload (slot : Bool → Field) (hasNext swp : Bool) : List (List Nat) → QP
  | [] => ⟨[], slot, false, swp⟩
  | itm :: rest =>
    let ld := !swp
    match cut 61 itm with
    | none =>
      if itm = [] then
        (preload slot hasNext swp rest).store ld ⟨[], decode []⟩
      else (QP.mk rest slot hasNext swp).store ld ⟨itm, decode [49]⟩
    | some (f, v) => (QP.mk rest slot hasNext swp).store ld ⟨f, decode v⟩

/-- Path and query of the address (queryParser.cpp:19-24, 27). -/
def path (vpath : List Nat) : List Nat :=
  match cut 63 vpath with
  | none => vpath
  | some (p, _) => p

def query (vpath : List Nat) : List Nat := vpath.drop ((path vpath).length + 1)

/-- Constructor (queryParser.cpp:26-31). -/
def QP.ctor (vpath : List Nat) : QP := preload (fun _ => ⟨[], some []⟩) false false (parts 38 (query vpath))

/-- `getNext` (queryParser.cpp:37-42): the reference returned is to the slot `_swp` of before;
it is read after `preload`. -/
def QP.getNext (s : QP) : Field × QP :=
  let s' := preload s.slot s.hasNext s.swp s.items
  (s'.slot s.swp, s')

/-- All fields: `getNext` while `hasItems`. -/
def QP.all : Nat → QP → List Field
  | 0, _ => []
  | n + 1, s => if s.hasNext then s.getNext.1 :: QP.all n s.getNext.2 else []

/-! ## Command line -/

/-- `CmdLineItem` (cmdLineIterator.h:8-21). -/
inductive Item where
  | short (c : List Nat)
  | long (s : List Nat)
  | text (s : List Nat)
deriving DecidableEq

/-- `CmdLineIterator` (cmdLineIterator.h:39-42). -/
structure Cmd where
  args : List (List Nat)
  argPos : Nat
  charPos : Nat

/-- Result of a call: value, exception, or undefined behaviour. -/
inductive R (α : Type) where
  | ok (a : α)
  | thrown
  | ub

/-- `hasItems` (cmdLineIterator.cpp:56-59). -/
def Cmd.hasItems (c : Cmd) : Bool := decide (c.argPos < c.args.length)

/-- `peek` (cmdLineIterator.cpp:31-54).  `a[0]` of an empty argument is a read behind its end. -/
def Cmd.peek (c : Cmd) : R Item :=
  match c.args[c.argPos]? with
  | none => .thrown
  | some a =>
    if c.charPos = 0 then
      match a with
      | [] => .ub
      | x :: l =>
        if x = 45 ∧ l ≠ [] then
          match l with
          | [] => .ok (.text a)
          | y :: l => if y = 45 then .ok (.long l) else .ok (.short [y])
        else .ok (.text a)
    else .ok (.short ((a.drop c.charPos).take 1))

/-- `getNext` (cmdLineIterator.cpp:15-29). -/
def Cmd.getNext (c : Cmd) : R (Item × Cmd) :=
  match c.peek with
  | .thrown => .thrown
  | .ub => .ub
  | .ok (.short v) =>
    let p := if c.charPos = 0 then c.charPos + 2 else c.charPos + 1
    if p ≥ (c.args.getD c.argPos []).length then .ok (.short v, { c with charPos := 0, argPos := c.argPos + 1 })
    else .ok (.short v, { c with charPos := p })
  | .ok i => .ok (i, { c with argPos := c.argPos + 1, charPos := 0 })

/-- `getNextText`, `peekText` (cmdLineIterator.cpp:72-84). -/
def Cmd.getNextText (c : Cmd) : R (List Nat × Cmd) :=
  match c.args[c.argPos]? with
  | none => .thrown
  | some a => .ok (a.drop c.charPos, { c with charPos := 0, argPos := c.argPos + 1 })

/-- `getNext` while `hasItems`. -/
def Cmd.all : Nat → Cmd → R (List Item)
  | 0, _ => .ok []
  | n + 1, c =>
    if c.hasItems then
      match c.getNext with
      | .thrown => .thrown
      | .ub => .ub
      | .ok (i, c') =>
        match Cmd.all n c' with
        | .ok l => .ok (i :: l)
        | .thrown => .thrown
        | .ub => .ub
    else .ok []

end LS.Query

import Verif.NumText
/-!
# Model of `base/framework/cmdLineIterator.h`, `.cpp` (`CmdLineIterator`)

An argument is its characters and what can be read right behind them (`none`: the memory is not readable; arguments of a
program have their terminating zero there).
-/

namespace LS.CmdLine

/-- A `ConstStrW`: the characters and the memory behind. -/
structure Arg where
  chars : List Nat
  behind : Option Nat
deriving DecidableEq, Repr

/-- cmdLineIterator.h:10-25 `CmdLineItem`. -/
inductive Item where
  | short (v : List Nat)
  | long (v : List Nat)
  | text (v : List Nat)
deriving DecidableEq, Repr

/-- cmdLineIterator.h:42-45: the arguments and the position. -/
structure It where
  args : List Arg
  argPos : Nat
  charPos : Nat
deriving DecidableEq, Repr

/-- What a call ends with, when it does not return. -/
inductive Fail where
  /-- undefined behaviour: memory behind a string that is not readable -/
  | ub
  /-- `IteratorNoMoreItems` -/
  | noItems
  /-- `InvalidNumberFormatException` -/
  | format
deriving DecidableEq, Repr

/-- cmdLineIterator.cpp:9-13: the constructor (`offset` is 1 by default). -/
def mk (args : List Arg) (offset : Nat) : It := { args := args, argPos := offset, charPos := 0 }

/-- cmdLineIterator.cpp:56-59 `hasItems`. -/
def hasItems (i : It) : Bool := decide (i.argPos < i.args.length)

/-- `a[n]`, flatArray.h:81: nothing is checked. -/
def Arg.at (a : Arg) (n : Nat) : Except Fail Nat :=
  match a.chars[n]? with
  | some c => .ok c
  | none => if n = a.chars.length then (match a.behind with | some c => .ok c | none => .error .ub) else .error .ub

/-- `a.mid(p, n)`, `a.offset(p)`. -/
def mid (l : List Nat) (p n : Nat) : List Nat := (l.drop p).take n

/-- cmdLineIterator.cpp:34-53: the item of an argument at a position. -/
def peekArg (a : Arg) (charPos : Nat) : Except Fail Item :=
  if charPos = 0 then
    match a.at 0 with
    | .error e => .error e
    | .ok c0 =>
      if c0 = 45 then
        if a.chars.length > 1 then
          match a.at 1 with
          | .error e => .error e
          | .ok c1 => if c1 = 45 then .ok (.long (a.chars.drop 2)) else .ok (.short (mid a.chars 1 1))
        else .ok (.text a.chars)
      else .ok (.text a.chars)
  else .ok (.short (mid a.chars charPos 1))

/-- cmdLineIterator.cpp:31-54 `peek`. -/
def peek (i : It) : Except Fail Item :=
  match i.args[i.argPos]? with
  | none => .error .noItems
  | some a => peekArg a i.charPos

/-- Length of the current argument (cmdLineIterator.cpp:20). -/
def curLen (i : It) : Nat :=
  match i.args[i.argPos]? with
  | some a => a.chars.length
  | none => 0

/-- cmdLineIterator.cpp:15-29 `getNext`. -/
def getNext (i : It) : Except Fail (Item × It) :=
  match peek i with
  | .error e => .error e
  | .ok (.short v) =>
    let c := if i.charPos = 0 then i.charPos + 2 else i.charPos + 1
    if c ≥ curLen i then .ok (.short v, { i with argPos := i.argPos + 1, charPos := 0 }) else .ok (.short v, { i with charPos := c })
  | .ok x => .ok (x, { i with argPos := i.argPos + 1, charPos := 0 })

/-- cmdLineIterator.cpp:73-77 `peekText`. -/
def peekText (i : It) : Except Fail (List Nat) :=
  match i.args[i.argPos]? with
  | none => .error .noItems
  | some a => .ok (a.chars.drop i.charPos)

/-- cmdLineIterator.cpp:79-85 `getNextText`. -/
def getNextText (i : It) : Except Fail (List Nat × It) :=
  match peekText i with
  | .error e => .error e
  | .ok t => .ok (t, { i with argPos := i.argPos + 1, charPos := 0 })

/-- cmdLineIterator.cpp:87-91 `getRemainArgs`. -/
def getRemainArgs (i : It) : List Arg := i.args.drop i.argPos

/-- cmdLineIterator.cpp:93-100 `getNextNumber`. -/
def getNextNumber (i : It) (base : Nat) : Except Fail (Int × It) :=
  match getNextText i with
  | .error e => .error e
  | .ok (t, i') =>
    match NumText.parseS t base with
    | .error _ => .error .ub
    | .ok (none, _) => .error .format
    | .ok (some n, _) => .ok (n, i')

/-- cmdLineIterator.cpp:61-64 `equalTo`. -/
def equalTo (i j : It) : Bool := decide (i.argPos = j.argPos) && decide (i.charPos = j.charPos)

/-- cmdLineIterator.cpp:66-70 `lessThan`. -/
def lessThan (i j : It) : Bool := decide (i.argPos < j.argPos) || (decide (i.argPos = j.argPos) && decide (i.charPos < j.charPos))

/-- A loop `while (i.hasItems()) … i.getNext()`, at most `n` times. -/
def readAll : Nat → It → Except Fail (List Item × It)
  | 0, i => .ok ([], i)
  | n + 1, i =>
    if hasItems i then
      match getNext i with
      | .error e => .error e
      | .ok (x, i') =>
        match readAll n i' with
        | .error e => .error e
        | .ok (xs, i'') => .ok (x :: xs, i'')
    else .ok ([], i)

end LS.CmdLine

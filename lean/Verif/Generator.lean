/-
Generators: a function that writes items in a fiber and an iterator that reads them. `GeneratorIterator` and
`GeneratorWriter`, base/iter/generator.tcc:18-143, with the switching of fibers, mt/linux/fiber.cpp:118-166, 177-228.

Simplified: the function writes a list of blocks, one after the other, and returns; `write` is a block of one item. It does not
throw. What it does between the writes has no effect on the reader. The destructor is not modelled.
-/

namespace LS.Generator

/-- The iterator and its fiber. -/
structure St where
  /-- `curStream`: what is left of the block that was pushed; `none` is NULL -/
  cur : Option (List Nat)
  /-- the blocks the function will write -/
  gen : List (List Nat)
  /-- `checkState()`: the function has not returned -/
  alive : Bool
deriving DecidableEq

/-- An item, or an exception. -/
inductive Ans where
  | item (x : Nat)
  | exn
deriving DecidableEq

/-- The fiber runs to its next `pushValue`, generator.tcc:120-124, or to its end, fiber.cpp:105. -/
def wakeUp (s : St) : St :=
  match s.gen with
  | [] => ⟨s.cur, [], false⟩
  | b :: g => ⟨some b, g, true⟩

/-- The constructor, generator.tcc:45-51: `start` runs the function at once, fiber.cpp:165. -/
def new (g : List (List Nat)) : St := wakeUp ⟨none, g, true⟩

/-- `prepareNext`, generator.tcc:85-90. -/
def prepareNext (s : St) : Bool × St :=
  if !s.alive then (false, s)
  else
    let s' := wakeUp { s with cur := none }
    (s'.cur.isSome, s')

/-- `curStream && curStream->hasItems()`. -/
def ready (s : St) : Bool :=
  match s.cur with
  | some (_ :: _) => true
  | _ => false

/-- `hasItems`, generator.tcc:59-63. -/
def hasItems (s : St) : Bool × St := if ready s then (true, s) else prepareNext s

/-- `getNext`, generator.tcc:67-73. The next block is prepared when there is an item, too. An empty stream throws. -/
def getNext (s : St) : Ans × St :=
  if !ready s then (.exn, s)
  else
    let r := prepareNext s
    if !r.1 then (.exn, r.2)
    else match r.2.cur with
    | some (x :: t) => (.item x, { r.2 with cur := some t })
    | _ => (.exn, r.2)

/-- `peek`, generator.tcc:76-82. -/
def peek (s : St) : Ans × St :=
  if !ready s then (.exn, s)
  else
    let r := prepareNext s
    if !r.1 then (.exn, r.2)
    else match r.2.cur with
    | some (x :: _) => (.item x, r.2)
    | _ => (.exn, r.2)

/-- `while (i.hasItems()) i.getNext()`: the items and whether it ended with an exception. -/
def readAll : Nat → St → List Nat × Bool
  | 0, _ => ([], false)
  | f + 1, s =>
    match hasItems s with
    | (false, _) => ([], false)
    | (true, s1) =>
      match getNext s1 with
      | (.exn, _) => ([], true)
      | (.item x, s2) => (x :: (readAll f s2).1, (readAll f s2).2)

/-- What `blockWrite` returns, generator.tcc:131, when `left` of `len` items are left: 64 bit. -/
def processed (len left : Nat) : Nat := (left + 2 ^ 64 - len) % 2 ^ 64

/-- Operations of the reader. -/
inductive Op where
  | hasItems
  | getNext
  | peek
deriving DecidableEq

/-- One operation: the items `getNext` gave, and the state. -/
def step (o : Op) (s : St) : List Nat × St :=
  match o with
  | .hasItems => ([], (hasItems s).2)
  | .getNext => match getNext s with
    | (.item x, s') => ([x], s')
    | (.exn, s') => ([], s')
  | .peek => ([], (peek s).2)

/-- A history. -/
def run : List Op → St → List Nat × St
  | [], s => ([], s)
  | o :: l, s => ((step o s).1 ++ (run l (step o s).2).1, (run l (step o s).2).2)

end LS.Generator

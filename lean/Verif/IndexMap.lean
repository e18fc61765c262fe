/-
Maps with automatic numbers as keys: `IndexMap` and `IndexMapLazyErase`, base/containers/indexMap.h:25-82, and what they
inherit from `Map`, base/containers/map.h:138-260.

Simplified: the tree below is a function from keys to values (its own correctness is a separate property); keys are `natural`,
numbers below 2^64.
-/

namespace LS.IndexMap

/-- The number of keys, `natural` on a 64-bit machine. -/
def M : Nat := 2 ^ 64

/-- A map: its values, `nextId`, and the last erased object with its key, indexMap.h:39, 79-80. -/
structure St (V : Type) where
  m : Nat → Option V
  next : Nat
  erased : Option (Nat × V)

/-- An empty map, indexMap.h:29. -/
def St.empty {V : Type} : St V := ⟨fun _ => none, 1, none⟩

/-- `Map::insert`, map.h:138-142: a key that is there keeps its value. -/
def put {V : Type} (m : Nat → Option V) (id : Nat) (v : V) : Nat → Option V :=
  fun k => if k = id then (match m id with | some o => some o | none => some v) else m k

/-- `getNextId`, indexMap.h:31. -/
def St.getNextId {V : Type} (s : St V) : Nat := s.next

/-- `IndexMap::insert`, indexMap.h:33-36. -/
def St.insert {V : Type} (s : St V) (id : Nat) (v : V) : St V :=
  ⟨put s.m id v, if s.next ≤ id then (id + 1) % M else s.next, s.erased⟩

/-- `Map::replace`, map.h:252-258, inherited: it calls the `insert` of `Map`. -/
def St.replace {V : Type} (s : St V) (id : Nat) (v : V) : St V :=
  ⟨fun k => if k = id then some v else s.m k, s.next, s.erased⟩

/-- `erase` of `IndexMapLazyErase`, indexMap.h:68-76. -/
def St.erase {V : Type} (s : St V) (id : Nat) : St V :=
  match s.m id with
  | none => s
  | some v => ⟨fun k => if k = id then none else s.m k, s.next, some (id, v)⟩

/-- `Map::clear`, map.h:189. -/
def St.clear {V : Type} (s : St V) : St V := ⟨fun _ => none, s.next, s.erased⟩

/-- `find` of a constant map, indexMap.h:59-65. -/
def St.findConst {V : Type} (s : St V) (id : Nat) : Option V :=
  match s.m id with
  | some v => some v
  | none =>
    match s.erased with
    | some (e, v) => if id = e then some v else none
    | none => none

/-- `find` of a map that is not constant, the one of `Map` (`using`, indexMap.h:58; map.h:168-172). -/
def St.find {V : Type} (s : St V) (id : Nat) : Option V := s.m id

/-- Calls. -/
inductive Op (V : Type) where
  | insert (id : Nat) (v : V)
  | add (v : V)
  | replace (id : Nat) (v : V)
  | erase (id : Nat)
  | clear

/-- A call; `add` is the use of the map with its own numbers. -/
def St.op {V : Type} (s : St V) : Op V → St V
  | .insert id v => s.insert id v
  | .add v => s.insert s.getNextId v
  | .replace id v => s.replace id v
  | .erase id => s.erase id
  | .clear => s.clear

/-- Calls one after another. -/
def St.run {V : Type} : List (Op V) → St V → St V
  | [], s => s
  | o :: l, s => St.run l (s.op o)

end LS.IndexMap

import Verif.Heap
import Verif.StrCmp
/-!
# Model of `base/namedEnum.h` (`NamedEnum`)

The array of definitions is a list; the two fields `order` of every definition are kept as two lists of the same
length.  Enumerators are integers.  An access outside of the array is `none`; so is a comparison that fails, which
does not happen with names of less than `2^64` characters.
-/

namespace LS.NamedEnum
open LS.ArrayT (Cmp)

/-- namedEnum.h:37-43 `NamedEnumDef` without the orders. -/
structure Def where
  enm : Int
  name : List Nat
deriving DecidableEq, Repr

/-- namedEnum.h:46-60 `NamedEnum` with the orders of the definitions. -/
structure E where
  items : List Def
  nameOrder : List Nat
  enmOrder : List Nat
deriving DecidableEq, Repr

/-- The definition at an index; orders are indices of the array always. -/
def item (defs : List Def) (i : Nat) : Def := (defs[i]?).getD ⟨0, []⟩

/-- namedEnum.h:72, `ContByName::operator[]` of two indices compared by `std::less<ConstStrA>`; the argument
is what is stored in `order`. -/
def lessName (defs : List Def) (i j : Nat) : Bool :=
  match LS.StrCmp.cmp (item defs i).name (item defs j).name with
  | .ok c => c == .less
  | .error _ => false

/-- namedEnum.h:87, the same of `ContByEnum`. -/
def lessEnm (defs : List Def) (i j : Nat) : Bool := decide ((item defs i).enm < (item defs j).enm)

/-- namedEnum.h:96-101 `orderByName` with the constructor of `ContByName` (69-71): the initial orders are the indices,
the sort swaps orders. -/
def orderByName (defs : List Def) : Option (List Nat) := LS.Heap.sort (lessName defs) (List.range defs.length)

/-- namedEnum.h:103-108 `orderByEnum`. -/
def orderByEnum (defs : List Def) : Option (List Nat) := LS.Heap.sort (lessEnm defs) (List.range defs.length)

/-- namedEnum.h:132-138: the constructor. -/
def make (defs : List Def) : Option E :=
  match orderByName defs with
  | none => none
  | some n =>
    match orderByEnum defs with
    | none => none
    | some e => some { items := defs, nameOrder := n, enmOrder := e }

/-- namedEnum.h:149-162 and 168-178: the loop of both searches; `probe c` compares what is looked for with the item
at place `c` of the order. The result is the place. -/
def search (probe : Nat → Option Cmp) : (fuel h t : Nat) → Option (Option Nat)
  | 0, h, t => if h < t then none else some none
  | fuel + 1, h, t =>
    if h < t then
      match probe ((h + t) / 2) with
      | none => none
      | some .less => search probe fuel h ((h + t) / 2)
      | some .greater => search probe fuel ((h + t) / 2 + 1) t
      | some _ => some (some ((h + t) / 2))
    else some none

/-- namedEnum.h:153-154. -/
def probeName (e : E) (name : List Nat) (c : Nat) : Option Cmp :=
  match e.nameOrder[c]? with
  | none => none
  | some i =>
    match e.items[i]? with
    | none => none
    | some d =>
      match LS.StrCmp.cmp name d.name with
      | .ok r => some r
      | .error _ => none

/-- namedEnum.h:172-176. -/
def probeEnm (e : E) (v : Int) (c : Nat) : Option Cmp :=
  match e.enmOrder[c]? with
  | none => none
  | some i =>
    match e.items[i]? with
    | none => none
    | some d => some (if v < d.enm then .less else if v > d.enm then .greater else .equal)

/-- namedEnum.h:147-163 `find`: the enumerator, or `some none` when there is none. -/
def E.find (e : E) (name : List Nat) : Option (Option Int) :=
  match search (probeName e name) e.items.length 0 e.items.length with
  | none => none
  | some none => some none
  | some (some c) =>
    match e.nameOrder[c]? with
    | none => none
    | some i => (e.items[i]?).map (fun d => some d.enm)

/-- namedEnum.h:140-145 `operator[](name)`: `none` inside is the exception `UnknownEnumName`. -/
def E.byName (e : E) (name : List Nat) : Option (Option Int) := e.find name

/-- namedEnum.h:166-180 `operator[](enm)`; an empty string when there is none. -/
def E.byEnm (e : E) (v : Int) : Option (List Nat) :=
  match search (probeEnm e v) e.items.length 0 e.items.length with
  | none => none
  | some none => some []
  | some (some c) =>
    match e.enmOrder[c]? with
    | none => none
    | some i => (e.items[i]?).map (fun d => d.name)

/-- namedEnum.h:184-195 `toString`. -/
def E.toString (e : E) (sep : List Nat) : List Nat :=
  match e.items with
  | [] => []
  | d :: ds => ds.foldl (fun s d => s ++ sep ++ d.name) d.name

end LS.NamedEnum

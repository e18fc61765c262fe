/-
`Variant`, base/containers/variant.h:18-260 and variant.cpp:13-49: a value of any type, or a reference to a variable.

Simplified: types are numbers, values are numbers with `==` as comparison. Variables that are referred to have the type they
are referred with (a reference to a base of an object of another polymorphic type is not modelled). `base a b`: a pointer to `a`
is caught as a pointer to `b` (`b` is an accessible base of `a`). Sharing and counting of the data is C47's matter and left out:
data is never changed.
-/

namespace LS.Variant

/-- The variables of the program: type and value; `none` is dead. -/
abbrev Mem := Nat → Option (Nat × Nat)

/-- `dataPtr`: NULL, `DataImpl<T>` or `DataImpl<const T &>`. -/
inductive Var where
  | null
  | val (ty v : Nat)
  | ref (ty addr : Nat)
deriving DecidableEq

/-- Results. -/
inductive Ans (α : Type) where
  | ok (a : α)
  /-- the null pointer exception -/
  | nullExn
  /-- `std::bad_cast` -/
  | badCast
  /-- undefined behaviour -/
  | ub
deriving DecidableEq

/-- `ref`, variant.h:212-215. -/
def mkRef (ty addr : Nat) : Var := .ref ty addr

/-- `getType`, variant.cpp:15-18 and variant.h:185. -/
def getType : Var → Ans Nat
  | .null => .nullExn
  | .val ty _ => .ok ty
  | .ref ty _ => .ok ty

/-- `*getContent()`, variant.h:184. -/
def content (m : Mem) : Var → Ans Nat
  | .null => .ub
  | .val _ v => .ok v
  | .ref _ a => match m a with
    | none => .ub
    | some (_, v) => .ok v

/-- `isType<T>`, variant.h:222-225. -/
def isType (t : Nat) (x : Var) : Ans Bool :=
  match getType x with
  | .ok ty => .ok (ty == t)
  | .nullExn => .nullExn
  | .badCast => .badCast
  | .ub => .ub

/-- `getValue<T>`, variant.h:232-236. -/
def getValue (m : Mem) (t : Nat) (x : Var) : Ans Nat :=
  match isType t x with
  | .ok true => content m x
  | .ok false => .badCast
  | .nullExn => .nullExn
  | .badCast => .badCast
  | .ub => .ub

/-- `getPtr<T>`, variant.h:238-249, as whether a pointer is returned: exceptions in the `try` give NULL. -/
def getPtr (base : Nat → Nat → Bool) (t : Nat) (x : Var) : Bool :=
  match x, isType t x with
  | _, .ok true => true
  -- `throwPtr`, variant.h:186
  | .val ty _, .ok false => base ty t
  | .ref ty _, .ok false => base ty t
  | _, _ => false

/-- `canConvertTo<T>`, variant.h:227-230. -/
def canConvertTo (base : Nat → Nat → Bool) (t : Nat) (x : Var) : Bool := getPtr base t x

/-- `isNull`, variant.cpp:20-22. -/
def isNull (x : Var) : Bool := x == .null

/-- `same`, variant.h:189-192; the first one is not NULL. -/
def same (m : Mem) (x y : Var) : Ans Bool :=
  if isNull y then .ok false
  else match getType x, getType y with
  | .ok a, .ok b =>
    if a = b then
      match content m x, content m y with
      | .ok v, .ok w => .ok (v == w)
      | _, _ => .ub
    else .ok false
  | _, _ => .ub

/-- `operator==(const Variant &)`, variant.cpp:37-41. -/
def eq (m : Mem) (x y : Var) : Ans Bool :=
  if isNull y then .ok (isNull x)
  else if isNull x then .ok (isNull y)
  else same m x y

/-- `operator==(const T &)`, variant.h:251-254. -/
def eqT (m : Mem) (x : Var) (t v : Nat) : Ans Bool :=
  match isType t x with
  | .ok true => match content m x with
    | .ok w => .ok (w == v)
    | r => match r with | .nullExn => .nullExn | .badCast => .badCast | _ => .ub
  | .ok false => .ok false
  | .nullExn => .nullExn
  | .badCast => .badCast
  | .ub => .ub

/-- `isolate`, variant.cpp:24-27, with `clone`, variant.h:188: the copy of a reference refers to the same variable. -/
def isolate : Var → Var
  | .null => .null
  | .val t v => .val t v
  | .ref t a => .ref t a

/-- `throwIt`, variant.cpp:47-49: type and value that are thrown; NULL is not tested. -/
def throwIt (m : Mem) (x : Var) : Ans (Nat × Nat) :=
  match getType x, content m x with
  | .ok t, .ok v => .ok (t, v)
  | _, _ => .ub

end LS.Variant

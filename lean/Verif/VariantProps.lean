/-
C155: a variant holds what was put into it. Model: `Verif/Variant.lean`.
-/
import Verif.Variant

namespace LS.Variant

/-- Read with its type a variant gives the value that was put into it; with any other type it throws. -/
theorem C155_value (m : Mem) (t u v : Nat) :
    getType (.val t v) = .ok t ∧ getValue m u (.val t v) = (if u = t then .ok v else .badCast) ∧
    throwIt m (.val t v) = .ok (t, v) := by
  refine ⟨rfl, ?_, rfl⟩
  by_cases h : u = t
  · subst h; simp [getValue, isType, getType, content]
  · have : (t == u) = false := by simp; omega
    simp [getValue, isType, getType, this, h]

example : getValue (fun _ => none) 3 (.val 3 42) = .ok 42 := by decide

/-- A variant that refers to a variable gives the value the variable has now. -/
theorem C155_ref (m : Mem) (t a v : Nat) (h : m a = some (t, v)) :
    getValue m t (mkRef t a) = .ok v ∧ throwIt m (mkRef t a) = .ok (t, v) ∧
    ∀ u, u ≠ t → getValue m u (mkRef t a) = .badCast := by
  refine ⟨by simp [mkRef, getValue, isType, getType, content, h], by simp [mkRef, throwIt, getType, content, h], ?_⟩
  intro u hu
  have : (t == u) = false := by simp; omega
  simp [mkRef, getValue, isType, getType, this]

example : getValue (fun a => if a = 7 then some (3, 42) else none) 3 (mkRef 3 7) = .ok 42 := by decide

/-- A pointer is given exactly for the type itself and the bases it converts to, and the empty variant gives none, without an
exception. -/
theorem C155_ptr (base : Nat → Nat → Bool) (u : Nat) (x : Var) :
    getPtr base u x = true ↔ ∃ t, getType x = .ok t ∧ (t = u ∨ base t u = true) := by
  cases x with
  | null => simp [getPtr, isType, getType]
  | val t v =>
    by_cases h : t = u
    · simp [getPtr, isType, getType, h]
    · have : (t == u) = false := by simpa using h
      simp [getPtr, isType, getType, this, h]
  | ref t a =>
    by_cases h : t = u
    · simp [getPtr, isType, getType, h]
    · have : (t == u) = false := by simpa using h
      simp [getPtr, isType, getType, this, h]

example : getPtr (fun a b => a == 5 && b == 2) 2 (.val 5 1) = true := by decide

/-- It converts to a type exactly when it gives a pointer. -/
theorem C155_convert (base : Nat → Nat → Bool) (u : Nat) (x : Var) :
    canConvertTo base u x = true ↔ ∃ t, getType x = .ok t ∧ (t = u ∨ base t u = true) := C155_ptr base u x

example : canConvertTo (fun _ _ => false) 2 (.val 5 1) = false := by decide

/-- What a variant stands for: nothing, or a type and a value. -/
def meaning (m : Mem) : Var → Option (Option (Nat × Nat))
  | .null => some none
  | .val t v => some (some (t, v))
  | .ref t a => (m a).map fun p => some (t, p.2)

/-- Two variants are equal exactly when both are empty or types and values are the same, whether they hold the value or refer to
it. -/
theorem C155_eq (m : Mem) (x y : Var) (p q : Option (Nat × Nat)) (hx : meaning m x = some p) (hy : meaning m y = some q) :
    eq m x y = .ok (decide (p = q)) := by
  have key : ∀ x p, meaning m x = some p → (x = .null ∧ p = none) ∨
      (isNull x = false ∧ ∃ t v, p = some (t, v) ∧ getType x = .ok t ∧ content m x = .ok v) := by
    intro x p h
    cases x with
    | null => simp [meaning] at h; exact .inl ⟨rfl, h.symm⟩
    | val t v => simp [meaning] at h; exact .inr ⟨rfl, t, v, h.symm, rfl, rfl⟩
    | ref t a =>
      simp only [meaning] at h
      cases hm : m a with
      | none => simp [hm] at h
      | some r =>
        obtain ⟨t', v⟩ := r
        simp [hm] at h
        exact .inr ⟨rfl, t, v, h.symm, rfl, by simp [content, hm]⟩
  rcases key x p hx with ⟨rfl, rfl⟩ | ⟨nx, t, v, rfl, tx, cx⟩
  · rcases key y q hy with ⟨rfl, rfl⟩ | ⟨ny, s, w, rfl, ty, cy⟩
    · simp [eq, isNull]
    · simp [eq, ny]; simp [isNull]
  · rcases key y q hy with ⟨rfl, rfl⟩ | ⟨ny, s, w, rfl, ty, cy⟩
    · simp [eq, isNull] at nx ⊢; exact nx
    · simp only [eq, ny, nx, same, tx, ty, cx, cy, Bool.false_eq_true, if_false]
      by_cases h : t = s
      · subst h; by_cases hv : v = w <;> simp [hv]
      · simp [h]

example : eq (fun _ => some (1, 5)) (.val 1 5) (.ref 1 0) = .ok true := by decide

/-- Comparing with a value: a variant with something in it is equal to it exactly when type and value are the same. -/
theorem C155_eqvalue_partial (m : Mem) (x : Var) (t v s w : Nat) (hx : meaning m x = some (some (t, v))) :
    eqT m x s w = .ok (decide (t = s ∧ v = w)) := by
  have tx : getType x = .ok t ∧ content m x = .ok v := by
    cases x with
    | null => simp [meaning] at hx
    | val a b => simp [meaning] at hx; obtain ⟨rfl, rfl⟩ := hx; exact ⟨rfl, rfl⟩
    | ref a b =>
      simp only [meaning] at hx
      cases hm : m b with
      | none => simp [hm] at hx
      | some r =>
        obtain ⟨t', v'⟩ := r
        simp [hm] at hx
        obtain ⟨rfl, rfl⟩ := hx
        exact ⟨rfl, by simp [content, hm]⟩
  by_cases h : t = s
  · subst h
    by_cases hv : v = w <;> simp [eqT, isType, tx.1, tx.2, hv]
  · have : (t == s) = false := by simpa using h
    simp [eqT, isType, tx.1, this, h]

example : eqT (fun _ => none) (.val 1 5) 1 5 = .ok true := by decide

/-- The isolated copy is equal to the original and, of a held value, does not change. -/
theorem C155_isolate_partial (m m' : Mem) (x : Var) (p : Option (Nat × Nat)) (hx : meaning m x = some p) :
    eq m x (isolate x) = .ok true ∧ (∀ t v, x = .val t v → meaning m' (isolate x) = some (some (t, v))) := by
  have e : isolate x = x := by cases x <;> rfl
  refine ⟨?_, ?_⟩
  · rw [e, C155_eq m x x p p hx hx]; simp
  · rintro t v rfl; rfl

example : isolate (.val 1 5) = .val 1 5 := by decide

/-- The isolated copy of a reference still refers to the variable: it changes with it, and dies with it. -/
theorem C155_isolate_violated (t a v w : Nat) :
    getValue (fun _ => some (t, v)) t (isolate (mkRef t a)) = .ok v ∧
    getValue (fun _ => some (t, w)) t (isolate (mkRef t a)) = .ok w ∧
    getValue (fun _ => none) t (isolate (mkRef t a)) = .ub := by
  simp [isolate, mkRef, getValue, isType, getType, content]

/-- Comparing an empty variant with a value throws. -/
theorem C155_null_violated (m : Mem) (t v : Nat) :
    eqT m .null t v = .nullExn ∧ isType t .null = .nullExn ∧ eq m .null (.val t v) = .ok false := ⟨rfl, rfl, rfl⟩

/-- Throwing an empty variant uses the null pointer. -/
theorem C155_throw_violated (m : Mem) : throwIt m .null = .ub := rfl

end LS.Variant

/-
C157: maps with automatic numbers. Model: `Verif/IndexMap.lean`.
-/
import Verif.IndexMap

namespace LS.IndexMap

variable {V : Type}

/-- Calls that keep the numbers: no `replace`, no key of `K` or more. -/
def Op.Kept (K : Nat) : Op V → Prop
  | .insert id _ => id < K
  | .replace _ _ => False
  | _ => True

/-- How many times `add` is called. -/
def adds : List (Op V) → Nat
  | [] => 0
  | .add _ :: l => adds l + 1
  | _ :: l => adds l

/-- What a call does to the next number. -/
theorem op_next (K : Nat) (s : St V) (o : Op V) (h : o.Kept K) (hb : s.next + 1 < M) (hK : K < M) :
    s.next ≤ (s.op o).next ∧ (s.op o).next ≤ max s.next K + adds [o] ∧
    (∀ id, (s.op o).m id ≠ none → s.m id ≠ none ∨ id < (s.op o).next) ∧
    (∀ id v, o = .insert id v → id < (s.op o).next) ∧ (∀ v, o = .add v → s.next < (s.op o).next) := by
  cases o with
  | insert id v =>
    have h : id < K := h
    simp only [St.op, St.insert, adds]
    have e : (id + 1) % M = id + 1 := Nat.mod_eq_of_lt (by omega)
    rw [e]
    refine ⟨by split <;> omega, by split <;> omega, ?_, ?_, by simp⟩
    · intro k hk
      by_cases hki : k = id
      · right; subst hki; split <;> omega
      · left; simpa [put, hki] using hk
    · intro k w hk
      simp at hk; rw [← hk.1]; split <;> omega
  | add v =>
    simp only [St.op, St.insert, St.getNextId, adds]
    have e : (s.next + 1) % M = s.next + 1 := Nat.mod_eq_of_lt hb
    rw [e]
    simp only [Nat.le_refl, if_true]
    refine ⟨by omega, by omega, ?_, by simp, by intros; omega⟩
    intro k hk
    by_cases hki : k = s.next
    · right; omega
    · left; simpa [put, hki] using hk
  | replace id v => exact h.elim
  | erase id =>
    simp only [St.op, St.erase, adds]
    cases e : s.m id with
    | none => exact ⟨Nat.le_refl _, by simp; omega, fun k hk => .inl hk, by simp, by simp⟩
    | some v =>
      refine ⟨Nat.le_refl _, by simp; omega, fun k hk => ?_, by simp, by simp⟩
      left
      by_cases hki : k = id
      · simp [hki] at hk
      · simpa [hki] using hk
  | clear => exact ⟨Nat.le_refl _, by simp [St.op, St.clear, adds]; omega, fun k hk => by simp [St.op, St.clear] at hk, by simp, by simp⟩

theorem adds_cons (o : Op V) (l : List (Op V)) : adds (o :: l) = adds [o] + adds l := by
  cases o <;> simp [adds]; omega

theorem run_next (K : Nat) (hK : K < M) (l : List (Op V)) : ∀ (s : St V), (∀ o ∈ l, o.Kept K) →
    max s.next K + adds l + 1 < M → (∀ id, s.m id ≠ none → id < s.next) →
    s.next ≤ (St.run l s).next ∧ (∀ id, (St.run l s).m id ≠ none → id < (St.run l s).next) ∧
    (∀ id v, Op.insert id v ∈ l → id < (St.run l s).next) ∧ s.next + adds l ≤ (St.run l s).next ∧
    (St.run l s).next ≤ max s.next K + adds l := by
  induction l with
  | nil => intro s _ _ hm; exact ⟨Nat.le_refl _, hm, by simp, by simp [St.run, adds], by simp only [St.run, adds]; omega⟩
  | cons o l ih =>
    intro s hk hb hm
    have a := adds_cons o l
    obtain ⟨h1, h2, h3, h4, h5⟩ := op_next K s o (hk o (by simp)) (by omega) hK
    have hm' : ∀ id, (s.op o).m id ≠ none → id < (s.op o).next := by
      intro id hid
      rcases h3 id hid with h | h
      · have := hm id h; omega
      · exact h
    obtain ⟨i1, i2, i3, i4, i5⟩ := ih (s.op o) (fun p hp => hk p (by simp [hp])) (by omega) hm'
    have ha : s.next + adds [o] ≤ (s.op o).next := by
      cases o with
      | add v => have := h5 v rfl; simp [adds]; omega
      | _ => simpa [adds] using h1
    simp only [St.run]
    refine ⟨by omega, i2, ?_, by omega, by omega⟩
    intro id v hmem
    rcases List.mem_cons.1 hmem with h | h
    · have := h4 id v h.symm; omega
    · exact i3 id v h

/-- After any calls the next number is not used, and no number at or above it; neither was it a number of an earlier `insert`.
Partial: without `replace`, and while numbers stay below the greatest. -/
theorem C157_unused_partial (K : Nat) (l : List (Op V)) (hk : ∀ o ∈ l, o.Kept K) (hb : K + adds l + 2 < M) :
    (∀ id, (St.run l St.empty).getNextId ≤ id → (St.run l St.empty).m id = none) ∧
    (∀ id v, Op.insert id v ∈ l → id < (St.run l St.empty).getNextId) := by
  obtain ⟨_, h2, h3, _, _⟩ := run_next K (by omega) l St.empty hk (by simp only [St.empty]; omega) (by simp [St.empty])
  refine ⟨?_, h3⟩
  intro id hid
  apply Classical.byContradiction
  intro hc
  have := h2 id hc
  simp only [St.getNextId] at hid
  omega

example : (St.run [.insert 7 'a', .add 'b', .erase 8, .clear] St.empty).getNextId = 9 := by decide

/-- The numbers given by `add` are all different: the number of a later `add` is greater. Partial: as above. -/
theorem C157_different_partial (K : Nat) (l r : List (Op V)) (v : V) (hk : ∀ o ∈ l ++ .add v :: r, o.Kept K)
    (hb : K + adds (l ++ .add v :: r) + 2 < M) :
    (St.run l St.empty).getNextId < (St.run (l ++ .add v :: r) St.empty).getNextId := by
  have ap : ∀ (a b : List (Op V)), adds (a ++ b) = adds a + adds b := by
    intro a b
    induction a with
    | nil => simp [adds]
    | cons o a ih => rw [List.cons_append, adds_cons, ih, adds_cons o a]; omega
  have ra : ∀ (a b : List (Op V)) (s : St V), St.run (a ++ b) s = St.run b (St.run a s) := by
    intro a b
    induction a with
    | nil => intro s; rfl
    | cons o a ih => intro s; exact ih _
  have e := ap l (.add v :: r)
  obtain ⟨_, h2, _, _, h5⟩ := run_next K (by omega) l St.empty (fun o ho => hk o (by simp [ho]))
    (by simp only [St.empty]; omega) (by simp [St.empty])
  have h5' : (St.run l St.empty).next ≤ max 1 K + adds l := h5
  obtain ⟨_, _, _, g4, _⟩ := run_next K (by omega) (.add v :: r) (St.run l St.empty) (fun o ho => hk o (by simp at ho ⊢; right; exact ho))
    (by omega) h2
  rw [ra]
  have : adds (Op.add v :: r) = adds r + 1 := rfl
  simp only [St.getNextId]; omega

example : (St.run [.add 'a', .erase 1, .add 'b', .add 'c'] St.empty).find 3 = some 'c' := by decide

/-- What is added with the next number is found under it, when it is not used; other values stay. -/
theorem C157_add (s : St V) (v : V) (h : s.m s.getNextId = none) :
    (s.op (.add v)).find s.getNextId = some v ∧ ∀ k, k ≠ s.getNextId → (s.op (.add v)).find k = s.find k := by
  simp only [St.op, St.insert, St.find, put, St.getNextId] at h ⊢
  refine ⟨by simp [h], ?_⟩
  intro k hk; simp [hk]

/-- A number that is used keeps its value. -/
theorem C157_kept (s : St V) (id : Nat) (v o : V) (h : s.find id = some o) :
    (s.insert id v).find id = some o ∧ (s.replace id v).find id = some v ∧
    ∀ k, k ≠ id → (s.insert id v).find k = s.find k ∧ (s.replace id v).find k = s.find k := by
  simp only [St.find] at h ⊢
  refine ⟨by simp [St.insert, put, h], by simp [St.replace], ?_⟩
  intro k hk; simp [St.insert, St.replace, put, hk]

example : ((St.empty.insert 3 'a').insert 3 'b').find 3 = some 'a' := by decide

/-- `replace` with a new number does not count: the next number is used, and adding under it does nothing. -/
theorem C157_replace_violated :
    (St.run [.replace 1 'a'] St.empty).getNextId = 1 ∧ (St.run [.replace 1 'a'] St.empty).find 1 = some 'a' ∧
    (St.run [.replace 1 'a', .add 'b'] St.empty).find 1 = some 'a' := by decide

/-- After the greatest number the next number starts from zero and meets numbers that are used. -/
theorem C157_wrap_violated :
    (St.run [.add 'a', .insert (2 ^ 64 - 1) 'm'] St.empty).getNextId = 0 ∧
    (St.run [.add 'a', .insert (2 ^ 64 - 1) 'm', .add 'b'] St.empty).getNextId = 1 ∧
    (St.run [.add 'a', .insert (2 ^ 64 - 1) 'm', .add 'b', .add 'c'] St.empty).find 1 = some 'a' := by decide

/-- A constant map still shows the object erased last, and only it; everything else as it was. -/
theorem C157_lazy (s : St V) (id : Nat) (v : V) (h : s.find id = some v) :
    (s.erase id).findConst id = some v ∧ (∀ k, k ≠ id → (s.erase id).findConst k = s.find k) ∧
    (s.erase id).getNextId = s.getNextId ∧ ∀ k, k ≠ id → (s.erase id).find k = s.find k := by
  simp only [St.find] at h
  have e : s.erase id = ⟨fun k => if k = id then none else s.m k, s.next, some (id, v)⟩ := by simp only [St.erase, h]
  rw [e]
  refine ⟨by simp [St.findConst], ?_, rfl, ?_⟩
  · intro k hk
    simp only [St.findConst, hk, if_false, St.find]
    cases s.m k <;> rfl
  · intro k hk; simp [St.find, hk]

/-- A new object under the same number hides the erased one; an object under another number does not. -/
theorem C157_again (s : St V) (id : Nat) (v w : V) (h : s.find id = some v) :
    ((s.erase id).insert id w).findConst id = some w ∧ ((s.erase id).replace id w).findConst id = some w ∧
    ∀ k, k ≠ id → ((s.erase id).insert k w).findConst id = some v ∧ ((s.erase id).replace k w).findConst id = some v := by
  simp only [St.find] at h
  refine ⟨by simp [St.erase, h, St.insert, put, St.findConst], by simp [St.erase, h, St.replace, St.findConst], ?_⟩
  intro k hk
  have hk' : ¬ id = k := fun e => hk e.symm
  simp [St.erase, h, St.insert, St.replace, put, St.findConst, hk']

/-- Erasing a number that is not there changes nothing. -/
theorem C157_absent (s : St V) (id : Nat) (h : s.find id = none) : s.erase id = s := by
  simp only [St.find] at h
  simp [St.erase, h]

example : (((St.empty.insert 3 'a').erase 3).erase 3).findConst 3 = some 'a' := by decide

/-- A map that is not constant does not show the erased object. -/
theorem C157_lazy_violated (s : St V) (id : Nat) : (s.erase id).find id = none := by
  simp only [St.erase, St.find]
  cases h : s.m id <;> simp [h]

/-- The erased object is shown even after everything was cleared. -/
theorem C157_clear_violated : ((St.empty.insert 3 'a').erase 3).clear.findConst 3 = some 'a' := by decide

end LS.IndexMap

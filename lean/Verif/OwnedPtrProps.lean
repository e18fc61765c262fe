import Verif.OwnedPtr
/-!
# C136: pointers with ownership

Specification: every object that exists has exactly one owner, which is one of the pointers or the program itself;
a pointer without ownership never destroys anything; objects are destroyed by the allocator that made them.
-/

namespace LS.OwnedPtr

/-- The variable owns the object at `o`. -/
def owns (o : Nat) (x : Option Var) : Bool :=
  match x with
  | some x => decide (x.ptr = some o) && decide (x.owned = some true)
  | none => false

/-- Number of owners of the object at `o`. -/
def owners (s : St) (o : Nat) : Nat := s.vars.countP (owns o) + s.raw.count o

/-- The variable refers to the address `o`. -/
def refers (o : Nat) (x : Option Var) : Bool :=
  match x with
  | some x => decide (x.ptr = some o)
  | none => false

/-- Rules of use that do not depend on addresses: constructors that do not set the flag are not used, and the inherited
`clear` and `attach` are called only on owners. -/
def rule (s : St) : Op → Bool
  | .ctor0 _ _ => false
  | .ctorA _ _ _ => false
  | .clear v => match s.vars[v]? with
    | some (some x) => decide (x.owned = some true) || decide (x.ptr = none)
    | _ => true
  | .attach v _ => match s.vars[v]? with
    | some (some x) => decide (x.owned = some true)
    | _ => true
  | _ => true

/-- Rules about addresses and allocators: a new object is not made at an address some pointer still has, and a pointer
gets the allocator of its object. -/
def ruleA (s : St) : Op → Bool
  | .new o _ => !s.vars.any (refers o)
  | .ctor _ (some o) a => decide (s.alive o = some a)
  | .attach v o => match s.vars[v]? with
    | some (some x) => decide (s.alive o = some x.alloc)
    | _ => true
  | _ => true

/-- All steps of the history keep the rule `f`. -/
def keeps (f : St → Op → Bool) (s : St) : List Op → Bool
  | [] => true
  | op :: l => f s op && (match step s op with
    | .ok s' => keeps f s' l
    | .error _ => true)

structure Inv (s : St) : Prop where
  cnt : ∀ o, owners s o = if (s.alive o).isSome then 1 else 0
  flag : ∀ x, some x ∈ s.vars → x.owned ≠ none

/-- Pointers have the allocators of their objects. -/
def Al (s : St) : Prop := ∀ x o a, some x ∈ s.vars → x.ptr = some o → s.alive o = some a → x.alloc = a

theorem countP_set {α : Type} (f : α → Bool) (x : α) : ∀ (l : List α) (i : Nat) (y : α), l[i]? = some y →
    (l.set i x).countP f + (if f y then 1 else 0) = l.countP f + (if f x then 1 else 0)
  | [], i, y, h => by simp at h
  | a :: l, 0, y, h => by
    simp at h
    subst h
    simp only [List.set_cons_zero, List.countP_cons]
    omega
  | a :: l, i + 1, y, h => by
    have := countP_set f x l i y (by simpa using h)
    simp only [List.set_cons_succ, List.countP_cons]
    omega

/-- 1 for an owner. -/
def own1 (o : Nat) (x : Option Var) : Nat := if owns o x then 1 else 0

theorem own1_none (o : Nat) : own1 o none = 0 := rfl
theorem own1_false (o : Nat) (p : Option Nat) (a : Nat) : own1 o (some ⟨p, some false, a⟩) = 0 := by simp [own1, owns]
theorem own1_true (o : Nat) (p : Option Nat) (a : Nat) : own1 o (some ⟨p, some true, a⟩) = if p = some o then 1 else 0 := by simp [own1, owns]

theorem put_count {s : St} {v : Nat} {old : Option Var} (h : s.vars[v]? = some old) (x : Option Var) (o : Nat) :
    (s.put v x).vars.countP (owns o) + own1 o old = s.vars.countP (owns o) + own1 o x :=
  countP_set (owns o) x s.vars v old h

theorem get_ok {s : St} {v : Nat} {x : Var} (h : s.get v = .ok x) : s.vars[v]? = some (some x) := by
  unfold St.get at h
  split at h
  · cases h; assumption
  · cases h

theorem get_of {s : St} {v : Nat} {x : Var} (h : s.vars[v]? = some (some x)) : s.get v = .ok x := by
  unfold St.get
  rw [h]

theorem free_ok {s : St} {v : Nat} (h : s.free v = .ok ()) : s.vars[v]? = some none := by
  unfold St.free at h
  split at h
  · assumption
  · cases h

theorem mem_of {s : St} {v : Nat} {x : Option Var} (h : s.vars[v]? = some x) : x ∈ s.vars := List.mem_iff_getElem?.mpr ⟨v, h⟩

theorem put_at {s : St} {v : Nat} {old : Option Var} (h : s.vars[v]? = some old) (x : Option Var) : (s.put v x).vars[v]? = some x := by
  rw [List.getElem?_eq_some_iff] at h
  show (s.vars.set v x)[v]? = some x
  rw [List.getElem?_set, if_pos rfl, if_pos h.1]

theorem put_ne {s : St} {v w : Nat} (h : v ≠ w) (x : Option Var) : (s.put v x).vars[w]? = s.vars[w]? := by
  show (s.vars.set v x)[w]? = s.vars[w]?
  rw [List.getElem?_set_ne h]

theorem put_mem {s : St} {v : Nat} {x : Option Var} {y : Var} (h : some y ∈ (s.put v x).vars) : some y ∈ s.vars ∨ x = some y := by
  rcases List.mem_or_eq_of_mem_set h with h | h
  · exact Or.inl h
  · exact Or.inr h.symm

theorem isOwned_ok {x : Var} {b : Bool} (h : x.isOwned = .ok b) : x.owned = some b := by
  unfold Var.isOwned at h
  split at h
  · cases h; assumption
  · cases h

theorem isOwned_of {s : St} (h : Inv s) {x : Var} (hx : some x ∈ s.vars) : ∃ b, x.owned = some b ∧ x.isOwned = .ok b := by
  cases e : x.owned with
  | none => exact absurd e (h.flag x hx)
  | some b => exact ⟨b, rfl, by unfold Var.isOwned; rw [e]⟩

/-- Inv after a change of one variable, with the same objects. -/
theorem inv_put {s : St} (h : Inv s) {v : Nat} {old x : Option Var} (hv : s.vars[v]? = some old) (hc : ∀ o, own1 o x = own1 o old)
    (hf : ∀ y, x = some y → y.owned ≠ none) : Inv (s.put v x) := by
  refine ⟨?_, ?_⟩
  · intro o
    rw [show (s.put v x).alive = s.alive from rfl, ← h.cnt o, owners, owners]
    have := put_count hv x o
    have := hc o
    have e : (s.put v x).raw = s.raw := rfl
    rw [e]
    omega
  · intro y hy
    rcases put_mem hy with hy | hy
    · exact h.flag y hy
    · exact hf y hy

/-- Effect of `clear` on an owner or a null pointer. -/
theorem clear_inv {s s' : St} (h : Inv s) {v : Nat} {x : Var} (hv : s.vars[v]? = some (some x)) (ho : x.owned = some true ∨ x.ptr = none)
    (hs : clearVar s v x = .ok s') : Inv s' ∧ s'.vars[v]? = some (some { x with ptr := none }) ∧ s'.raw = s.raw ∧
      (∀ w, w ≠ v → s'.vars[w]? = s.vars[w]?) ∧ (∀ o, o ∈ s.raw → s'.alive o = s.alive o) ∧ (∀ o a, s'.alive o = some a → s.alive o = some a) := by
  unfold clearVar at hs
  split at hs
  · rename_i e
    cases hs
    refine ⟨h, ?_, rfl, fun _ _ => rfl, fun _ _ => rfl, fun _ _ h => h⟩
    rw [hv]
    cases x
    simp only at e
    subst e
    rfl
  · rename_i o e
    rcases ho with ho | ho
    rotate_left
    · rw [ho] at e; cases e
    unfold destroyObj at hs
    split at hs
    · rename_i ha
      cases hs
      have ha' : s.alive o = some x.alloc := ha
      have own : own1 o (some x) = 1 := by
        cases x; simp only at e ho; subst e; subst ho; simp [own1, owns]
      have c1 := h.cnt o
      rw [ha'] at c1
      simp only [Option.isSome_some, if_true] at c1
      have p1 := put_count hv (some { x with ptr := none }) o
      have z : ∀ o, own1 o (some { x with ptr := none }) = 0 := by intro o; simp [own1, owns]
      rw [own, z] at p1
      rw [owners] at c1
      have r0 : s.raw.count o = 0 := by omega
      refine ⟨⟨?_, ?_⟩, put_at hv _, rfl, fun w hw => put_ne (Ne.symm hw) _, ?_, ?_⟩
      · intro o'
        rw [owners]
        show (s.put v (some { x with ptr := none })).vars.countP (owns o') + s.raw.count o' = if (upd s.alive o none o').isSome then 1 else 0
        by_cases e' : o' = o
        · subst e'
          rw [upd, if_pos rfl]
          simp only [Option.isSome_none, Bool.false_eq_true, if_false]
          omega
        · rw [upd, if_neg e', ← h.cnt o', owners]
          have p2 := put_count hv (some { x with ptr := none }) o'
          rw [z] at p2
          have : own1 o' (some x) = 0 := by
            rw [own1, owns, e]
            have : ¬ (some o = some o') := fun h => e' (by cases h; rfl)
            simp [this]
          omega
      · intro y hy
        rcases put_mem hy with hy | hy
        · exact h.flag y hy
        · cases hy
          exact fun e => h.flag x (mem_of hv) e
      · intro o' ho'
        show upd s.alive o none o' = s.alive o'
        rw [upd, if_neg]
        intro e'
        subst e'
        have := List.count_pos_iff.mpr ho'
        omega
      · intro o' a' h'
        have h2 : upd s.alive o none o' = some a' := h'
        rw [upd] at h2
        split at h2
        · cases h2
        · exact h2
    · cases hs

theorem clear_ok {s : St} (h : Inv s) (al : Al s) {v : Nat} {x : Var} (hv : s.vars[v]? = some (some x)) (ho : x.owned = some true ∨ x.ptr = none) :
    ∃ s', clearVar s v x = .ok s' := by
  unfold clearVar
  split
  · exact ⟨s, rfl⟩
  · rename_i o e
    rcases ho with ho | ho
    rotate_left
    · rw [ho] at e; cases e
    have own : owns o (some x) = true := by simp [owns, e, ho]
    have c1 := h.cnt o
    have : 0 < s.vars.countP (owns o) := List.countP_pos_iff.mpr ⟨_, mem_of hv, own⟩
    rw [owners] at c1
    cases ha : s.alive o with
    | none => rw [ha] at c1; simp only [Option.isSome_none, Bool.false_eq_true, if_false] at c1; omega
    | some a =>
      have := al x o a (mem_of hv) e ha
      unfold destroyObj
      rw [if_pos (show (s.put v (some { x with ptr := none })).alive o = some x.alloc from by rw [this]; exact ha)]
      exact ⟨_, rfl⟩

theorem give_inv {s s1 : St} {p : Option Nat} (h : Inv s) (hs : s.give p = .ok s1) :
    s1.vars = s.vars ∧ s1.alive = s.alive ∧ (∀ x, some x ∈ s1.vars → x.owned ≠ none) ∧
      ∀ o, owners s1 o + (if p = some o then 1 else 0) = if (s.alive o).isSome then 1 else 0 := by
  unfold St.give at hs
  split at hs
  · cases hs
    refine ⟨rfl, rfl, h.flag, ?_⟩
    intro o
    rw [← h.cnt o]
    simp
  · rename_i q
    split at hs
    · rename_i hm
      cases hs
      refine ⟨rfl, rfl, h.flag, ?_⟩
      intro o
      rw [← h.cnt o, owners, owners]
      show s.vars.countP (owns o) + (s.raw.erase q).count o + _ = _
      by_cases e : q = o
      · subst e
        rw [if_pos rfl, List.count_erase_self]
        have := List.count_pos_iff.mpr hm
        omega
      · rw [if_neg (by intro h; cases h; exact e rfl), List.count_erase_of_ne (Ne.symm e)]
        omega
    · cases hs

/-- Replacing a variable by one that owns `p`, after a plain pointer `p` was given. -/
theorem inv_give {s s1 : St} {p : Option Nat} (h : Inv s) (hs : s.give p = .ok s1) {v : Nat} {old : Option Var} (hv : s.vars[v]? = some old)
    (h0 : ∀ o, own1 o old = 0) (a : Nat) : Inv (s1.put v (some ⟨p, some true, a⟩)) := by
  obtain ⟨g1, g2, g3, g4⟩ := give_inv h hs
  rw [← g1] at hv
  refine ⟨?_, ?_⟩
  · intro o
    rw [show (s1.put v (some ⟨p, some true, a⟩)).alive = s1.alive from rfl, g2, ← g4 o, owners, owners]
    have p1 := put_count hv (some ⟨p, some true, a⟩) o
    rw [h0, own1_true] at p1
    have e : (s1.put v (some ⟨p, some true, a⟩)).raw = s1.raw := rfl
    rw [e]
    omega
  · intro y hy
    rcases put_mem hy with hy | hy
    · exact g3 y hy
    · cases hy; simp

theorem assign_inv {s s' : St} (h : Inv s) {v w : Nat} {x y : Var} (hv : s.vars[v]? = some (some x)) (hw : s.vars[w]? = some (some y))
    (hs : assignVar s v x y = .ok s') : Inv s' ∧ ∃ x' y', s'.vars[v]? = some (some x') ∧ s'.vars[w]? = some (some y') ∧ x'.ptr = y'.ptr ∧
      (x.ptr ≠ y.ptr → x' = ⟨y.ptr, some false, y.alloc⟩ ∧ y' = y) ∧ (x.ptr = y.ptr → s' = s) := by
  unfold assignVar at hs
  split at hs
  · rename_i e
    cases hs
    exact ⟨h, x, y, hv, hw, e.symm, fun h => absurd e.symm h, fun _ => rfl⟩
  · rename_i e
    have hvw : v ≠ w := by
      intro e'
      subst e'
      rw [hv] at hw
      cases hw
      exact e rfl
    split at hs
    · cases hs
    · rename_i b hb
      have hb' := isOwned_ok hb
      split at hs
      · cases hs
      · rename_i s1 h1
        cases hs
        cases b with
        | true =>
          rw [if_pos rfl] at h1
          obtain ⟨c1, c2, _, c4, _, _⟩ := clear_inv h hv (Or.inl hb') h1
          refine ⟨inv_put c1 c2 (by intro o; rw [own1_false]; simp [own1, owns]) (by intro y e; cases e; simp), _, y, put_at c2 _, ?_, rfl, fun _ => ⟨rfl, rfl⟩, fun h => absurd h.symm e⟩
          rw [put_ne hvw, c4 w (Ne.symm hvw)]
          exact hw
        | false =>
          simp only [Bool.false_eq_true, if_false] at h1
          cases h1
          refine ⟨inv_put h hv (by intro o; rw [own1_false]; simp [own1, owns, hb']) (by intro y e; cases e; simp), _, y, put_at hv _, ?_, rfl, fun _ => ⟨rfl, rfl⟩, fun h => absurd h.symm e⟩
          rw [put_ne hvw]
          exact hw

theorem take_inv {s s' : St} (h : Inv s) {v w : Nat} {x y : Var} (hv : s.vars[v]? = some (some x)) (hw : s.vars[w]? = some (some y))
    (hp : x.ptr = y.ptr) (hs : takeFlag s v w = .ok s') : Inv s' := by
  unfold takeFlag at hs
  rw [get_of hv, get_of hw] at hs
  simp only at hs
  split at hs
  · cases hs
  · cases hs; exact h
  · rename_i hb
    have hb' := isOwned_ok hb
    split at hs
    · cases hs
    · rename_i b hb2
      have hb2' := isOwned_ok hb2
      cases hs
      by_cases e : v = w
      · subst e
        rw [hv] at hw
        cases hw
        rw [hb'] at hb2'
        cases hb2'
        refine inv_put (inv_put h hv (by intro o; simp [own1, owns, hb']) (by intro y e; cases e; simp)) (put_at hv _) ?_ (by intro y e; cases e; simp)
        intro o
        simp [own1, owns]
      · refine ⟨?_, ?_⟩
        · intro o
          rw [if_neg e]
          show owners ((s.put v (some { x with owned := some b })).put w (some { y with owned := some false })) o = if (s.alive o).isSome then 1 else 0
          rw [← h.cnt o, owners, owners]
          have p1 := put_count hv (some { x with owned := some b }) o
          have p2 := put_count (s := s.put v (some { x with owned := some b })) (v := w) (by rw [put_ne e]; exact hw) (some { y with owned := some false }) o
          have z1 : own1 o (some x) = 0 := by simp [own1, owns, hb']
          have z2 : own1 o (some { y with owned := some false }) = 0 := by simp [own1, owns]
          have z3 : own1 o (some { x with owned := some b }) = own1 o (some y) := by simp [own1, owns, hb2', hp]
          rw [z1] at p1
          rw [z2] at p2
          show ((s.put v (some { x with owned := some b })).put w (some { y with owned := some false })).vars.countP (owns o) + s.raw.count o = _
          omega
        · intro z hz
          rw [if_neg e] at hz
          rcases put_mem hz with hz | hz
          · rcases put_mem hz with hz | hz
            · exact h.flag z hz
            · cases hz; simp
          · cases hz; simp

theorem bind_ok {α β : Type} {m : Except Err α} {f : α → Except Err β} {r : β} (h : (m >>= f) = .ok r) : ∃ a, m = .ok a ∧ f a = .ok r := by
  cases m with
  | ok a => exact ⟨a, rfl, h⟩
  | error e => cases h

theorem step_inv {s s' : St} {op : Op} (h : Inv s) (hr : rule s op = true) (hs : step s op = .ok s') : Inv s' := by
  cases op with
  | new o a =>
    simp only [step] at hs
    split at hs
    · rename_i hc
      cases hs
      refine ⟨?_, h.flag⟩
      intro o'
      have c := h.cnt o'
      rw [owners] at c ⊢
      show s.vars.countP (owns o') + (o :: s.raw).count o' = if (upd s.alive o (some a) o').isSome then 1 else 0
      rw [List.count_cons, upd]
      by_cases e : o' = o
      · subst e
        rw [hc.1] at c
        simp only [Option.isSome_none, Bool.false_eq_true, if_false] at c
        simp only [beq_self_eq_true, if_true, Option.isSome_some]
        omega
      · rw [if_neg e, if_neg (by simpa using (fun h => e (Eq.symm h)))]
        omega
    · cases hs
  | del o =>
    simp only [step] at hs
    split at hs
    · rename_i hm
      cases hs
      refine ⟨?_, h.flag⟩
      intro o'
      have c := h.cnt o'
      rw [owners] at c ⊢
      show s.vars.countP (owns o') + (s.raw.erase o).count o' = if (upd s.alive o none o').isSome then 1 else 0
      rw [upd]
      by_cases e : o' = o
      · subst e
        rw [List.count_erase_self, if_pos rfl]
        have := List.count_pos_iff.mpr hm
        simp only [Option.isSome_none, Bool.false_eq_true, if_false]
        split at c <;> omega
      · rw [if_neg e, List.count_erase_of_ne e]
        exact c
    · cases hs
  | ctor0 v a => cases hr
  | ctorA v p a => cases hr
  | ctor v p a =>
    simp only [step] at hs
    obtain ⟨u, h1, hs⟩ := bind_ok hs
    obtain ⟨s1, h2, hs⟩ := bind_ok hs
    cases hs
    exact inv_give h h2 (free_ok h1) (own1_none) a
  | copy v w =>
    simp only [step] at hs
    obtain ⟨u, h1, hs⟩ := bind_ok hs
    obtain ⟨y, h2, hs⟩ := bind_ok hs
    obtain ⟨b, h3, hs⟩ := bind_ok hs
    cases hs
    have hv := free_ok h1
    have hw := get_ok h2
    have hb := isOwned_ok h3
    have hvw : v ≠ w := by intro e; subst e; rw [hv] at hw; cases hw
    refine ⟨?_, ?_⟩
    · intro o
      show owners ((s.put v (some ⟨y.ptr, some b, y.alloc⟩)).put w (some { y with owned := some false })) o = if (s.alive o).isSome then 1 else 0
      rw [← h.cnt o, owners, owners]
      have p1 := put_count hv (some ⟨y.ptr, some b, y.alloc⟩) o
      have p2 := put_count (s := s.put v (some ⟨y.ptr, some b, y.alloc⟩)) (v := w) (by rw [put_ne hvw]; exact hw) (some { y with owned := some false }) o
      have z2 : own1 o (some { y with owned := some false }) = 0 := by simp [own1, owns]
      have z3 : own1 o (some ⟨y.ptr, some b, y.alloc⟩) = own1 o (some y) := by simp [own1, owns, hb]
      rw [own1_none] at p1
      rw [z2] at p2
      show ((s.put v (some ⟨y.ptr, some b, y.alloc⟩)).put w (some { y with owned := some false })).vars.countP (owns o) + s.raw.count o = _
      omega
    · intro z hz
      rcases put_mem hz with hz | hz
      · rcases put_mem hz with hz | hz
        · exact h.flag z hz
        · cases hz; simp
      · cases hz; simp
  | copyN v w =>
    simp only [step] at hs
    obtain ⟨u, h1, hs⟩ := bind_ok hs
    obtain ⟨y, h2, hs⟩ := bind_ok hs
    cases hs
    exact inv_put h (free_ok h1) (by intro o; rw [own1_false, own1_none]) (by intro y e; cases e; simp)
  | assign v w =>
    simp only [step] at hs
    obtain ⟨x, h1, hs⟩ := bind_ok hs
    obtain ⟨y, h2, hs⟩ := bind_ok hs
    exact (assign_inv h (get_ok h1) (get_ok h2) hs).1
  | take v w =>
    simp only [step] at hs
    obtain ⟨x, h1, hs⟩ := bind_ok hs
    obtain ⟨y, h2, hs⟩ := bind_ok hs
    obtain ⟨s1, h3, hs⟩ := bind_ok hs
    obtain ⟨a1, x', y', a2, a3, a4, _⟩ := assign_inv h (get_ok h1) (get_ok h2) h3
    exact take_inv a1 a2 a3 a4 hs
  | swap v w =>
    simp only [step] at hs
    obtain ⟨x, h1, hs⟩ := bind_ok hs
    obtain ⟨y, h2, hs⟩ := bind_ok hs
    cases hs
    have hv := get_ok h1
    have hw := get_ok h2
    by_cases e : v = w
    · subst e
      rw [hv] at hw
      cases hw
      exact inv_put (inv_put h hv (fun _ => rfl) (by intro y e; cases e; exact h.flag x (mem_of hv))) (put_at hv _) (fun _ => rfl) (by intro y e; cases e; exact h.flag x (mem_of hv))
    · refine ⟨?_, ?_⟩
      · intro o
        show owners ((s.put v (some y)).put w (some x)) o = if (s.alive o).isSome then 1 else 0
        rw [← h.cnt o, owners, owners]
        have p1 := put_count hv (some y) o
        have p2 := put_count (s := s.put v (some y)) (v := w) (by rw [put_ne e]; exact hw) (some x) o
        show ((s.put v (some y)).put w (some x)).vars.countP (owns o) + s.raw.count o = _
        omega
      · intro z hz
        rcases put_mem hz with hz | hz
        · rcases put_mem hz with hz | hz
          · exact h.flag z hz
          · cases hz; exact h.flag _ (mem_of hw)
        · cases hz; exact h.flag _ (mem_of hv)
  | detach v =>
    simp only [step] at hs
    obtain ⟨x, h1, hs⟩ := bind_ok hs
    have hv := get_ok h1
    split at hs
    · rename_i o e1 e2
      cases hs
      refine ⟨?_, ?_⟩
      · intro o'
        rw [owners]
        show (s.put v (some { x with owned := some false })).vars.countP (owns o') + (o :: s.raw).count o' = if (s.alive o').isSome then 1 else 0
        rw [← h.cnt o', owners, List.count_cons]
        have p1 := put_count hv (some { x with owned := some false }) o'
        have z2 : own1 o' (some { x with owned := some false }) = 0 := by simp [own1, owns]
        have z3 : own1 o' (some x) = if o = o' then 1 else 0 := by simp [own1, owns, e1, e2]
        rw [z2, z3] at p1
        simp only [beq_iff_eq]
        omega
      · intro z hz
        rcases put_mem hz with hz | hz
        · exact h.flag z hz
        · cases hz; simp
    · rename_i hn
      cases hs
      refine inv_put h hv ?_ (by intro y e; cases e; simp)
      intro o
      have : own1 o (some x) = 0 := by
        rw [own1, owns]
        by_cases c1 : x.ptr = some o
        · by_cases c2 : x.owned = some true
          · exact absurd c2 (hn o c1)
          · simp [c2]
        · simp [c1]
      rw [this]
      simp [own1, owns]
  | destroy v =>
    simp only [step] at hs
    obtain ⟨x, h1, hs⟩ := bind_ok hs
    obtain ⟨b, h2, hs⟩ := bind_ok hs
    have hv := get_ok h1
    have hb := isOwned_ok h2
    split at hs
    · cases hs
    · rename_i s1 h3
      cases hs
      cases b with
      | true =>
        rw [if_pos rfl] at h3
        obtain ⟨c1, c2, _⟩ := clear_inv h hv (Or.inl hb) h3
        exact inv_put c1 c2 (by intro o; rw [own1_none]; simp [own1, owns]) (by intro y e; cases e)
      | false =>
        simp only [Bool.false_eq_true, if_false] at h3
        cases h3
        exact inv_put h hv (by intro o; rw [own1_none]; simp [own1, owns, hb]) (by intro y e; cases e)
  | clear v =>
    simp only [step] at hs
    obtain ⟨x, h1, hs⟩ := bind_ok hs
    have hv := get_ok h1
    simp only [rule, hv, Bool.or_eq_true, decide_eq_true_eq] at hr
    exact (clear_inv h hv hr hs).1
  | attach v o =>
    simp only [step] at hs
    obtain ⟨x, h1, hs⟩ := bind_ok hs
    obtain ⟨s1, h2, hs⟩ := bind_ok hs
    obtain ⟨s2, h3, hs⟩ := bind_ok hs
    cases hs
    have hv := get_ok h1
    simp only [rule, hv, decide_eq_true_eq] at hr
    obtain ⟨c1, c2, _⟩ := clear_inv h hv (Or.inl hr) h2
    have := inv_give c1 h3 c2 (by intro o; simp [own1, owns]) x.alloc
    rw [← hr] at this
    exact this

theorem give_al {s s1 : St} {p : Option Nat} (h : Al s) (hs : s.give p = .ok s1) : Al s1 ∧ s1.alive = s.alive ∧ s1.vars = s.vars := by
  unfold St.give at hs
  split at hs
  · cases hs; exact ⟨h, rfl, rfl⟩
  · split at hs
    · cases hs; exact ⟨h, rfl, rfl⟩
    · cases hs

theorem al_put {s : St} (h : Al s) {v : Nat} {x : Option Var} (hx : ∀ y o a, x = some y → y.ptr = some o → s.alive o = some a → y.alloc = a) :
    Al (s.put v x) := by
  intro y o a hy hp ha
  rcases put_mem hy with hy | hy
  · exact h y o a hy hp ha
  · exact hx y o a hy hp ha

theorem clear_al {s s' : St} (h : Al s) {v : Nat} {x : Var} (_ : s.vars[v]? = some (some x)) (hs : clearVar s v x = .ok s') :
    Al s' ∧ (∀ o a, s'.alive o = some a → s.alive o = some a) ∧ ∀ y, some y ∈ s'.vars → some y ∈ s.vars ∨ y.ptr = none := by
  unfold clearVar at hs
  split at hs
  · cases hs; exact ⟨h, fun _ _ h => h, fun y h => Or.inl h⟩
  · rename_i o e
    unfold destroyObj at hs
    split at hs
    · cases hs
      have mono : ∀ o' a', upd s.alive o none o' = some a' → s.alive o' = some a' := by
        intro o' a' h2
        rw [upd] at h2
        split at h2
        · cases h2
        · exact h2
      refine ⟨?_, mono, ?_⟩
      · intro y o' a' hy hp ha
        rcases put_mem hy with hy | hy
        · exact h y o' a' hy hp (mono o' a' ha)
        · cases hy; cases hp
      · intro y hy
        rcases put_mem hy with hy | hy
        · exact Or.inl hy
        · cases hy; exact Or.inr rfl
    · cases hs

theorem assign_al {s s' : St} (h : Al s) {v w : Nat} {x y : Var} (hv : s.vars[v]? = some (some x)) (hw : s.vars[w]? = some (some y))
    (hs : assignVar s v x y = .ok s') : Al s' := by
  unfold assignVar at hs
  split at hs
  · cases hs; exact h
  · split at hs
    · cases hs
    · rename_i b hb
      split at hs
      · cases hs
      · rename_i s1 h1
        cases hs
        cases b with
        | true =>
          rw [if_pos rfl] at h1
          obtain ⟨c1, c2, _⟩ := clear_al h hv h1
          refine al_put c1 ?_
          intro z o a e hp ha
          cases e
          exact h y o a (mem_of hw) hp (c2 o a ha)
        | false =>
          simp only [Bool.false_eq_true, if_false] at h1
          cases h1
          refine al_put h ?_
          intro z o a e hp ha
          cases e
          exact h y o a (mem_of hw) hp ha

theorem take_al {s s' : St} (h : Al s) {v w : Nat} (hs : takeFlag s v w = .ok s') : Al s' := by
  unfold takeFlag at hs
  split at hs
  · rename_i x y h1 h2
    have hv := get_ok h1
    have hw := get_ok h2
    split at hs
    · cases hs
    · cases hs; exact h
    · split at hs
      · cases hs
      · cases hs
        refine al_put (al_put h ?_) ?_
        · intro z o a e hp ha; cases e; exact h x o a (mem_of hv) hp ha
        · intro z o a e hp ha
          cases e
          by_cases e : v = w
          · simp only [if_pos e] at hp ⊢
            exact h x o a (mem_of hv) hp ha
          · simp only [if_neg e] at hp ⊢
            exact h y o a (mem_of hw) hp ha
  · cases hs

theorem step_al {s s' : St} {op : Op} (h : Al s) (hr : rule s op = true) (hr2 : ruleA s op = true) (hs : step s op = .ok s') : Al s' := by
  cases op with
  | new o a =>
    simp only [step] at hs
    split at hs
    · cases hs
      intro y o' a' hy hp ha
      have h2 : upd s.alive o (some a) o' = some a' := ha
      rw [upd] at h2
      split at h2
      · rename_i e
        subst e
        simp only [ruleA, Bool.not_eq_true', List.any_eq_false] at hr2
        exact absurd (show refers o' (some y) = true by simp [refers, hp]) (hr2 _ hy)
      · exact h y o' a' hy hp h2
    · cases hs
  | del o =>
    simp only [step] at hs
    split at hs
    · cases hs
      intro y o' a' hy hp ha
      have h2 : upd s.alive o none o' = some a' := ha
      rw [upd] at h2
      split at h2
      · cases h2
      · exact h y o' a' hy hp h2
    · cases hs
  | ctor0 v a => cases hr
  | ctorA v p a => cases hr
  | ctor v p a =>
    simp only [step] at hs
    obtain ⟨u, h1, hs⟩ := bind_ok hs
    obtain ⟨s1, h2, hs⟩ := bind_ok hs
    cases hs
    obtain ⟨g1, g2, g3⟩ := give_al h h2
    refine al_put g1 ?_
    intro y o a' e hp ha
    cases e
    simp only at hp
    subst hp
    simp only [ruleA, decide_eq_true_eq] at hr2
    rw [g2, hr2] at ha
    cases ha
    rfl
  | copy v w =>
    simp only [step] at hs
    obtain ⟨u, h1, hs⟩ := bind_ok hs
    obtain ⟨y, h2, hs⟩ := bind_ok hs
    obtain ⟨b, h3, hs⟩ := bind_ok hs
    cases hs
    refine al_put (al_put h ?_) ?_
    · intro z o a e hp ha; cases e; exact h y o a (mem_of (get_ok h2)) hp ha
    · intro z o a e hp ha; cases e; exact h y o a (mem_of (get_ok h2)) hp ha
  | copyN v w =>
    simp only [step] at hs
    obtain ⟨u, h1, hs⟩ := bind_ok hs
    obtain ⟨y, h2, hs⟩ := bind_ok hs
    cases hs
    refine al_put h ?_
    intro z o a e hp ha; cases e; exact h y o a (mem_of (get_ok h2)) hp ha
  | assign v w =>
    simp only [step] at hs
    obtain ⟨x, h1, hs⟩ := bind_ok hs
    obtain ⟨y, h2, hs⟩ := bind_ok hs
    exact assign_al h (get_ok h1) (get_ok h2) hs
  | take v w =>
    simp only [step] at hs
    obtain ⟨x, h1, hs⟩ := bind_ok hs
    obtain ⟨y, h2, hs⟩ := bind_ok hs
    obtain ⟨s1, h3, hs⟩ := bind_ok hs
    exact take_al (assign_al h (get_ok h1) (get_ok h2) h3) hs
  | swap v w =>
    simp only [step] at hs
    obtain ⟨x, h1, hs⟩ := bind_ok hs
    obtain ⟨y, h2, hs⟩ := bind_ok hs
    cases hs
    refine al_put (al_put h ?_) ?_
    · intro z o a e hp ha; cases e; exact h y o a (mem_of (get_ok h2)) hp ha
    · intro z o a e hp ha; cases e; exact h x o a (mem_of (get_ok h1)) hp ha
  | detach v =>
    simp only [step] at hs
    obtain ⟨x, h1, hs⟩ := bind_ok hs
    have : Al (s.put v (some { x with owned := some false })) := al_put h (by intro z o a e hp ha; cases e; exact h x o a (mem_of (get_ok h1)) hp ha)
    split at hs
    · cases hs; exact this
    · cases hs; exact this
  | destroy v =>
    simp only [step] at hs
    obtain ⟨x, h1, hs⟩ := bind_ok hs
    obtain ⟨b, h2, hs⟩ := bind_ok hs
    split at hs
    · cases hs
    · rename_i s1 h3
      cases hs
      refine al_put ?_ (by intro z o a e; cases e)
      cases b with
      | true => rw [if_pos rfl] at h3; exact (clear_al h (get_ok h1) h3).1
      | false => simp only [Bool.false_eq_true, if_false] at h3; cases h3; exact h
  | clear v =>
    simp only [step] at hs
    obtain ⟨x, h1, hs⟩ := bind_ok hs
    exact (clear_al h (get_ok h1) hs).1
  | attach v o =>
    simp only [step] at hs
    obtain ⟨x, h1, hs⟩ := bind_ok hs
    obtain ⟨s1, h2, hs⟩ := bind_ok hs
    obtain ⟨s2, h3, hs⟩ := bind_ok hs
    cases hs
    obtain ⟨c1, c2, _⟩ := clear_al h (get_ok h1) h2
    obtain ⟨g1, g2, g3⟩ := give_al c1 h3
    refine al_put g1 ?_
    intro y o' a' e hp ha
    cases e
    cases hp
    simp only [ruleA, get_ok h1, decide_eq_true_eq] at hr2
    rw [g2] at ha
    have := c2 _ _ ha
    rw [hr2] at this
    cases this
    rfl

theorem bind_ub {α β : Type} {m : Except Err α} {f : α → Except Err β} (h : (m >>= f) = .error .ub) : m = .error .ub ∨ ∃ a, m = .ok a ∧ f a = .error .ub := by
  cases m with
  | ok a => exact Or.inr ⟨a, rfl, h⟩
  | error e => cases h; exact Or.inl rfl

theorem get_not_ub {s : St} {v : Nat} : s.get v ≠ .error .ub := by
  unfold St.get
  split <;> (intro e; cases e)

theorem free_not_ub {s : St} {v : Nat} : s.free v ≠ .error .ub := by
  unfold St.free
  split <;> (intro e; cases e)

theorem give_not_ub {s : St} {p : Option Nat} : s.give p ≠ .error .ub := by
  unfold St.give
  split
  · intro e; cases e
  · split <;> (intro e; cases e)

theorem assign_not_ub {s : St} (h : Inv s) (al : Al s) {v : Nat} {x y : Var} (hv : s.vars[v]? = some (some x)) : assignVar s v x y ≠ .error .ub := by
  unfold assignVar
  obtain ⟨b, hb, hb'⟩ := isOwned_of h (mem_of hv)
  split
  · intro e; cases e
  · rw [hb']
    simp only
    cases b with
    | true =>
      obtain ⟨s1, h1⟩ := clear_ok h al hv (Or.inl hb)
      rw [if_pos rfl, h1]
      intro e; cases e
    | false => simp

theorem take_not_ub {s : St} (h : Inv s) {v w : Nat} : takeFlag s v w ≠ .error .ub := by
  unfold takeFlag
  split
  · rename_i x y h1 h2
    obtain ⟨b, _, hb⟩ := isOwned_of h (mem_of (get_ok h1))
    obtain ⟨c, _, hc⟩ := isOwned_of h (mem_of (get_ok h2))
    rw [hb, hc]
    cases b <;> simp
  · intro e; cases e

theorem step_no_ub {s : St} {op : Op} (h : Inv s) (al : Al s) (hr : rule s op = true) : step s op ≠ .error .ub := by
  intro hs
  cases op with
  | new o a => simp only [step] at hs; split at hs <;> cases hs
  | del o => simp only [step] at hs; split at hs <;> cases hs
  | ctor0 v a => cases hr
  | ctorA v p a => cases hr
  | ctor v p a =>
    simp only [step] at hs
    rcases bind_ub hs with hs | ⟨_, _, hs⟩
    · exact free_not_ub hs
    rcases bind_ub hs with hs | ⟨_, _, hs⟩
    · exact give_not_ub hs
    cases hs
  | copy v w =>
    simp only [step] at hs
    rcases bind_ub hs with hs | ⟨_, _, hs⟩
    · exact free_not_ub hs
    rcases bind_ub hs with hs | ⟨y, h2, hs⟩
    · exact get_not_ub hs
    obtain ⟨b, _, hb⟩ := isOwned_of h (mem_of (get_ok h2))
    rw [hb] at hs
    cases hs
  | copyN v w =>
    simp only [step] at hs
    rcases bind_ub hs with hs | ⟨_, _, hs⟩
    · exact free_not_ub hs
    rcases bind_ub hs with hs | ⟨y, h2, hs⟩
    · exact get_not_ub hs
    cases hs
  | assign v w =>
    simp only [step] at hs
    rcases bind_ub hs with hs | ⟨x, h1, hs⟩
    · exact get_not_ub hs
    rcases bind_ub hs with hs | ⟨y, h2, hs⟩
    · exact get_not_ub hs
    exact assign_not_ub h al (get_ok h1) hs
  | take v w =>
    simp only [step] at hs
    rcases bind_ub hs with hs | ⟨x, h1, hs⟩
    · exact get_not_ub hs
    rcases bind_ub hs with hs | ⟨y, h2, hs⟩
    · exact get_not_ub hs
    rcases bind_ub hs with hs | ⟨s1, h3, hs⟩
    · exact assign_not_ub h al (get_ok h1) hs
    exact take_not_ub (assign_inv h (get_ok h1) (get_ok h2) h3).1 hs
  | swap v w =>
    simp only [step] at hs
    rcases bind_ub hs with hs | ⟨x, h1, hs⟩
    · exact get_not_ub hs
    rcases bind_ub hs with hs | ⟨y, h2, hs⟩
    · exact get_not_ub hs
    cases hs
  | detach v =>
    simp only [step] at hs
    rcases bind_ub hs with hs | ⟨x, h1, hs⟩
    · exact get_not_ub hs
    split at hs <;> cases hs
  | destroy v =>
    simp only [step] at hs
    rcases bind_ub hs with hs | ⟨x, h1, hs⟩
    · exact get_not_ub hs
    obtain ⟨b, hb, hb'⟩ := isOwned_of h (mem_of (get_ok h1))
    rcases bind_ub hs with hs | ⟨c, h2, hs⟩
    · rw [hb'] at hs; cases hs
    rw [hb'] at h2
    cases h2
    cases b with
    | true =>
      obtain ⟨s1, h3⟩ := clear_ok h al (get_ok h1) (Or.inl hb)
      rw [if_pos rfl, h3] at hs
      cases hs
    | false => simp at hs
  | clear v =>
    simp only [step] at hs
    rcases bind_ub hs with hs | ⟨x, h1, hs⟩
    · exact get_not_ub hs
    have hv := get_ok h1
    simp only [rule, hv, Bool.or_eq_true, decide_eq_true_eq] at hr
    obtain ⟨s1, h3⟩ := clear_ok h al hv hr
    rw [h3] at hs
    cases hs
  | attach v o =>
    simp only [step] at hs
    rcases bind_ub hs with hs | ⟨x, h1, hs⟩
    · exact get_not_ub hs
    have hv := get_ok h1
    simp only [rule, hv, decide_eq_true_eq] at hr
    obtain ⟨s1, h3⟩ := clear_ok h al hv (Or.inl hr)
    rcases bind_ub hs with hs | ⟨s1, h2, hs⟩
    · rw [h3] at hs; cases hs
    rcases bind_ub hs with hs | ⟨s2, h4, hs⟩
    · exact give_not_ub hs
    cases hs

theorem run_inv : ∀ (l : List Op) {s s' : St} (_ : Inv s) (_ : keeps rule s l = true) (_ : run s l = .ok s'), Inv s'
  | [], s, s', h, _, hr => by cases hr; exact h
  | op :: l, s, s', h, hk, hr => by
    simp only [keeps, Bool.and_eq_true] at hk
    simp only [run] at hr
    split at hr
    · rename_i s1 hs
      rw [hs] at hk
      exact run_inv l (step_inv h hk.1 hs) hk.2 hr
    · cases hr

theorem run_no_ub : ∀ (l : List Op) {s : St} (_ : Inv s) (_ : Al s) (_ : keeps rule s l = true) (_ : keeps ruleA s l = true), run s l ≠ .error .ub
  | [], s, h, _, _, _ => by intro e; cases e
  | op :: l, s, h, al, hk, hk2 => by
    simp only [keeps, Bool.and_eq_true] at hk hk2
    simp only [run]
    split
    · rename_i s1 hs
      rw [hs] at hk hk2
      exact run_no_ub l (step_inv h hk.1 hs) (step_al al hk.1 hk2.1 hs) hk.2 hk2.2
    · rename_i e hs
      intro e'
      cases e'
      exact step_no_ub h al hk.1 hs

theorem new_inv (k : Nat) : Inv (new k) ∧ Al (new k) := by
  refine ⟨⟨?_, ?_⟩, ?_⟩
  · intro o
    simp [new, owners, List.countP_replicate, owns]
  · intro x hx
    have := List.eq_of_mem_replicate hx
    cases this
  · intro x o a hx
    have := List.eq_of_mem_replicate hx
    cases this

/-! ## Results -/

/-- **C136 (one owner).** After every history that keeps the rules, each object that exists has exactly one owner, and
what does not exist has none. -/
theorem C136_one_owner_partial (k : Nat) (l : List Op) (hk : keeps rule (new k) l = true) (s : St) (hs : run (new k) l = .ok s) (o : Nat) :
    owners s o = if (s.alive o).isSome then 1 else 0 := (run_inv l (new_inv k).1 hk hs).cnt o

/-- **C136 (nothing wrong is destroyed).** With the rules about addresses there is no undefined behaviour: nothing is
destroyed twice and everything is destroyed by its allocator. -/
theorem C136_no_ub_partial (k : Nat) (l : List Op) (hk : keeps rule (new k) l = true) (hk2 : keeps ruleA (new k) l = true) :
    run (new k) l ≠ .error .ub := run_no_ub l (new_inv k).1 (new_inv k).2 hk hk2

/-- **C136 (no leak).** When all pointers are gone and the program holds nothing, no object exists. -/
theorem C136_no_leak_partial (k : Nat) (l : List Op) (hk : keeps rule (new k) l = true) (s : St) (hs : run (new k) l = .ok s)
    (hv : ∀ x ∈ s.vars, x = none) (hr : s.raw = []) (o : Nat) : s.alive o = none := by
  have h := C136_one_owner_partial k l hk s hs o
  have h0 : s.vars.countP (owns o) = 0 := by
    rw [List.countP_eq_zero]
    intro x hx
    rw [hv x hx]
    simp [owns]
  rw [owners, h0, hr] at h
  cases ha : s.alive o with
  | none => rfl
  | some a => rw [ha] at h; simp at h

/-- Result as something that can be compared: nothing for an error, or the allocators of objects below `n`, held objects, variables. -/
def look (n : Nat) : Except Err St → Option (List (Option Nat) × List Nat × List (Option Var))
  | .error _ => none
  | .ok s => some ((List.range n).map s.alive, s.raw, s.vars)

/-- **C136 (taking).** `v <<= w` from an owner `w` of another object makes `v` the owner and leaves `w` pointing to the
object. -/
theorem C136_take {s s' : St} {v w : Nat} {x y : Var} (hv : s.vars[v]? = some (some x)) (hw : s.vars[w]? = some (some y))
    (hp : y.ptr ≠ x.ptr) (ho : y.owned = some true) (hs : step s (.take v w) = .ok s') :
    s'.vars[v]? = some (some ⟨y.ptr, some true, y.alloc⟩) ∧ s'.vars[w]? = some (some { y with owned := some false }) := by
  have ne : v ≠ w := by
    intro e
    subst e
    rw [hv] at hw
    cases hw
    exact hp rfl
  simp only [step] at hs
  rw [get_of hv, get_of hw] at hs
  obtain ⟨x', e, hs⟩ := bind_ok hs
  cases e
  obtain ⟨y', e, hs⟩ := bind_ok hs
  cases e
  obtain ⟨s1, h1, hs⟩ := bind_ok hs
  unfold assignVar at h1
  rw [if_neg hp] at h1
  split at h1
  · cases h1
  · rename_i b hb
    split at h1
    · cases h1
    · rename_i s2 h2
      cases h1
      have hv2 : v < s2.vars.length ∧ s2.vars[w]? = some (some y) := by
        have lt : v < s.vars.length := by
          rcases List.getElem?_eq_some_iff.mp hv with ⟨h, _⟩
          exact h
        cases b with
        | false => simp only [Bool.false_eq_true, if_false] at h2; cases h2; exact ⟨lt, hw⟩
        | true =>
          rw [if_pos rfl] at h2
          unfold clearVar at h2
          split at h2
          · cases h2; exact ⟨lt, hw⟩
          · unfold destroyObj at h2
            split at h2
            · cases h2
              exact ⟨by simpa [St.put] using lt, by simp [St.put, List.getElem?_set_ne ne, hw]⟩
            · cases h2
      have g1 : (s2.put v (some ⟨y.ptr, some false, y.alloc⟩)).vars[v]? = some (some ⟨y.ptr, some false, y.alloc⟩) := by
        simp [St.put, hv2.1]
      have g2 : (s2.put v (some ⟨y.ptr, some false, y.alloc⟩)).vars[w]? = some (some y) := by
        simp [St.put, List.getElem?_set_ne ne, hv2.2]
      unfold takeFlag at hs
      rw [get_of g1, get_of g2] at hs
      simp only [Var.isOwned, ho] at hs
      cases hs
      have lw : w < s2.vars.length := by
        rcases List.getElem?_eq_some_iff.mp hv2.2 with ⟨h, _⟩
        exact h
      constructor
      · refine (List.getElem?_set_ne (Ne.symm ne)).trans ?_
        simp [St.put, hv2.1]
      · simp [St.put, lw, ne]

/-- **C136 (end of a pointer).** The end of a pointer without ownership destroys nothing; the end of an owner destroys
its object and no other. -/
theorem C136_destroy {s s' : St} {v : Nat} {x : Var} (hv : s.vars[v]? = some (some x)) (hs : step s (.destroy v) = .ok s') :
    (x.owned = some false → s'.alive = s.alive) ∧
    (x.owned = some true → ∀ o, s'.alive o = if x.ptr = some o then none else s.alive o) ∧ s'.raw = s.raw := by
  simp only [step] at hs
  rw [get_of hv] at hs
  obtain ⟨x', e, hs⟩ := bind_ok hs
  cases e
  obtain ⟨b, hb, hs⟩ := bind_ok hs
  have hb := isOwned_ok hb
  split at hs
  · cases hs
  · rename_i s1 h1
    cases hs
    cases b with
    | false =>
      simp only [Bool.false_eq_true, if_false] at h1
      cases h1
      exact ⟨fun _ => rfl, fun e => (by rw [hb] at e; cases e), rfl⟩
    | true =>
      rw [if_pos rfl] at h1
      refine ⟨fun e => (by rw [hb] at e; cases e), fun _ o => ?_, ?_⟩
      · unfold clearVar at h1
        split at h1
        · rename_i e; cases h1; simp [St.put, e]
        · rename_i o' e
          unfold destroyObj at h1
          split at h1
          · cases h1
            simp only [St.put, upd, e, Option.some.injEq]
            by_cases e : o = o'
            · simp [e]
            · simp [e, Ne.symm e]
          · cases h1
      · unfold clearVar at h1
        split at h1
        · cases h1; rfl
        · unfold destroyObj at h1
          split at h1
          · cases h1; rfl
          · cases h1

/-- A history with copies, moves of ownership and an object given back to the program. -/
def hist : List Op :=
  [.new 0 1, .ctor 0 (some 0) 1, .copyN 1 0, .copy 2 0, .take 1 2, .new 1 2, .ctor 3 (some 1) 2, .assign 0 3, .swap 0 3,
   .detach 0, .new 2 1, .attach 1 2, .destroy 2, .destroy 0, .destroy 3]

example : keeps rule (new 4) hist = true ∧ keeps ruleA (new 4) hist = true := by decide
example : look 3 (run (new 4) hist) = some ([none, some 2, some 1], [1], [none, some ⟨some 2, some true, 1⟩, none, none]) := by decide

example : look 3 (run (new 4) (hist ++ [.destroy 1, .del 1])) = some ([none, none, none], [], [none, none, none, none]) := by decide

example : look 2 (run (new 2) [.new 0 7, .ctor 0 (some 0) 7, .new 1 8, .ctor 1 (some 1) 8, .take 0 1]) =
    some ([none, some 8], [], [some ⟨some 1, some true, 8⟩, some ⟨some 1, some false, 8⟩]) := by decide

example : look 1 (run (new 2) [.new 0 7, .ctor 0 (some 0) 7, .copyN 1 0, .destroy 1]) = some ([some 7], [], [some ⟨some 0, some true, 7⟩, none]) ∧
    look 1 (run (new 2) [.new 0 7, .ctor 0 (some 0) 7, .copyN 1 0, .destroy 0]) = some ([none], [], [none, some ⟨some 0, some false, 7⟩]) := by decide

example : look 1 (run (new 2) [.new 0 7, .ctor 0 (some 0) 7, .copy 1 0]) = some ([some 7], [], [some ⟨some 0, some false, 7⟩, some ⟨some 0, some true, 7⟩]) ∧
    look 1 (run (new 2) [.new 0 7, .ctor 0 (some 0) 7, .detach 0]) = some ([some 7], [0], [some ⟨some 0, some false, 7⟩, none]) := by decide

/-- **C136 violated**: `OwnedPtr()` and `OwnedPtr(nil)` do not set the flag; their end reads it. -/
theorem C136_default_violated : run (new 1) [.ctor0 0 0, .destroy 0] = .error .ub ∧
    run (new 2) [.ctor0 0 0, .new 3 0, .ctor 1 (some 3) 0, .take 0 1] = .error .ub := ⟨rfl, rfl⟩

/-- **C136 violated**: neither does `OwnedPtr(p, alloc)`. -/
theorem C136_alloc_violated : run (new 1) [.new 0 5, .ctorA 0 (some 0) 5, .destroy 0] = .error .ub := rfl

/-- **C136 violated**: `clear` of a pointer without ownership destroys the object of another pointer, which then destroys
it again. -/
theorem C136_clear_violated :
    look 1 (run (new 2) [.new 0 5, .ctor 0 (some 0) 5, .copyN 1 0, .clear 1]) = some ([none], [], [some ⟨some 0, some true, 5⟩, some ⟨none, some false, 5⟩]) ∧
    run (new 2) [.new 0 5, .ctor 0 (some 0) 5, .copyN 1 0, .clear 1, .destroy 0] = .error .ub := ⟨by decide, rfl⟩

/-- **C136 violated**: `attach` to a pointer without ownership leaves the new object without an owner: it is never destroyed. -/
theorem C136_attach_violated :
    look 2 (run (new 2) [.new 0 5, .ctor 0 (some 0) 5, .copy 1 0, .destroy 1, .new 1 5, .ctor 1 none 5, .assign 0 1, .attach 0 1, .destroy 0, .destroy 1]) =
      some ([none, some 5], [], [none, none]) := by decide

/-- **C136 violated**: a pointer left without its object keeps the old allocator when a new object is made at the same
address and its ownership is taken. -/
theorem C136_address_violated :
    let l : List Op := [.new 0 1, .ctor 0 (some 0) 1, .copyN 1 0, .destroy 0, .new 0 2, .ctor 0 (some 0) 2, .take 1 0]
    keeps rule (new 2) l = true ∧
    look 1 (run (new 2) l) = some ([some 2], [], [some ⟨some 0, some false, 2⟩, some ⟨some 0, some true, 1⟩]) ∧
    run (new 2) (l ++ [.destroy 1]) = .error .ub := ⟨by decide, by decide, rfl⟩

end LS.OwnedPtr

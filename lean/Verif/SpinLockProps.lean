import Verif.SpinLock
import Verif.FastLockProps
/-! # Property C32: spin locks -/

namespace LS.SpinLock
open LS.FastLock (upd upd_same upd_ne)

/-- Use without `steal`. -/
def NoSteal : Op → Prop
  | .steal _ => False
  | _ => True

/-- The thread knows to hold the lock exactly when it is the owner; a thread giving the lock away
is the owner; nobody is stealing. -/
structure Inv (s : St) : Prop where
  held : ∀ t, s.held t = true ↔ (s.owner = t ∧ t ≠ 0)
  giving : ∀ t to, s.pc t = .giving to → s.owner = t ∧ to ≠ 0 ∧ t ≠ 0
  stealing : ∀ t f, s.pc t ≠ .stealing f

theorem Inv.step {s s' t op} (h : Inv s) (hok : NoSteal op) (hs : step s t op = some s') :
    Inv s' := by
  unfold SpinLock.step at hs
  split at hs
  · cases hs
  next ht =>
  cases hpc : s.pc t <;> rw [hpc] at hs <;> simp only [] at hs
  case run =>
    cases op <;> simp only [] at hs
    case tryLock =>
      split at hs
      · next h0 =>
        injection hs with hs; subst hs
        refine ⟨fun u => ?_, fun u to hu => ?_, h.stealing⟩
        · by_cases hu : u = t
          · subst hu; simp [upd_same, ht]
          · have := h.held u
            simp only [upd_ne _ _ hu, this, h0]
            omega
        · have := h.giving u to hu
          rw [h0] at this
          exact absurd this.1.symm this.2.2
      · split at hs
        · next h1 =>
          injection hs with hs; subst hs
          refine ⟨fun u => ?_, h.giving, h.stealing⟩
          by_cases hu : u = t
          · subst hu; simp [upd_same, h1, ht]
          · simp only [upd_ne _ _ hu]; exact h.held u
        · injection hs with hs; subst hs; exact h
    case unlock =>
      split at hs
      · next h1 =>
        injection hs with hs; subst hs
        refine ⟨fun u => ?_, fun u to hu => ?_, h.stealing⟩
        · by_cases hu : u = t
          · subst hu; simp [upd_same, Ne.symm ht]
          · have := h.held u
            simp only [upd_ne _ _ hu, this, h1]
            omega
        · have h2 := h.giving u to hu
          rw [h1] at h2
          have h3 : s.pc t = .giving to := by rw [h2.1]; exact hu
          rw [hpc] at h3; cases h3
      · next h1 =>
        injection hs with hs; subst hs
        refine ⟨fun u => ?_, h.giving, h.stealing⟩
        by_cases hu : u = t
        · subst hu; simp [upd_same, h1]
        · simp only [upd_ne _ _ hu]; exact h.held u
    case give to =>
      split at hs
      · cases hs
      next hto =>
      split at hs
      · next h1 =>
        injection hs with hs; subst hs
        refine ⟨h.held, fun u to' hu => ?_, fun u f hu => ?_⟩
        · by_cases hut : u = t
          · subst hut
            simp only [upd_same] at hu
            injection hu with hu; subst hu
            exact ⟨h1, hto, ht⟩
          · simp only [upd_ne _ _ hut] at hu; exact h.giving u to' hu
        · by_cases hut : u = t
          · subst hut; simp only [upd_same] at hu; cases hu
          · simp only [upd_ne _ _ hut] at hu; exact h.stealing u f hu
      · injection hs with hs; subst hs; exact h
    case steal => exact absurd hok id
    case die =>
      injection hs with hs; subst hs
      refine ⟨h.held, fun u to hu => ?_, fun u f hu => ?_⟩
      · by_cases hut : u = t
        · subst hut; simp only [upd_same] at hu; cases hu
        · simp only [upd_ne _ _ hut] at hu; exact h.giving u to hu
      · by_cases hut : u = t
        · subst hut; simp only [upd_same] at hu; cases hu
        · simp only [upd_ne _ _ hut] at hu; exact h.stealing u f hu
  case giving to =>
    injection hs with hs; subst hs
    have hg := h.giving t to hpc
    refine ⟨fun u => ?_, fun u to' hu => ?_, fun u f hu => ?_⟩
    · by_cases hu : u = to
      · subst hu; simp [upd_same, hg.2.1]
      · simp only [upd_ne _ _ hu]
        by_cases hut : u = t
        · subst hut; simp [upd_same, Ne.symm hu]
        · have := h.held u
          simp only [upd_ne _ _ hut, this, hg.1]
          omega
    · by_cases hut : u = t
      · subst hut; simp only [upd_same] at hu; cases hu
      · simp only [upd_ne _ _ hut] at hu
        have := (h.giving u to' hu).1
        rw [hg.1] at this; exact absurd this.symm hut
    · by_cases hut : u = t
      · subst hut; simp only [upd_same] at hu; cases hu
      · simp only [upd_ne _ _ hut] at hu; exact h.stealing u f hu
  case stealing f => exact absurd hpc (h.stealing t f)
  case dead => cases hs

theorem Reach.inv {s} (h : Reach NoSteal s) : Inv s := by
  induction h with
  | init =>
    refine ⟨fun t => ?_, fun t to h => ?_, fun t f h => ?_⟩
    · simp; exact fun h => h.symm
    · simp at h
    · simp at h
  | step _ hok hs ih => exact ih.step hok hs

/-- C32: without `steal` at most one thread holds the lock, and it is the one named by `owner`;
`give` passes the ownership without a gap. -/
theorem c32_mutual_exclusion_partial {s t u} (h : Reach NoSteal s) (ht : s.held t = true)
    (hu : s.held u = true) : t = u ∧ s.owner = t := by
  have h1 := (h.inv.held t).1 ht
  have h2 := (h.inv.held u).1 hu
  exact ⟨by rw [← h1.1, h2.1], h1.1⟩

/-- C32: `unlock` by a thread which does not hold the lock changes neither the owner nor the
knowledge of another thread, also when `steal` is used. -/
theorem c32_foreign_unlock_ignored {s s' : St} {t u} (hne : s.owner ≠ t) (hpc : s.pc t = .run)
    (hs : step s t .unlock = some s') (hu : u ≠ t) : s'.owner = s.owner ∧ s'.held u = s.held u := by
  unfold step at hs
  split at hs
  · cases hs
  rw [hpc] at hs
  simp only [if_neg hne] at hs
  injection hs with hs; subst hs
  exact ⟨rfl, upd_ne _ _ hu⟩

/-- Runs a schedule. -/
def exec : St → List (Nat × Op) → Option St
  | s, [] => some s
  | s, (t, op) :: l => (step s t op).bind fun s' => exec s' l

theorem exec_reach {ok} : ∀ (l : List (Nat × Op)) {s s'}, Reach ok s → (∀ x ∈ l, ok x.2) →
    exec s l = some s' → Reach ok s'
  | [], _, _, h, _, he => by simp [exec] at he; subst he; exact h
  | (t, op) :: l, s, s', h, hok, he => by
    unfold exec at he
    cases hs : step s t op with
    | none => rw [hs] at he; cases he
    | some s1 =>
      rw [hs] at he
      exact exec_reach l (h.step (hok (t, op) (by simp)) hs) (fun x hx => hok x (by simp [hx])) he

example : (exec {} [(1, .tryLock), (2, .tryLock), (1, .give 2), (3, .tryLock), (1, .give 2),
    (3, .tryLock)]).map (fun s => (s.owner, s.held 1, s.held 2, s.held 3)) =
    some (2, false, true, false) := by decide +kernel

/-- Thread 1 dies owning the lock; 2 and 3 both check, then both write. -/
def twoSteal : List (Nat × Op) :=
  [(1, .tryLock), (1, .die), (2, .steal 1), (3, .steal 1), (2, .tryLock), (3, .tryLock)]

/-- C32 (negation for `steal`): two threads can take over the lock of a dead thread. -/
theorem c32_steal_violated : ∃ s, Reach (fun _ => True) s ∧ s.held 2 = true ∧ s.held 3 = true := by
  cases h : exec {} twoSteal with
  | none => exact absurd h (by unfold twoSteal; decide +kernel)
  | some s =>
    refine ⟨s, exec_reach twoSteal .init (fun _ _ => trivial) h, ?_, ?_⟩
    · have : (exec {} twoSteal).map (fun s => s.held 2) = some true := by decide +kernel
      rw [h] at this; simpa using this
    · have : (exec {} twoSteal).map (fun s => s.held 3) = some true := by decide +kernel
      rw [h] at this; simpa using this

end LS.SpinLock

namespace LS.SpinLockR
open LS.FastLock (upd upd_same upd_ne)

/-- Only the owner is inside of the functions or has a depth, and the counter is its depth. -/
structure Inv (s : St) : Prop where
  others : ∀ t, t ≠ s.owner → s.pc t = .run ∧ s.depth t = 0
  zero : s.owner = 0 → s.pc 0 = .run ∧ s.depth 0 = 0
  run : s.owner ≠ 0 → (s.pc s.owner = .run ∨ s.pc s.owner = .inc ∨ s.pc s.owner = .dec) →
    s.depth s.owner = s.count ∧ 0 < s.count
  set1 : s.owner ≠ 0 → (s.pc s.owner = .set1 ∨ s.pc s.owner = .rel) → s.depth s.owner = 0

theorem Inv.mk' {s' : St} {t : Nat} (ht : t ≠ 0) (ho : s'.owner = t)
    (h1 : ∀ u, u ≠ t → s'.pc u = .run ∧ s'.depth u = 0)
    (h2 : (s'.pc t = .run ∨ s'.pc t = .inc ∨ s'.pc t = .dec) →
      s'.depth t = s'.count ∧ 0 < s'.count)
    (h3 : (s'.pc t = .set1 ∨ s'.pc t = .rel) → s'.depth t = 0) : Inv s' where
  others u hu := h1 u (by rw [← ho]; exact hu)
  zero h0 := absurd (ho.symm.trans h0) ht
  run _ := by rw [ho]; exact h2
  set1 _ := by rw [ho]; exact h3

theorem Inv.step {s s' t op} (h : Inv s) (hs : step s t op = some s') : Inv s' := by
  unfold SpinLockR.step at hs
  split at hs
  · cases hs
  next ht =>
  have hown : s.pc t ≠ .run → s.owner = t := fun hne =>
    Classical.byContradiction fun hh => hne (h.others t (Ne.symm hh)).1
  cases hpc : s.pc t <;> rw [hpc] at hs hown <;> simp only [] at hs
  case run =>
    cases op <;> simp only [] at hs
    case tryLock =>
      split at hs
      · next h0 =>
        injection hs with hs; subst hs
        have ht0 : t ≠ s.owner := by rw [h0]; exact ht
        refine .mk' ht rfl (fun u hu => ?_) (fun hh => ?_) (fun _ => (h.others t ht0).2)
        · simp only [upd_ne _ _ hu]
          by_cases hu0 : u = 0
          · subst hu0; exact h.zero h0
          · exact h.others u (by rw [h0]; exact hu0)
        · simp [upd_same] at hh
      · split at hs
        · next h1 =>
          injection hs with hs; subst hs
          have := h.run (by rw [h1]; exact ht) (by rw [h1, hpc]; simp)
          rw [h1] at this
          refine .mk' ht h1 (fun u hu => ?_) (fun _ => this) (fun hh => ?_)
          · simp only [upd_ne _ _ hu]; exact h.others u (by rw [h1]; exact hu)
          · simp [upd_same] at hh
        · injection hs with hs; subst hs; exact h
    case unlock =>
      split at hs
      · next h1 =>
        injection hs with hs; subst hs
        have := h.run (by rw [h1]; exact ht) (by rw [h1, hpc]; simp)
        rw [h1] at this
        refine .mk' ht h1 (fun u hu => ?_) (fun _ => this) (fun hh => ?_)
        · simp only [upd_ne _ _ hu]; exact h.others u (by rw [h1]; exact hu)
        · simp [upd_same] at hh
      · injection hs with hs; subst hs; exact h
  all_goals
    have h1 := hown (by simp)
    injection hs with hs; subst hs
  case set1 =>
    have := h.set1 (by rw [h1]; exact ht) (by rw [h1, hpc]; simp)
    rw [h1] at this
    refine .mk' ht h1 (fun u hu => ?_) (fun _ => ?_) (fun hh => ?_)
    · simp only [upd_ne _ _ hu]; exact h.others u (by rw [h1]; exact hu)
    · simp [upd_same, this]
    · simp [upd_same] at hh
  case inc =>
    have := h.run (by rw [h1]; exact ht) (by rw [h1, hpc]; simp)
    rw [h1] at this
    refine .mk' ht h1 (fun u hu => ?_) (fun _ => ?_) (fun hh => ?_)
    · simp only [upd_ne _ _ hu]; exact h.others u (by rw [h1]; exact hu)
    · simp [upd_same, this]
    · simp [upd_same] at hh
  case dec =>
    have := h.run (by rw [h1]; exact ht) (by rw [h1, hpc]; simp)
    rw [h1] at this
    refine .mk' ht h1 (fun u hu => ?_) (fun hh => ?_) (fun hh => ?_)
    · simp only [upd_ne _ _ hu]; exact h.others u (by rw [h1]; exact hu)
    · simp only [upd_same] at hh ⊢
      by_cases hc : s.count - 1 = 0
      · simp [hc] at hh
      · exact ⟨by rw [this.1], by omega⟩
    · simp only [upd_same] at hh ⊢
      by_cases hc : s.count - 1 = 0
      · rw [this.1]; exact hc
      · simp [hc] at hh
  case rel =>
    have hd := h.set1 (by rw [h1]; exact ht) (by rw [h1, hpc]; simp)
    rw [h1] at hd
    have key : ∀ u, (upd s.pc t .run) u = .run ∧ s.depth u = 0 := fun u => by
      by_cases hu : u = t
      · subst hu; exact ⟨upd_same _ _ _, hd⟩
      · rw [upd_ne _ _ hu]; exact h.others u (by rw [h1]; exact hu)
    exact ⟨fun u _ => key u, fun _ => key 0, fun h0 => absurd rfl h0, fun h0 => absurd rfl h0⟩

theorem Reach.inv {s} (h : Reach s) : Inv s := by
  induction h with
  | init => exact ⟨fun _ _ => ⟨rfl, rfl⟩, fun _ => ⟨rfl, rfl⟩, fun h => absurd rfl h, fun h => absurd rfl h⟩
  | step _ hs ih => exact ih.step hs

/-- C32: a thread which acquired the recursive lock more often than it released it is its owner;
so at most one thread is. -/
theorem c32_recursive_owner {s t} (h : Reach s) (hd : 0 < s.depth t) : s.owner = t := by
  apply Classical.byContradiction
  intro hh
  have := (h.inv.others t (Ne.symm hh)).2
  omega

/-- C32: the lock becomes free only when the owner has released it as often as acquired. -/
theorem c32_recursive_release {s s' t op u} (h : Reach s) (hs : step s t op = some s')
    (hd : 0 < s.depth u) (h0 : s'.owner ≠ u) : False := by
  have h1 := c32_recursive_owner h hd
  unfold step at hs
  split at hs
  · cases hs
  next ht =>
  by_cases htu : t = u
  · subst htu
    cases hpc : s.pc t <;> rw [hpc] at hs <;> simp only [] at hs
    case rel =>
      have := h.inv.set1 (by rw [h1]; exact ht) (by rw [h1, hpc]; simp)
      rw [h1] at this
      omega
    case run =>
      cases op <;> simp only [] at hs
      · rw [if_neg (by rw [h1]; exact ht), if_pos h1] at hs
        injection hs with hs; subst hs; exact h0 h1
      · rw [if_pos h1] at hs
        injection hs with hs; subst hs; exact h0 h1
    all_goals injection hs with hs; subst hs; exact h0 h1
  · have hr := (h.inv.others t (by rw [h1]; exact htu)).1
    rw [hr] at hs
    cases op <;> simp only [] at hs
    · by_cases hz : s.owner = 0
      · have hu0 : u = 0 := by rw [← h1, hz]
        have := (h.inv.zero hz).2
        rw [hu0] at hd
        omega
      · rw [if_neg hz, if_neg (by rw [h1]; exact Ne.symm htu)] at hs
        injection hs with hs; subst hs; exact h0 h1
    · rw [if_neg (by rw [h1]; exact Ne.symm htu)] at hs
      injection hs with hs; subst hs; exact h0 h1

/-- Runs a schedule. -/
def exec : St → List (Nat × Op) → Option St
  | s, [] => some s
  | s, (t, op) :: l => (step s t op).bind fun s' => exec s' l

example : (exec {} [(1, .tryLock), (1, .tryLock), (1, .tryLock), (1, .tryLock), (2, .tryLock),
    (1, .unlock), (1, .unlock), (2, .tryLock)]).map (fun s => (s.owner, s.count, s.depth 1)) =
    some (1, 1, 1) := by decide +kernel
example : (exec {} [(1, .tryLock), (1, .tryLock), (1, .unlock), (1, .unlock), (1, .unlock),
    (2, .tryLock)]).map (fun s => (s.owner, s.depth 1)) = some (2, 0) := by decide +kernel

end LS.SpinLockR

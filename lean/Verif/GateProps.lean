import Verif.Gate
import Verif.FastLockProps
/-! # Properties C37 and C71: gate -/

namespace LS.Gate
open LS.FastLock (upd upd_same upd_ne)

structure Inv (s : St) : Prop where
  que : ∀ t ∈ s.queue, (s.pc t = .g2 ∨ s.pc t = .g3 ∨ s.pc t = .w ∨ s.pc t = .e) ∧ s.sig t = false
  park : ∀ t, (s.pc t = .g2 ∨ s.pc t = .g3 ∨ s.pc t = .w ∨ s.pc t = .e) → s.sig t = false →
    t ∈ s.queue
  early : ∀ t, (s.pc t = .g0 ∨ s.pc t = .g1 ∨ s.pc t = .gs) → s.sig t = false
  nodup : s.queue.Nodup
  lost : s.isOpen = true → ∀ t, (s.pc t = .w ∨ s.pc t = .e) → s.sig t = false →
    ∃ u, s.pc u = .o1

/-- Transitions which change the program counter only. -/
theorem Inv.goto {s t p} (i : Inv s)
    (hq : (t ∈ s.queue → p = .g2 ∨ p = .g3 ∨ p = .w ∨ p = .e) ∧
      (p = .g2 ∨ p = .g3 ∨ p = .w ∨ p = .e → s.sig t = false → t ∈ s.queue))
    (he : (p = .g0 ∨ p = .g1 ∨ p = .gs) → s.sig t = false) (ho : s.pc t ≠ .o1)
    (hw : s.isOpen = true → p = .w ∨ p = .e → s.pc t = .w ∨ s.pc t = .e) : Inv (s.goto t p) := by
  obtain ⟨que, park, early, nodup, lost⟩ := i
  constructor
  · intro v hv
    refine ⟨?_, (que v hv).2⟩
    show upd s.pc t p v = _ ∨ upd s.pc t p v = _ ∨ upd s.pc t p v = _ ∨ upd s.pc t p v = _
    by_cases hvt : v = t
    · subst hvt; rw [upd_same]; exact hq.1 hv
    · rw [upd_ne _ _ hvt]; exact (que v hv).1
  · intro v h1 h2
    have h1 : upd s.pc t p v = _ ∨ upd s.pc t p v = _ ∨ upd s.pc t p v = _ ∨ upd s.pc t p v = _ := h1
    by_cases hvt : v = t
    · subst hvt; rw [upd_same] at h1; exact hq.2 h1 h2
    · rw [upd_ne _ _ hvt] at h1; exact park v h1 h2
  · intro v h1
    have h1 : upd s.pc t p v = _ ∨ upd s.pc t p v = _ ∨ upd s.pc t p v = _ := h1
    by_cases hvt : v = t
    · subst hvt; rw [upd_same] at h1; exact he h1
    · rw [upd_ne _ _ hvt] at h1; exact early v h1
  · exact nodup
  · intro h0 v h1 h2
    have h1 : upd s.pc t p v = _ ∨ upd s.pc t p v = _ := h1
    have : ∃ u, s.pc u = .o1 := by
      by_cases hvt : v = t
      · subst hvt; rw [upd_same] at h1; exact lost h0 v (hw h0 h1) h2
      · rw [upd_ne _ _ hvt] at h1; exact lost h0 v h1 h2
    obtain ⟨u, hu⟩ := this
    refine ⟨u, ?_⟩
    show upd s.pc t p u = _
    exact (upd_ne _ _ (fun hh => ho (by rw [← hh]; exact hu))).trans hu

theorem Inv.goto' {s t p} (i : Inv s)
    (hq : (p = .g2 ∨ p = .g3 ∨ p = .w ∨ p = .e) ↔
      (s.pc t = .g2 ∨ s.pc t = .g3 ∨ s.pc t = .w ∨ s.pc t = .e))
    (he : (p = .g0 ∨ p = .g1 ∨ p = .gs) → s.sig t = false) (ho : s.pc t ≠ .o1)
    (hw : s.isOpen = true → p = .w ∨ p = .e → s.pc t = .w ∨ s.pc t = .e) : Inv (s.goto t p) :=
  i.goto ⟨fun h => hq.2 (i.que t h).1, fun h => i.park t (hq.1 h)⟩ he ho hw

/-- The invariant does not depend on the history variables. -/
theorem Inv.hist {s res seen} (i : Inv s) : Inv { s with res := res, seen := seen } :=
  ⟨i.que, i.park, i.early, i.nodup, i.lost⟩

/-- The slot signals itself (gate.h:102, 107). -/
theorem Inv.self {s t} (i : Inv s) (hp : s.pc t = .gs ∨ s.pc t = .g4) :
    Inv { s with sig := upd s.sig t true, pc := upd s.pc t .w } := by
  obtain ⟨que, park, early, nodup, lost⟩ := i
  have htq : t ∉ s.queue := by
    intro h
    have := (que t h).1
    rcases hp with hp | hp <;> rw [hp] at this <;> simp at this
  have hne : ∀ v ∈ s.queue, v ≠ t := fun v hv hh => htq (hh ▸ hv)
  constructor
  · intro v hv
    have hv : v ∈ s.queue := hv
    simp only [upd_ne _ _ (hne v hv)]; exact que v hv
  · intro v h1 h2
    simp only at h1 h2
    by_cases hvt : v = t
    · subst hvt; rw [upd_same] at h2; cases h2
    · simp only [upd_ne _ _ hvt] at h1 h2; exact park v h1 h2
  · intro v h1
    simp only at h1 ⊢
    by_cases hvt : v = t
    · subst hvt; simp only [upd_same] at h1; simp at h1
    · simp only [upd_ne _ _ hvt] at h1 ⊢; exact early v h1
  · exact nodup
  · intro h0 v h1 h2
    simp only at h1 h2
    by_cases hvt : v = t
    · subst hvt; rw [upd_same] at h2; cases h2
    · simp only [upd_ne _ _ hvt] at h1 h2
      obtain ⟨u, hu⟩ := lost h0 v h1 h2
      refine ⟨u, (upd_ne _ _ (fun hh => ?_)).trans hu⟩
      rw [hh] at hu; rcases hp with hp | hp <;> rw [hp] at hu <;> cases hu

/-- The slot leaves the queue (gate.h:106, 119, 126). -/
theorem Inv.remove {s t p} (i : Inv s) (hp : s.pc t = .g3 ∨ s.pc t = .e)
    (hq : p = .g4 ∨ p = .idle) :
    Inv { s with queue := s.queue.erase t, pc := upd s.pc t p } := by
  obtain ⟨que, park, early, nodup, lost⟩ := i
  constructor
  · intro v hv
    have hv : v ∈ s.queue.erase t := hv
    have hvt : v ≠ t := by intro hh; rw [hh] at hv; exact nodup.not_mem_erase hv
    simp only [upd_ne _ _ hvt]; exact que v (List.mem_of_mem_erase hv)
  · intro v h1 h2
    simp only at h1
    by_cases hvt : v = t
    · subst hvt; rw [upd_same] at h1; rcases hq with rfl | rfl <;> simp at h1
    · simp only [upd_ne _ _ hvt] at h1
      exact (List.mem_erase_of_ne hvt).2 (park v h1 h2)
  · intro v h1
    simp only at h1 ⊢
    by_cases hvt : v = t
    · subst hvt; simp only [upd_same] at h1; rcases hq with rfl | rfl <;> simp at h1
    · simp only [upd_ne _ _ hvt] at h1; exact early v h1
  · exact nodup.erase t
  · intro h0 v h1 h2
    simp only at h1
    by_cases hvt : v = t
    · subst hvt; rw [upd_same] at h1; rcases hq with rfl | rfl <;> simp at h1
    · simp only [upd_ne _ _ hvt] at h1
      obtain ⟨u, hu⟩ := lost h0 v h1 h2
      refine ⟨u, (upd_ne _ _ (fun hh => ?_)).trans hu⟩
      rw [hh] at hu; rcases hp with hp | hp <;> rw [hp] at hu <;> cases hu

theorem Inv.step {s s' t op} (i : Inv s) (h : step s t op = some s') : Inv s' := by
  unfold Gate.step at h
  cases hpc : s.pc t with
  | idle =>
    rw [hpc] at h
    cases op with
    | wait =>
      cases h
      obtain ⟨que, park, early, nodup, lost⟩ := i
      have htq : t ∉ s.queue := by
        intro h; have := (que t h).1; rw [hpc] at this; simp at this
      have hne : ∀ v ∈ s.queue, v ≠ t := fun v hv hh => htq (hh ▸ hv)
      constructor
      · intro v hv
        have hv : v ∈ s.queue := hv
        simp only [upd_ne _ _ (hne v hv)]; exact que v hv
      · intro v h1 h2
        simp only at h1 h2
        by_cases hvt : v = t
        · subst hvt; rw [upd_same] at h1; simp at h1
        · simp only [upd_ne _ _ hvt] at h1 h2; exact park v h1 h2
      · intro v h1
        simp only at h1 ⊢
        by_cases hvt : v = t
        · subst hvt; rw [upd_same]
        · simp only [upd_ne _ _ hvt] at h1 ⊢; exact early v h1
      · exact nodup
      · intro h0 v h1 h2
        simp only at h1 h2
        by_cases hvt : v = t
        · subst hvt; rw [upd_same] at h1; simp at h1
        · simp only [upd_ne _ _ hvt] at h1 h2
          obtain ⟨u, hu⟩ := lost h0 v h1 h2
          refine ⟨u, (upd_ne _ _ (fun hh => ?_)).trans hu⟩
          rw [hh, hpc] at hu; cases hu
    | «open» => cases h; exact i.goto' (by simp [hpc]) (by simp) (by simp [hpc]) (by simp)
    | close => cases h; exact i.goto' (by simp [hpc]) (by simp) (by simp [hpc]) (by simp)
    | expire => cases h
  | g0 =>
    rw [hpc] at h
    have := i.early t (.inl hpc)
    dsimp only at h
    split at h <;> cases h <;> exact i.goto' (by simp [hpc]) (by simp [this]) (by simp [hpc]) (by simp)
  | gs => rw [hpc] at h; cases h; exact i.self (.inl hpc)
  | g1 =>
    rw [hpc] at h; cases h
    have hs := i.early t (.inr (.inl hpc))
    obtain ⟨que, park, early, nodup, lost⟩ := i
    have htq : t ∉ s.queue := by
      intro h; have := (que t h).1; rw [hpc] at this; simp at this
    constructor
    · intro v hv
      have hv : v ∈ t :: s.queue := hv
      by_cases hvt : v = t
      · subst hvt; simp [upd_same, hs]
      · simp [hvt] at hv; simp only [upd_ne _ _ hvt]; exact que v hv
    · intro v h1 h2
      simp only at h1 ⊢
      by_cases hvt : v = t
      · subst hvt; simp
      · simp only [upd_ne _ _ hvt] at h1; simp [park v h1 h2]
    · intro v h1
      simp only at h1 ⊢
      by_cases hvt : v = t
      · subst hvt; exact hs
      · simp only [upd_ne _ _ hvt] at h1; exact early v h1
    · exact List.nodup_cons.2 ⟨htq, nodup⟩
    · intro h0 v h1 h2
      simp only at h1
      by_cases hvt : v = t
      · subst hvt; simp [upd_same] at h1
      · simp only [upd_ne _ _ hvt] at h1
        obtain ⟨u, hu⟩ := lost h0 v h1 h2
        refine ⟨u, (upd_ne _ _ (fun hh => ?_)).trans hu⟩
        rw [hh, hpc] at hu; cases hu
  | g2 =>
    rw [hpc] at h
    dsimp only at h
    split at h
    · cases h; exact i.goto' (by simp [hpc]) (by simp) (by simp [hpc]) (by simp)
    · rename_i ho
      cases h; exact i.goto' (by simp [hpc]) (by simp) (by simp [hpc]) (fun h => absurd h ho)
  | g3 => rw [hpc] at h; cases h; exact i.remove (.inl hpc) (.inl rfl)
  | g4 => rw [hpc] at h; cases h; exact i.self (.inr hpc)
  | w =>
    rw [hpc] at h
    dsimp only at h
    split at h
    · rename_i hs
      cases h
      refine (i.goto (t := t) (p := .idle) ⟨fun h => ?_, by simp⟩ (by simp) (by simp [hpc])
        (by simp)).hist (res := upd s.res t (some true)) (seen := s.seen)
      have := (i.que t h).2
      rw [hs] at this; cases this
    · split at h
      · cases h; exact i.goto' (by simp [hpc]) (by simp) (by simp [hpc]) (by simp [hpc])
      · cases h
  | e =>
    rw [hpc] at h
    dsimp only at h
    split at h
    · cases h
      exact (i.remove (p := .idle) (.inr hpc) (.inr rfl)).hist (res := upd s.res t (some false))
        (seen := s.seen)
    · rename_i hq
      cases h
      exact (i.goto (t := t) (p := .idle) ⟨fun h => absurd h hq, by simp⟩ (by simp) (by simp [hpc])
        (by simp)).hist (res := upd s.res t (some true)) (seen := s.seen)
  | o0 =>
    rw [hpc] at h; cases h
    have := i.goto' (t := t) (p := .o1) (by simp [hpc]) (by simp) (by simp [hpc]) (by simp)
    exact ⟨this.que, this.park, this.early, this.nodup, fun _ _ _ _ => ⟨t, upd_same _ _ _⟩⟩
  | o1 =>
    rw [hpc] at h; cases h
    obtain ⟨que, park, early, nodup, lost⟩ := i
    constructor
    · intro v hv; simp at hv
    · intro v h1 h2
      simp only at h1 h2
      by_cases hvt : v = t
      · subst hvt; simp [upd_same] at h1
      · simp only [upd_ne _ _ hvt] at h1
        simp at h2
        exact absurd (park v h1 h2.2) h2.1
    · intro v h1
      simp only at h1 ⊢
      by_cases hvt : v = t
      · subst hvt; simp [upd_same] at h1
      · simp only [upd_ne _ _ hvt] at h1
        have hq : v ∉ s.queue := by
          intro hq
          have := (que v hq).1
          rcases h1 with h1 | h1 | h1 <;> rw [h1] at this <;> simp at this
        simp [hq, early v h1]
    · simp
    · intro h0 v h1 h2
      simp only at h1 h2
      by_cases hvt : v = t
      · subst hvt; simp [upd_same] at h1
      · simp only [upd_ne _ _ hvt] at h1
        simp at h2
        exact absurd (park v (.inr (.inr h1)) h2.2) h2.1
  | c0 =>
    rw [hpc] at h; cases h
    have := i.goto' (t := t) (p := .idle) (by simp [hpc]) (by simp) (by simp [hpc]) (by simp)
    exact ⟨this.que, this.park, this.early, this.nodup, fun h => by cases h⟩

theorem Reach.inv {P b s} (h : Reach P b s) : Inv s := by
  induction h with
  | init => exact ⟨by simp, by simp, by simp, by simp, by simp⟩
  | step _ _ hs ih => exact ih.step hs

/-! ## C37 -/

/-- C37: each opening releases the threads that wait: when `open` (of any thread `u`) has done its
notification, a thread `t` that was waiting by then is signaled, whatever happened to the state of
the gate meanwhile. -/
theorem c37_released {P b s s' u t op} (h : Reach P b s) (hu : s.pc u = .o1)
    (ht : s.pc t = .w ∨ s.pc t = .e) (hs : step s u op = some s') :
    s'.sig t = true ∧ s'.pc t = s.pc t := by
  have i := h.inv
  unfold Gate.step at hs
  rw [hu] at hs; cases hs
  have hut : t ≠ u := by rintro rfl; rw [hu] at ht; simp at ht
  refine ⟨?_, upd_ne _ _ hut⟩
  cases hsig : s.sig t with
  | true => simp [hsig]
  | false => simp [i.park t (.inr (.inr ht)) hsig]

/-- C37: a signaled thread leaves `wait` with success by its next two transitions, whatever the
time-out does. -/
theorem c37_signaled_leaves {P b s t op} (h : Reach P b s) (ht : s.pc t = .w ∨ s.pc t = .e)
    (hs : s.sig t = true) : ∃ s', step s t op = some s' ∧ s'.pc t = .idle ∧ s'.res t = some true := by
  have i := h.inv
  unfold Gate.step
  rcases ht with ht | ht <;> rw [ht] <;> dsimp only
  · rw [if_pos hs]; exact ⟨_, rfl, upd_same _ _ _, upd_same _ _ _⟩
  · rw [if_neg (fun hq => by have := (i.que t hq).2; rw [hs] at this; cases this)]
    exact ⟨_, rfl, upd_same _ _ _, upd_same _ _ _⟩

/-- C37: no wake-up is lost: if the gate is open and no call of `open` is in progress, no waiting
thread is without its signal. -/
theorem c37_no_lost {P b s t} (h : Reach P b s) (ho : s.isOpen = true) (hu : ∀ u, s.pc u ≠ .o1)
    (ht : s.pc t = .w ∨ s.pc t = .e) : s.sig t = true := by
  cases hs : s.sig t with
  | true => rfl
  | false =>
    obtain ⟨u, hu'⟩ := h.inv.lost ho t ht hs
    exact absurd hu' (hu u)

/-- C37: a wait on an open gate returns at once: the thread passes by its own transitions. -/
theorem c37_open_passes {s t} (hi : s.pc t = .idle) (ho : s.isOpen = true) :
    ∃ s', exec s [(t, .wait), (t, .wait), (t, .wait), (t, .wait)] = some s' ∧
      s'.pc t = .idle ∧ s'.res t = some true := by
  simp [exec, Gate.step, hi, upd_same, ho, St.goto, St.leave]

/-- C37: a thread which does not wait any more is not in the queue (its slot is on its stack). -/
theorem c37_left_not_queued {P b s t} (h : Reach P b s) (ht : s.pc t = .idle) : t ∉ s.queue := by
  intro hq
  have := (h.inv.que t hq).1
  rw [ht] at this; simp at this

/-- Thread 1 waits, thread 2 too and gives up; thread 3 opens. -/
example : (exec {} [(1, .wait), (1, .wait), (1, .wait), (1, .wait), (2, .wait), (2, .wait),
      (2, .wait), (2, .wait), (2, .expire), (2, .wait), (3, .open), (3, .open), (3, .open),
      (1, .wait)]).map (fun s => (s.res 1, s.res 2, s.queue)) =
    some (some true, some false, []) := by decide

/-! ## C71: the gate stops threads while it is closed -/

theorem exec_reach {P b} : ∀ (l : List (Nat × Op)) {s s'}, (∀ x ∈ l, P x.1 x.2) → Reach P b s →
    exec s l = some s' → Reach P b s' := by
  intro l
  induction l with
  | nil => intro s s' _ h he; cases he; exact h
  | cons x l ih =>
    intro s s' hx h he
    obtain ⟨t, op⟩ := x
    unfold exec at he
    cases hs : Gate.step s t op with
    | none => rw [hs] at he; cases he
    | some s1 =>
      rw [hs] at he
      exact ih (fun x h => hx x (by simp [h])) (.step h (hx (t, op) (by simp)) hs) he

/-- C71 (violated): thread 2 is inside of `open`, thread 3 closes the gate; then thread 1 calls
`wait` and passes, though the gate was closed all the time since its call. -/
theorem c71_violated : ∃ s, Reach (fun _ _ => True) false s ∧ s.res 1 = some true ∧
    s.pc 1 = .idle ∧ s.seen 1 = false := by
  let l : List (Nat × Op) := [(2, .open), (2, .open), (3, .close), (3, .close), (1, .wait),
    (1, .wait), (1, .wait), (1, .wait), (2, .open), (1, .wait)]
  cases h : exec {} l with
  | none => exact absurd h (by decide)
  | some s =>
    refine ⟨s, exec_reach l (by simp) .init h, ?_⟩
    have e : (exec {} l).map (fun s => (s.res 1, s.pc 1, s.seen 1)) =
        some (some true, .idle, false) := by decide
    rw [h] at e
    simpa using e

/-- Inside of `wait`. -/
def inWait : PC → Bool
  | .g0 | .gs | .g1 | .g2 | .g3 | .g4 | .w | .e => true
  | _ => false

/-- One thread only opens and closes the gate. -/
def Single (c : Nat) (t : Nat) (op : Op) : Prop := op = .open ∨ op = .close → t = c

structure Inv71 (c : Nat) (s : St) : Prop where
  ctl : ∀ u, (s.pc u = .o0 ∨ s.pc u = .o1 ∨ s.pc u = .c0) → u = c
  opn : s.pc c = .o1 → s.isOpen = true
  see : s.isOpen = true → ∀ t, inWait (s.pc t) = true → s.seen t = true
  sg : ∀ t, inWait (s.pc t) = true → s.sig t = true → s.seen t = true
  self : ∀ t, (s.pc t = .gs ∨ s.pc t = .g3 ∨ s.pc t = .g4) → s.seen t = true
  res : ∀ t, s.res t = some true → s.seen t = true

theorem Inv71.goto {c s t p} (i : Inv71 c s) (h1 : (p = .o0 ∨ p = .o1 ∨ p = .c0) → t = c)
    (h2 : p = .o1 → s.isOpen = true) (h3 : inWait p = true → inWait (s.pc t) = true)
    (h4 : (p = .gs ∨ p = .g3 ∨ p = .g4) → s.seen t = true)
    (r : Nat → Option Bool) (hr : ∀ v, v ≠ t → r v = s.res v)
    (h5 : r t = some true → s.seen t = true) :
    Inv71 c { s with pc := upd s.pc t p, res := r } := by
  obtain ⟨ctl, opn, see, sg, self, res⟩ := i
  constructor
  · intro u hu
    by_cases hut : u = t
    · subst hut; simp only [upd_same] at hu; exact h1 hu
    · simp only [upd_ne _ _ hut] at hu; exact ctl u hu
  · intro hu
    by_cases hut : c = t
    · subst hut; simp only [upd_same] at hu; exact h2 hu
    · simp only [upd_ne _ _ hut] at hu; exact opn hu
  · intro h0 u hu
    by_cases hut : u = t
    · subst hut; simp only [upd_same] at hu; exact see h0 u (h3 hu)
    · simp only [upd_ne _ _ hut] at hu; exact see h0 u hu
  · intro u hu
    by_cases hut : u = t
    · subst hut; simp only [upd_same] at hu; exact sg u (h3 hu)
    · simp only [upd_ne _ _ hut] at hu; exact sg u hu
  · intro u hu
    by_cases hut : u = t
    · subst hut; simp only [upd_same] at hu; exact h4 hu
    · simp only [upd_ne _ _ hut] at hu; exact self u hu
  · intro u hu
    by_cases hut : u = t
    · subst hut; exact h5 hu
    · exact res u (by rw [← hr u hut]; exact hu)

/-- The queue does not matter; a signal may be set for a thread which has seen the gate open. -/
theorem Inv71.sigq {c s} (i : Inv71 c s) (q : List Nat) (g : Nat → Bool)
    (hg : ∀ t, inWait (s.pc t) = true → g t = true → s.seen t = true) :
    Inv71 c { s with queue := q, sig := g } :=
  ⟨i.ctl, i.opn, i.see, hg, i.self, i.res⟩

theorem Inv71.step {c s s' t op} (i : Inv71 c s) (i0 : Inv s) (hp : Single c t op)
    (h : Gate.step s t op = some s') : Inv71 c s' := by
  unfold Gate.step at h
  cases hpc : s.pc t with
  | idle =>
    rw [hpc] at h
    cases op with
    | wait =>
      cases h
      obtain ⟨ctl, opn, see, sg, self, res⟩ := i
      constructor
      · intro u hu
        by_cases hut : u = t
        · subst hut; simp [upd_same] at hu
        · simp only [upd_ne _ _ hut] at hu; exact ctl u hu
      · intro hu
        by_cases hut : c = t
        · subst hut; simp [upd_same] at hu
        · simp only [upd_ne _ _ hut] at hu; exact opn hu
      · intro h0 u hu
        by_cases hut : u = t
        · subst hut; simp only [upd_same]; exact h0
        · simp only [upd_ne _ _ hut] at hu ⊢; exact see h0 u hu
      · intro u hu hg
        by_cases hut : u = t
        · subst hut; simp [upd_same] at hg
        · simp only [upd_ne _ _ hut] at hu hg ⊢; exact sg u hu hg
      · intro u hu
        by_cases hut : u = t
        · subst hut; simp [upd_same] at hu
        · simp only [upd_ne _ _ hut] at hu ⊢; exact self u hu
      · intro u hr
        by_cases hut : u = t
        · subst hut; simp [upd_same] at hr
        · simp only [upd_ne _ _ hut] at hr ⊢; exact res u hr
    | «open» =>
      cases h
      exact i.goto (fun _ => hp (.inl rfl)) (by simp) (by simp [inWait]) (by simp) s.res
        (fun _ _ => rfl) (i.res t)
    | close =>
      cases h
      exact i.goto (fun _ => hp (.inr rfl)) (by simp) (by simp [inWait]) (by simp) s.res
        (fun _ _ => rfl) (i.res t)
    | expire => cases h
  | g0 =>
    rw [hpc] at h; dsimp only at h
    split at h <;> cases h <;> rename_i ho
    · exact i.goto (by simp) (by simp) (by simp [hpc, inWait])
        (fun _ => i.see ho t (by simp [hpc, inWait])) s.res (fun _ _ => rfl) (i.res t)
    · exact i.goto (by simp) (by simp) (by simp [hpc, inWait]) (by simp) s.res
        (fun _ _ => rfl) (i.res t)
  | gs =>
    rw [hpc] at h; cases h
    refine ((i.goto (t := t) (p := .w) (by simp) (by simp) (by simp [hpc, inWait]) (by simp) s.res
        (fun _ _ => rfl) (i.res t))).sigq s.queue (upd s.sig t true) ?_
    intro u hu hg
    by_cases hut : u = t
    · subst hut; exact i.self u (.inl hpc)
    · simp only [upd_ne _ _ hut] at hu hg; exact i.sg u hu hg
  | g1 =>
    rw [hpc] at h; cases h
    have := i.goto (t := t) (p := .g2) (by simp) (by simp) (by simp [hpc, inWait]) (by simp) s.res
        (fun _ _ => rfl) (i.res t)
    exact this.sigq (t :: s.queue) s.sig this.sg
  | g2 =>
    rw [hpc] at h; dsimp only at h
    split at h <;> cases h <;> rename_i ho
    · exact i.goto (by simp) (by simp) (by simp [hpc, inWait])
        (fun _ => i.see ho t (by simp [hpc, inWait])) s.res (fun _ _ => rfl) (i.res t)
    · exact i.goto (by simp) (by simp) (by simp [hpc, inWait]) (by simp) s.res
        (fun _ _ => rfl) (i.res t)
  | g3 =>
    rw [hpc] at h; cases h
    have := i.goto (t := t) (p := .g4) (by simp) (by simp) (by simp [hpc, inWait])
        (fun _ => i.self t (.inr (.inl hpc))) s.res (fun _ _ => rfl) (i.res t)
    exact this.sigq (s.queue.erase t) s.sig this.sg
  | g4 =>
    rw [hpc] at h; cases h
    refine ((i.goto (t := t) (p := .w) (by simp) (by simp) (by simp [hpc, inWait]) (by simp) s.res
        (fun _ _ => rfl) (i.res t))).sigq s.queue (upd s.sig t true) ?_
    intro u hu hg
    by_cases hut : u = t
    · subst hut; exact i.self u (.inr (.inr hpc))
    · simp only [upd_ne _ _ hut] at hu hg; exact i.sg u hu hg
  | w =>
    rw [hpc] at h; dsimp only at h
    split at h
    · rename_i hs
      cases h
      exact i.goto (by simp) (by simp) (by simp [inWait]) (by simp) _
        (fun v hv => upd_ne _ _ hv) (fun _ => i.sg t (by simp [hpc, inWait]) hs)
    · split at h
      · cases h
        exact i.goto (by simp) (by simp) (by simp [hpc, inWait]) (by simp) s.res
          (fun _ _ => rfl) (i.res t)
      · cases h
  | e =>
    rw [hpc] at h; dsimp only at h
    split at h <;> cases h <;> rename_i hq
    · have := i.goto (t := t) (p := .idle) (by simp) (by simp) (by simp [inWait]) (by simp)
        (upd s.res t (some false)) (fun v hv => upd_ne _ _ hv) (by simp [upd_same])
      exact this.sigq (s.queue.erase t) s.sig this.sg
    · refine i.goto (by simp) (by simp) (by simp [inWait]) (by simp) _
        (fun v hv => upd_ne _ _ hv) (fun _ => i.sg t (by simp [hpc, inWait]) ?_)
      cases hs : s.sig t with
      | true => rfl
      | false => exact absurd (i0.park t (.inr (.inr (.inr hpc))) hs) hq
  | o0 =>
    rw [hpc] at h; cases h
    have hc := i.ctl t (.inl hpc)
    subst hc
    constructor
    · intro u hu
      by_cases hut : u = t
      · exact hut
      · simp only [upd_ne _ _ hut] at hu; exact i.ctl u hu
    · intro _; rfl
    · intro _ _ _; rfl
    · intro _ _ _; rfl
    · intro _ _; rfl
    · intro _ _; rfl
  | o1 =>
    rw [hpc] at h; cases h
    have hc := i.ctl t (.inr (.inl hpc))
    have ho : s.isOpen = true := i.opn (by rw [← hc]; exact hpc)
    refine (i.goto (t := t) (p := .idle) (by simp) (by simp) (by simp [inWait]) (by simp) s.res
        (fun _ _ => rfl) (i.res t)).sigq [] (fun x => decide (x ∈ s.queue) || s.sig x) ?_
    intro u hu _
    have hut : u ≠ t := by rintro rfl; simp [upd_same, inWait] at hu
    simp only [upd_ne _ _ hut] at hu
    exact i.see ho u hu
  | c0 =>
    rw [hpc] at h; cases h
    have hc := i.ctl t (.inr (.inr hpc))
    subst hc
    have := i.goto (t := t) (p := .idle) (by simp) (by simp) (by simp [inWait]) (by simp) s.res
        (fun _ _ => rfl) (i.res t)
    exact ⟨this.ctl, fun h => by simp [upd_same] at h, fun h => (by cases h), this.sg, this.self,
      this.res⟩

theorem Reach.inv71 {c b s} (h : Reach (Single c) b s) : Inv71 c s := by
  induction h with
  | init => exact ⟨by simp, by simp, by simp [inWait], by simp, by simp, by simp⟩
  | step h0 hp hs ih => exact ih.step h0.inv hp hs

/-- C71 (partial): if one thread only opens and closes the gate, a successful `wait` has the gate
open at some time during the wait. Missing: openings and closings by several threads, see
`c71_violated`. -/
theorem c71_passes_open_partial {c b s t} (h : Reach (Single c) b s) (hr : s.res t = some true) :
    s.seen t = true := h.inv71.res t hr

/-- With one controller: thread 1 waits on the closed gate and passes after the opening. -/
example : (exec {} [(1, .wait), (1, .wait), (1, .wait), (1, .wait), (3, .open), (3, .open),
      (3, .open), (3, .close), (3, .close), (1, .wait)]).map
        (fun s => (s.res 1, s.seen 1, s.isOpen)) = some (some true, true, false) := by decide

end LS.Gate

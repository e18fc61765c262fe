import Verif.Mutex
import Verif.FastLockProps
/-! # Property C35: mutex -/

namespace LS.Mutex
open LS.FastLock (upd upd_same upd_ne)

/-- The slot of thread `t` got the ownership. -/
def granted (s : St) (t : Nat) : Prop := s.sig t = true ∨ s.qlk = t

/-- Program counters with a slot that may be in the queue. -/
def inq : PC → Prop
  | .l3 _ | .l4 | .l5 _ | .l6 => True
  | _ => False

/-- Program counters where the slot may be signaled. -/
def waits : PC → Prop
  | .l3 _ | .l5 _ | .l6 => True
  | _ => False

/-- A thread at `p` with depth `d` controls the mutex (`g`: its slot got the ownership). -/
def ctlP (p : PC) (d : Nat) (g : Prop) : Prop :=
  match p with
  | .idle | .l0 _ | .t0 => d ≠ 0
  | .l1 | .l4 | .l9 | .u0 | .u1 | .u2 | .u3 => True
  | .l3 _ | .l5 _ | .l6 | .l7 => g
  | .l2 _ | .u2s _ | .u4 | .u5 => False

/-- The depth `d` and the counter `r` fit to the program counter. -/
def depP (p : PC) (d r : Nat) : Prop :=
  match p with
  | .idle | .l0 _ | .t0 => d ≠ 0 → r = d
  | .l1 => d ≠ 0 ∧ r = d
  | .u0 => r = d + 1
  | .u1 => d ≠ 0 ∧ r = d + 1
  | .u2 | .u3 => d = 0 ∧ r = 1
  | _ => d = 0

/-- Inside of `tryLock` or `unlock`. -/
def later : PC → Prop
  | .t0 | .u0 | .u1 | .u2 | .u2s _ | .u3 | .u4 | .u5 => True
  | _ => False

structure Inv (s : St) : Prop where
  ctl : ∀ t, t ≠ 0 → (ctlP (s.pc t) (s.depth t) (granted s t) ↔ s.owner = t)
  zero : s.pc 0 = .idle ∧ s.depth 0 = 0
  que : ∀ t, t ∈ s.queue ↔ (inq (s.pc t) ∧ ¬ granted s t)
  nodup : s.queue.Nodup
  sl : ∀ u p, s.pc u = .u2s p → s.qlk = p ∧ p ≠ 0
  uniq : ∀ u v p p', s.pc u = .u2s p → s.pc v = .u2s p' → u = v
  pend : s.qlk ≠ 0 → waits (s.pc s.qlk) ∧ s.sig s.qlk = false
  dep : ∀ t, depP (s.pc t) (s.depth t) s.recursion
  free : s.owner = 0 → s.ever = true → s.recursion = 1
  ev : ∀ t, later (s.pc t) ∨ s.depth t ≠ 0 → s.ever = true

/-- `tryLock` is used only after `lock` was used once. -/
def Warm (s : St) (op : Op) : Prop := op = .tryLock → s.ever = true

theorem Inv.init : Inv {} where
  ctl := by intro t h; simp [ctlP]; omega
  zero := ⟨rfl, rfl⟩
  que := by simp [inq]
  nodup := by simp
  sl := by simp
  uniq := by simp
  pend := by simp
  dep := by simp [depP]
  free := by simp
  ev := by simp [later]

theorem depP.other {p d r g} (h : depP p d r) (hc : ¬ ctlP p d g) (r') : depP p d r' := by
  cases p <;> simp_all [depP, ctlP]

theorem waits_of {p d g} (h : inq p) (hc : ¬ ctlP p d g) : waits p := by
  cases p <;> simp_all [inq, waits, ctlP]

theorem ctl_of {p d} {g : Prop} (h : waits p) (hg : g) : ctlP p d g := by
  cases p <;> simp_all [waits, ctlP]

/-- Transitions that leave the synchronisation point alone. -/
theorem Inv.local {s t} (i : Inv s) (ht : t ≠ 0) (o r : Nat) (e : Bool) (d : Nat) (p : PC)
    (hct : ctlP p d (granted s t) ↔ o = t)
    (hco : ∀ v, v ≠ t → v ≠ 0 → (o = v ↔ s.owner = v))
    (hq : inq p ∧ ¬ granted s t ↔ inq (s.pc t) ∧ ¬ granted s t)
    (hs : ∀ x, p ≠ .u2s x) (hw : waits (s.pc t) → granted s t → waits p ∨ s.qlk ≠ t)
    (hd : depP p d r) (hr : r = s.recursion ∨ s.owner = 0 ∨ s.owner = t)
    (hf : o = 0 → e = true → r = 1) (he : s.ever = true → e = true)
    (hev : later p ∨ d ≠ 0 → e = true) :
    Inv { s with owner := o, recursion := r, ever := e, depth := upd s.depth t d,
                 pc := upd s.pc t p } := by
  obtain ⟨ctl, zero, que, nodup, sl, uniq, pend, dep, free, ev⟩ := i
  constructor
  · intro v hv
    by_cases hvt : v = t
    · subst hvt; simp only [upd_same]; exact hct
    · simp only [upd_ne _ _ hvt]; rw [hco v hvt hv]; exact ctl v hv
  · exact ⟨(upd_ne _ _ (Ne.symm ht)).trans zero.1, (upd_ne _ _ (Ne.symm ht)).trans zero.2⟩
  · intro v
    by_cases hvt : v = t
    · subst hvt; simp only [upd_same]; exact (que v).trans hq.symm
    · simp only [upd_ne _ _ hvt]; exact que v
  · exact nodup
  · intro u x hu
    by_cases hut : u = t
    · subst hut; simp only [upd_same] at hu; exact absurd hu (hs x)
    · simp only [upd_ne _ _ hut] at hu; exact sl u x hu
  · intro u v x y hu hv
    by_cases hut : u = t
    · subst hut; simp only [upd_same] at hu; exact absurd hu (hs x)
    by_cases hvt : v = t
    · subst hvt; simp only [upd_same] at hv; exact absurd hv (hs y)
    simp only [upd_ne _ _ hut] at hu
    simp only [upd_ne _ _ hvt] at hv
    exact uniq u v x y hu hv
  · intro hq0
    obtain ⟨h1, h2⟩ := pend hq0
    refine ⟨?_, h2⟩
    show waits (upd s.pc t p s.qlk)
    by_cases hqt : s.qlk = t
    · rw [hqt, upd_same]
      rw [hqt] at h1
      exact (hw h1 (.inr hqt)).resolve_right (fun hh => hh hqt)
    · rw [upd_ne _ _ hqt]; exact h1
  · intro v
    by_cases hvt : v = t
    · subst hvt; simpa only [upd_same] using hd
    · simp only [upd_ne _ _ hvt]
      rcases hr with rfl | hr
      · exact dep v
      · by_cases hv0 : v = 0
        · subst hv0; rw [zero.1, zero.2]; simp [depP]
        · refine (dep v).other (g := granted s v) ?_ r
          rw [ctl v hv0]; omega
  · exact hf
  · intro v hv
    by_cases hvt : v = t
    · subst hvt; simp only [upd_same] at hv; exact hev hv
    · simp only [upd_ne _ _ hvt] at hv; exact he (ev v hv)

theorem upd_self {β} (f : Nat → β) (i) : upd f i (f i) = f := by
  funext j; by_cases h : j = i
  · rw [h, upd_same]
  · rw [upd_ne _ _ h]

/-- Transitions that change the program counter and `owner` only. -/
theorem Inv.local' {s t} (i : Inv s) (ht : t ≠ 0) (o : Nat) (p : PC)
    (hct : ctlP p (s.depth t) (granted s t) ↔ o = t)
    (hco : ∀ v, v ≠ t → v ≠ 0 → (o = v ↔ s.owner = v))
    (hq : inq p ∧ ¬ granted s t ↔ inq (s.pc t) ∧ ¬ granted s t)
    (hs : ∀ x, p ≠ .u2s x) (hw : waits (s.pc t) → granted s t → waits p ∨ s.qlk ≠ t)
    (hd : depP p (s.depth t) s.recursion)
    (hf : o = 0 → s.ever = true → s.recursion = 1)
    (hev : later p → s.ever = true) :
    Inv { s with owner := o, pc := upd s.pc t p } := by
  have := i.local ht o s.recursion s.ever (s.depth t) p hct hco hq hs hw hd (.inl rfl) hf id
    (fun h => h.elim hev (fun h => i.ev t (.inr h)))
  rwa [upd_self] at this

theorem Inv.goto {s t} (i : Inv s) (ht : t ≠ 0) (p : PC)
    (hct : ctlP p (s.depth t) (granted s t) ↔ ctlP (s.pc t) (s.depth t) (granted s t))
    (hq : inq p ∧ ¬ granted s t ↔ inq (s.pc t) ∧ ¬ granted s t)
    (hs : ∀ x, p ≠ .u2s x) (hw : waits (s.pc t) → granted s t → waits p ∨ s.qlk ≠ t)
    (hd : depP p (s.depth t) s.recursion) (hev : later p → s.ever = true) :
    Inv (s.goto t p) :=
  i.local' ht s.owner p (hct.trans (i.ctl t ht)) (fun _ _ _ => Iff.rfl) hq hs hw hd i.free hev

/-- Removal of a slot from the queue (mutex.cpp:40, 47). -/
theorem Inv.remove {s t} (i : Inv s) (ht : t ≠ 0) (hlk : s.qlk = 0) (p : PC)
    (hct : ctlP p (s.depth t) (granted s t) ↔ ctlP (s.pc t) (s.depth t) (granted s t))
    (hq : ¬ inq p) (hs : ∀ x, p ≠ .u2s x) (hd : depP p (s.depth t) s.recursion)
    (hev : ¬ later p) :
    Inv { s with queue := s.queue.erase t, pc := upd s.pc t p } := by
  obtain ⟨ctl, zero, que, nodup, sl, uniq, pend, dep, free, ev⟩ := i
  constructor
  · intro v hv
    by_cases hvt : v = t
    · subst hvt; simp only [upd_same]; exact hct.trans (ctl v hv)
    · simp only [upd_ne _ _ hvt]; exact ctl v hv
  · exact ⟨(upd_ne _ _ (Ne.symm ht)).trans zero.1, zero.2⟩
  · intro v
    by_cases hvt : v = t
    · subst hvt; simp only [upd_same]
      exact ⟨fun h => absurd h nodup.not_mem_erase, fun h => absurd h.1 hq⟩
    · simp only [upd_ne _ _ hvt]
      rw [List.mem_erase_of_ne hvt]; exact que v
  · exact nodup.erase t
  · intro u x hu
    by_cases hut : u = t
    · subst hut; simp only [upd_same] at hu; exact absurd hu (hs x)
    · simp only [upd_ne _ _ hut] at hu; exact sl u x hu
  · intro u v x y hu hv
    by_cases hut : u = t
    · subst hut; simp only [upd_same] at hu; exact absurd hu (hs x)
    by_cases hvt : v = t
    · subst hvt; simp only [upd_same] at hv; exact absurd hv (hs y)
    simp only [upd_ne _ _ hut] at hu
    simp only [upd_ne _ _ hvt] at hv
    exact uniq u v x y hu hv
  · intro hq0; exact absurd hlk hq0
  · intro v
    by_cases hvt : v = t
    · subst hvt; simpa only [upd_same] using hd
    · simp only [upd_ne _ _ hvt]; exact dep v
  · exact free
  · intro v hv
    by_cases hvt : v = t
    · subst hvt; simp only [upd_same] at hv; exact hv.elim (fun h => absurd h hev)
        (fun h => ev v (.inr h))
    · simp only [upd_ne _ _ hvt] at hv; exact ev v hv

/-- mutex.cpp:34: the slot enters the queue. -/
theorem Inv.enter {s t tm} (i : Inv s) (ht : t ≠ 0) (hlk : s.qlk = 0) (hpc : s.pc t = .l2 tm) :
    Inv { s with queue := s.queue ++ [t], sig := upd s.sig t false, pc := upd s.pc t (.l3 tm)
                 clock := s.clock + 1, stamp := upd s.stamp t s.clock } := by
  obtain ⟨ctl, zero, que, nodup, sl, uniq, pend, dep, free, ev⟩ := i
  have htq : t ∉ s.queue := by rw [que, hpc]; simp [inq]
  constructor
  · intro v hv
    by_cases hvt : v = t
    · subst hvt
      have := ctl v hv
      rw [hpc] at this
      simp only [upd_same, ctlP, granted] at this ⊢
      rw [← this]
      simp [hlk, ht.symm]
    · simp only [upd_ne _ _ hvt, granted]; exact ctl v hv
  · exact ⟨(upd_ne _ _ (Ne.symm ht)).trans zero.1, zero.2⟩
  · intro v
    by_cases hvt : v = t
    · subst hvt; simp [upd_same, granted, inq, hlk, ht.symm]
    · simp only [upd_ne _ _ hvt, granted]
      rw [← granted, ← que v]; simp [hvt]
  · rw [List.nodup_append]
    refine ⟨nodup, by simp, fun a ha b hb => ?_⟩
    simp at hb; subst hb
    exact fun hh => htq (hh ▸ ha)
  · intro u x hu
    by_cases hut : u = t
    · subst hut; simp only [upd_same] at hu; cases hu
    · simp only [upd_ne _ _ hut] at hu; exact sl u x hu
  · intro u v x y hu hv
    by_cases hut : u = t
    · subst hut; simp only [upd_same] at hu; cases hu
    by_cases hvt : v = t
    · subst hvt; simp only [upd_same] at hv; cases hv
    simp only [upd_ne _ _ hut] at hu
    simp only [upd_ne _ _ hvt] at hv
    exact uniq u v x y hu hv
  · intro hq0; exact absurd hlk hq0
  · intro v
    by_cases hvt : v = t
    · subst hvt; have := dep v; rw [hpc] at this; simpa only [upd_same, depP] using this
    · simp only [upd_ne _ _ hvt]; exact dep v
  · exact free
  · intro v hv
    by_cases hvt : v = t
    · subst hvt; simp only [upd_same, later, false_or] at hv
      exact ev v (.inr hv)
    · simp only [upd_ne _ _ hvt] at hv; exact ev v hv

/-- mutex.cpp:84, 146-150: the ownership goes to the oldest waiting thread. -/
theorem Inv.hand {s t p q} (i : Inv s) (ht : t ≠ 0) (hlk : s.qlk = 0) (hpc : s.pc t = .u2)
    (hq : s.queue = p :: q) :
    Inv { s with queue := q, recursion := 1, owner := p, qlk := p, pc := upd s.pc t (.u2s p) } := by
  obtain ⟨ctl, zero, que, nodup, sl, uniq, pend, dep, free, ev⟩ := i
  have hown : s.owner = t := (ctl t ht).1 (by rw [hpc]; simp [ctlP])
  have hpq : p ∈ s.queue := by rw [hq]; simp
  obtain ⟨hp1, hp2⟩ := (que p).1 hpq
  have hp0 : p ≠ 0 := by intro h; rw [h, zero.1] at hp1; simp [inq] at hp1
  have hpt : p ≠ t := by intro h; rw [h, hpc] at hp1; simp [inq] at hp1
  have hno : ∀ v, v ≠ 0 → v ≠ t → ¬ ctlP (s.pc v) (s.depth v) (granted s v) := by
    intro v hv hvt; rw [ctl v hv, hown]; exact fun h => hvt h.symm
  have hpw : waits (s.pc p) := waits_of hp1 (hno p hp0 hpt)
  have hnu : ∀ u x, s.pc u ≠ .u2s x := fun u x hu => (sl u x hu).2 ((sl u x hu).1.symm.trans hlk)
  have htd : s.depth t = 0 := by have := dep t; rw [hpc] at this; exact this.1
  rw [hq] at nodup
  obtain ⟨hpq', nodup⟩ := List.nodup_cons.1 nodup
  constructor
  · intro v hv
    by_cases hvt : v = t
    · subst hvt; simp only [upd_same, ctlP]; exact ⟨False.elim, fun h => hpt h⟩
    · simp only [upd_ne _ _ hvt]
      by_cases hvp : v = p
      · subst hvp
        exact ⟨fun _ => rfl, fun _ => ctl_of hpw (.inr rfl)⟩
      · constructor
        · intro h
          refine absurd ?_ (hno v hv hvt)
          have hg : (s.sig v = true ∨ p = v) → granted s v :=
            fun g => g.elim .inl (fun g => absurd g.symm hvp)
          revert h
          cases s.pc v <;> simp only [ctlP, imp_self] <;> exact hg
        · intro h; exact absurd h.symm hvp
  · exact ⟨(upd_ne _ _ (Ne.symm ht)).trans zero.1, zero.2⟩
  · intro v
    by_cases hvt : v = t
    · subst hvt; simp only [upd_same, inq, false_and, iff_false]
      intro h
      have : v ∈ s.queue := by rw [hq]; simp [h]
      rw [que, hpc] at this; simp [inq] at this
    · simp only [upd_ne _ _ hvt]
      by_cases hvp : v = p
      · subst hvp; simp [granted, hpq']
      · have := que v
        rw [hq] at this
        simp only [granted, hlk, List.mem_cons, hvp, false_or] at this ⊢
        rw [this]
        by_cases hv0 : v = 0
        · subst hv0; rw [zero.1]; simp [inq]
        · have a : ¬ p = v := fun h => hvp h.symm
          have b : ¬ 0 = v := fun h => hv0 h.symm
          simp [a, b]
  · exact nodup
  · intro u x hu
    by_cases hut : u = t
    · subst hut; simp only [upd_same] at hu; cases hu; exact ⟨rfl, hp0⟩
    · simp only [upd_ne _ _ hut] at hu; exact absurd hu (hnu u x)
  · intro u v x y hu hv
    by_cases hut : u = t
    · by_cases hvt : v = t
      · rw [hut, hvt]
      · simp only [upd_ne _ _ hvt] at hv; exact absurd hv (hnu v y)
    · simp only [upd_ne _ _ hut] at hu; exact absurd hu (hnu u x)
  · intro _
    refine ⟨?_, ?_⟩
    · show waits (upd s.pc t (.u2s p) p); rw [upd_ne _ _ hpt]; exact hpw
    · show s.sig p = false
      cases h : s.sig p with
      | false => rfl
      | true => exact absurd (.inl h) hp2
  · intro v
    by_cases hvt : v = t
    · subst hvt; simpa only [upd_same, depP] using htd
    · simp only [upd_ne _ _ hvt]
      by_cases hv0 : v = 0
      · subst hv0; rw [zero.1, zero.2]; simp [depP]
      · exact (dep v).other (hno v hv0 hvt) 1
  · intro h; exact absurd h hp0
  · intro v hv
    by_cases hvt : v = t
    · exact ev t (.inl (by rw [hpc]; simp [later]))
    · simp only [upd_ne _ _ hvt] at hv; exact ev v hv

/-- syncPt.h:373: the signal. -/
theorem Inv.signal {s t p} (i : Inv s) (ht : t ≠ 0) (hpc : s.pc t = .u2s p) :
    Inv { s with sig := upd s.sig p true, qlk := 0, pc := upd s.pc t .idle } := by
  obtain ⟨ctl, zero, que, nodup, sl, uniq, pend, dep, free, ev⟩ := i
  obtain ⟨hlk, hp0⟩ := sl t p hpc
  have hnu : ∀ u x, u ≠ t → s.pc u ≠ .u2s x := fun u x hu h => hu (uniq u t x p h hpc)
  have hg : ∀ v, v ≠ 0 → ((upd s.sig p true v = true ∨ 0 = v) ↔ granted s v) := by
    intro v hv
    unfold granted
    by_cases hvp : v = p
    · subst hvp; simp [upd_same, hlk]
    · have a : ¬ p = v := fun h => hvp h.symm
      have b : ¬ 0 = v := fun h => hv h.symm
      simp [upd_ne _ _ hvp, hlk, a, b]
  have htd : s.depth t = 0 := by have := dep t; rw [hpc] at this; exact this
  constructor
  · intro v hv
    by_cases hvt : v = t
    · subst hvt
      have := ctl v hv
      rw [hpc] at this
      simp only [upd_same, ctlP, htd, ne_eq, not_true] at this ⊢
      exact this
    · simp only [upd_ne _ _ hvt, granted]; rw [hg v hv]; exact ctl v hv
  · exact ⟨(upd_ne _ _ (Ne.symm ht)).trans zero.1, zero.2⟩
  · intro v
    by_cases hvt : v = t
    · subst hvt; rw [que v, hpc]; simp [upd_same, inq]
    · simp only [upd_ne _ _ hvt]
      by_cases hv0 : v = 0
      · subst hv0; rw [que 0, zero.1]; simp [inq]
      · simp only [granted]; rw [hg v hv0]; exact que v
  · exact nodup
  · intro u x hu
    by_cases hut : u = t
    · subst hut; simp only [upd_same] at hu; cases hu
    · simp only [upd_ne _ _ hut] at hu; exact absurd hu (hnu u x hut)
  · intro u v x y hu hv
    by_cases hut : u = t
    · subst hut; simp only [upd_same] at hu; cases hu
    · simp only [upd_ne _ _ hut] at hu; exact absurd hu (hnu u x hut)
  · intro h; exact absurd rfl h
  · intro v
    by_cases hvt : v = t
    · subst hvt; simp only [upd_same, depP, htd]; simp
    · simp only [upd_ne _ _ hvt]; exact dep v
  · exact free
  · intro v hv
    by_cases hvt : v = t
    · exact ev t (.inl (by rw [hpc]; simp [later]))
    · simp only [upd_ne _ _ hvt] at hv; exact ev v hv

theorem Inv.step {s s' t op} (i : Inv s) (ht : t ≠ 0) (hp : Warm s op)
    (h : step s t op = some s') : Inv s' := by
  have ct := i.ctl t ht
  have dt := i.dep t
  have et := i.ev t
  unfold Mutex.step at h
  cases hpc : s.pc t with
  | idle =>
    rw [hpc] at h ct dt et
    cases op with
    | lock => cases h; exact i.goto ht _ (by simp [hpc, ctlP]) (by simp [hpc, inq]) (by simp)
                (by simp [hpc, waits]) dt (by simp [later])
    | lockTimed => cases h; exact i.goto ht _ (by simp [hpc, ctlP]) (by simp [hpc, inq]) (by simp)
                    (by simp [hpc, waits]) dt (by simp [later])
    | tryLock => cases h; exact i.goto ht _ (by simp [hpc, ctlP]) (by simp [hpc, inq]) (by simp)
                    (by simp [hpc, waits]) dt (fun _ => hp rfl)
    | unlock =>
      dsimp only at h
      split at h
      · cases h
      · rename_i hd
        cases h
        have hown : s.owner = t := ct.1 hd
        have hr : s.recursion = s.depth t := dt hd
        exact i.local ht s.owner s.recursion s.ever _ .u0 (by simp [ctlP, hown])
          (fun _ _ _ => Iff.rfl) (by simp [hpc, inq]) (by simp) (by simp [hpc, waits])
          (by simp only [depP]; omega) (.inl rfl) i.free id (fun _ => et (.inr hd))
    | expire => cases h
  | l0 tm =>
    rw [hpc] at h ct dt et
    dsimp only at h
    split at h
    · rename_i ho
      cases h
      have hd : s.depth t = 0 := by
        simp only [ctlP, ho] at ct
        exact Classical.byContradiction fun hh => ht (ct.1 hh).symm
      exact i.local' ht t .l9 (by simp [ctlP]) (by intro v h1 h2; rw [ho]; omega)
        (by simp [hpc, inq]) (by simp) (by simp [hpc, waits]) hd (fun h => absurd h ht)
        (by simp [later])
    · split at h
      · rename_i ho
        cases h
        have hd : s.depth t ≠ 0 := ct.2 ho
        exact i.goto ht _ (by simp [hpc, ctlP, hd]) (by simp [hpc, inq]) (by simp)
          (by simp [hpc, waits]) ⟨hd, dt hd⟩ (by simp [later])
      · rename_i ho
        cases h
        have hd : s.depth t = 0 := Classical.byContradiction fun hh => ho (ct.1 hh)
        exact i.goto ht _ (by simp [hpc, ctlP, hd]) (by simp [hpc, inq]) (by simp)
          (by simp [hpc, waits]) hd (by simp [later])
  | l1 =>
    rw [hpc] at h ct dt et
    cases h
    have ho : s.owner = t := ct.1 trivial
    exact i.local ht s.owner _ s.ever _ .idle (by simp [ctlP, ho]) (fun _ _ _ => Iff.rfl)
      (by simp [hpc, inq]) (by simp) (by simp [hpc, waits]) (by simp [depP, dt.2])
      (.inr (.inr ho)) (fun h => absurd (ho ▸ h) ht) id (fun _ => et (.inr dt.1))
  | l2 tm =>
    rw [hpc] at h
    dsimp only at h
    split at h
    · rename_i hlk; cases h; exact i.enter ht hlk hpc
    · cases h
  | l3 tm =>
    rw [hpc] at h ct dt et
    dsimp only at h
    split at h
    · rename_i ho
      cases h
      have hg : ¬ granted s t := fun hh => ht ((ct.1 hh).symm.trans ho)
      exact i.local' ht t .l4 (by simp [ctlP]) (by intro v h1 h2; rw [ho]; omega)
        (by simp [hpc, inq]) (by simp) (fun _ h => absurd h hg) dt (fun h => absurd h ht)
        (by simp [later])
    · cases h
      exact i.goto ht _ (by simp [hpc, ctlP]) (by simp [hpc, inq]) (by simp)
          (by simp [waits]) dt (by simp [later])
  | l4 =>
    rw [hpc] at h ct dt et
    dsimp only at h
    split at h
    · rename_i hlk
      cases h
      exact i.remove ht hlk _ (by simp [hpc, ctlP]) (by simp [inq]) (by simp) dt (by simp [later])
    · cases h
  | l5 tm =>
    rw [hpc] at h ct dt et
    dsimp only at h
    split at h
    · rename_i hs
      cases h
      have hg : granted s t := .inl hs
      refine i.goto ht _ (by simp [hpc, ctlP, hg]) (by simp [hpc, inq, hg]) (by simp)
          (fun _ _ => .inr ?_) dt (by simp [later])
      intro hq
      have := (i.pend (by rw [hq]; exact ht)).2
      rw [hq, hs] at this; cases this
    · split at h
      · cases h
        exact i.goto ht _ (by simp [hpc, ctlP]) (by simp [hpc, inq]) (by simp)
          (by simp [waits]) dt (by simp [later])
      · cases h
  | l6 =>
    rw [hpc] at h ct dt et
    dsimp only at h
    split at h
    · rename_i hlk
      cases h
      exact i.remove ht hlk _ (by simp [hpc, ctlP]) (by simp [inq]) (by simp) dt (by simp [later])
    · cases h
  | l7 =>
    rw [hpc] at h ct dt et
    have dt : s.depth t = 0 := dt
    dsimp only at h
    split at h
    · rename_i hs
      cases h
      have hg : granted s t := .inl hs
      exact i.goto ht _ (by simp [hpc, ctlP, hg]) (by simp [hpc, inq]) (by simp)
          (by simp [hpc, waits]) dt (by simp [later])
    · rename_i hs
      cases h
      have hg : ¬ granted s t := by
        rintro (hh | hh)
        · exact hs hh
        · have := (i.pend (by rw [hh]; exact ht)).1
          rw [hh, hpc] at this; exact this
      exact i.goto ht _ (by simp [hpc, ctlP, hg, dt]) (by simp [hpc, inq]) (by simp)
          (by simp [hpc, waits]) (by simp [depP, dt]) (by simp [later])
  | l9 =>
    rw [hpc] at h ct dt et
    have dt : s.depth t = 0 := dt
    cases h
    have ho : s.owner = t := ct.1 trivial
    exact i.local ht s.owner 1 true _ .idle (by simp [ctlP, ho]) (fun _ _ _ => Iff.rfl)
      (by simp [hpc, inq]) (by simp) (by simp [hpc, waits]) (by simp [depP, dt])
      (.inr (.inr ho)) (fun _ _ => rfl) (fun _ => rfl) (fun _ => rfl)
  | t0 =>
    rw [hpc] at h ct dt et
    have he : s.ever = true := et (.inl trivial)
    dsimp only at h
    split at h
    · rename_i ho
      cases h
      have hd : s.depth t = 0 := by
        simp only [ctlP, ho] at ct
        exact Classical.byContradiction fun hh => ht (ct.1 hh).symm
      exact i.local ht t s.recursion s.ever _ .idle (by simp [ctlP])
        (by intro v h1 h2; rw [ho]; omega) (by simp [hpc, inq]) (by simp) (by simp [hpc, waits])
        (by simp [depP, hd, i.free ho he]) (.inl rfl) (fun h => absurd h ht) id (fun _ => he)
    · cases h
      exact i.goto ht _ (by simp [hpc, ctlP]) (by simp [hpc, inq]) (by simp)
          (by simp [hpc, waits]) dt (by simp [later])
  | u0 =>
    rw [hpc] at h ct dt et
    have dt : s.recursion = s.depth t + 1 := dt
    have he : s.ever = true := et (.inl trivial)
    dsimp only at h
    split at h
    · cases h
      exact i.goto ht _ (by simp [hpc, ctlP]) (by simp [hpc, inq]) (by simp)
          (by simp [hpc, waits]) ⟨by omega, dt⟩ (fun _ => he)
    · cases h
      exact i.goto ht _ (by simp [hpc, ctlP]) (by simp [hpc, inq]) (by simp)
          (by simp [hpc, waits]) ⟨by omega, by omega⟩ (fun _ => he)
  | u1 =>
    rw [hpc] at h ct dt et
    obtain ⟨d1, d2⟩ := dt
    have he : s.ever = true := et (.inl trivial)
    cases h
    have ho : s.owner = t := ct.1 trivial
    have := i.local ht s.owner (s.recursion - 1) s.ever (s.depth t) .idle
      (by simp [ctlP, ho, d1]) (fun _ _ _ => Iff.rfl)
      (by simp [hpc, inq]) (by simp) (by simp [hpc, waits]) (by simp [depP]; omega)
      (.inr (.inr ho)) (fun h => absurd (ho ▸ h) ht) id (fun _ => he)
    rwa [upd_self] at this
  | u2 =>
    rw [hpc] at h ct dt et
    have he : s.ever = true := et (.inl trivial)
    dsimp only at h
    split at h
    · rename_i hlk
      split at h
      · cases h
        exact i.goto ht _ (by simp [hpc, ctlP]) (by simp [hpc, inq]) (by simp)
          (by simp [hpc, waits]) dt (fun _ => he)
      · rename_i p q hq
        cases h
        exact i.hand ht hlk hpc hq
    · cases h
  | u2s p =>
    rw [hpc] at h
    cases h
    exact i.signal ht hpc
  | u3 =>
    rw [hpc] at h ct dt et
    have he : s.ever = true := et (.inl trivial)
    have ho : s.owner = t := ct.1 trivial
    cases h
    exact i.local' ht 0 .u4 (by simp [ctlP, ht.symm]) (by intro v h1 h2; rw [ho]; omega)
        (by simp [hpc, inq]) (by simp) (by simp [hpc, waits]) dt.1 (fun _ _ => dt.2)
        (fun _ => he)
  | u4 =>
    rw [hpc] at h ct dt et
    have dt : s.depth t = 0 := dt
    have he : s.ever = true := et (.inl trivial)
    dsimp only at h
    split at h
    · cases h
      exact i.goto ht _ (by simp [hpc, ctlP, dt]) (by simp [hpc, inq]) (by simp)
          (by simp [hpc, waits]) (by simp [depP, dt]) (fun _ => he)
    · cases h
      exact i.goto ht _ (by simp [hpc, ctlP]) (by simp [hpc, inq]) (by simp)
          (by simp [hpc, waits]) dt (fun _ => he)
  | u5 =>
    rw [hpc] at h ct dt et
    have dt : s.depth t = 0 := dt
    have he : s.ever = true := et (.inl trivial)
    dsimp only at h
    split at h
    · rename_i ho
      cases h
      exact i.local' ht t .u0 (by simp [ctlP]) (by intro v h1 h2; rw [ho]; omega)
        (by simp [hpc, inq]) (by simp) (by simp [hpc, waits])
        (by simp [depP, dt, i.free ho he]) (fun h => absurd h ht) (fun _ => he)
    · cases h
      exact i.goto ht _ (by simp [hpc, ctlP, dt]) (by simp [hpc, inq]) (by simp)
          (by simp [hpc, waits]) (by simp [depP, dt]) (fun _ => he)

theorem Reach.inv {s} (h : Reach Warm s) : Inv s := by
  induction h with
  | init => exact Inv.init
  | step _ ht hp hs ih => exact ih.step ht hp hs

/-! ## C35 -/

/-- C35, for programs which use `tryLock` only after a first successful `lock`: a thread whose
successful acquisitions outnumber its unlocks owns the mutex, so there is at most one such
thread. Missing: `tryLock` on a mutex that was never locked (see `c35_violated`). -/
theorem c35_exclusive_partial {s} (h : Reach Warm s) {t u : Nat} (ht : s.depth t ≠ 0)
    (hu : s.depth u ≠ 0) : t = u ∧ s.owner = t := by
  have i := h.inv
  have own : ∀ v, s.depth v ≠ 0 → s.owner = v := by
    intro v hv
    have hv0 : v ≠ 0 := by intro hh; rw [hh, i.zero.2] at hv; exact hv rfl
    refine (i.ctl v hv0).1 ?_
    have := i.dep v
    cases hh : s.pc v <;> rw [hh] at this <;> simp_all [ctlP, depP]
  exact ⟨(own t ht).symm.trans (own u hu), own t ht⟩

/-- C35: `getTurns()` (mutex.h:75) tells an owner the number of its acquisitions. -/
theorem c35_turns_partial {s} (h : Reach Warm s) {t : Nat} (ht : s.depth t ≠ 0)
    (hi : s.pc t = .idle) : s.recursion = s.depth t := by
  have := h.inv.dep t
  rw [hi] at this
  exact this ht

theorem exec_reach : ∀ (l : List (Nat × Op)) {s s'}, (∀ x ∈ l, x.1 ≠ 0) →
    Reach (fun _ _ => True) s → exec s l = some s' → Reach (fun _ _ => True) s' := by
  intro l
  induction l with
  | nil => intro s s' _ h he; cases he; exact h
  | cons x l ih =>
    intro s s' hx h he
    obtain ⟨t, op⟩ := x
    unfold exec at he
    cases hs : Mutex.step s t op with
    | none => rw [hs] at he; cases he
    | some s1 =>
      rw [hs] at he
      exact ih (fun x h => hx x (by simp [h])) (.step h (hx (t, op) (by simp)) trivial hs) he

/-- Thread 1: `tryLock`, `lock`, `unlock`; thread 2: `lock`. -/
def twice : List (Nat × Op) :=
  [(1, .tryLock), (1, .lock), (1, .lock), (1, .lock), (1, .lock), (1, .unlock), (1, .lock),
   (1, .lock), (1, .lock), (1, .lock), (2, .lock), (2, .lock), (2, .lock)]

/-- C35 (violated): `tryLock` does not set `recursion`.  On a new mutex thread 1 acquires it twice
and unlocks it once; the mutex is free then, and thread 2 gets it although thread 1 still holds. -/
theorem c35_violated : ∃ s, Reach (fun _ _ => True) s ∧ s.depth 1 = 1 ∧ s.depth 2 = 1 ∧
    s.pc 1 = .idle ∧ s.pc 2 = .idle := by
  cases h : exec {} twice with
  | none => exact absurd h (by decide)
  | some s =>
    refine ⟨s, exec_reach twice (by decide) .init h, ?_⟩
    have e : (exec {} twice).map (fun s => (s.depth 1, s.depth 2, s.pc 1, s.pc 2)) =
        some (1, 1, .idle, .idle) := by decide
    rw [h] at e
    simpa using e

/-! ## No waiting thread is forgotten -/

/-- Waiting in the queue, after the second attempt to take the mutex. -/
def parked (s : St) (t : Nat) : Prop := t ∈ s.queue ∧ (s.pc t = .l6 ∨ ∃ tm, s.pc t = .l5 tm)

structure Live (s : St) : Prop where
  lost : s.owner = 0 → (∃ t, parked s t) → ∃ u, s.pc u = .u4 ∨ s.pc u = .u5
  lk : s.qlk ≠ 0 → ∃ w, s.pc w = .u2s s.qlk

theorem Live.keep {s s' : St} {t p} (l : Live s) (hpc : s'.pc = upd s.pc t p)
    (ho : s'.owner = 0 → s.owner = 0) (hk : s'.qlk = s.qlk) (h1 : ∀ x, s.pc t ≠ .u2s x)
    (h2 : s'.owner = 0 → s.pc t ≠ .u4 ∧ s.pc t ≠ .u5)
    (hq : ∀ v ∈ s'.queue, v ≠ t → v ∈ s.queue)
    (hp : s'.owner = 0 → (p = .l6 ∨ ∃ tm, p = .l5 tm) → parked s t) : Live s' := by
  constructor
  · rintro h0 ⟨v, hv, hv'⟩
    have : ∃ v, parked s v := by
      by_cases hvt : v = t
      · subst hvt
        rw [hpc, upd_same] at hv'
        exact ⟨v, hp h0 hv'⟩
      · rw [hpc, upd_ne _ _ hvt] at hv'
        exact ⟨v, hq v hv hvt, hv'⟩
    obtain ⟨u, hu⟩ := l.lost (ho h0) this
    have hut : u ≠ t := by
      intro hh; rw [hh] at hu
      exact hu.elim (h2 h0).1 (h2 h0).2
    exact ⟨u, by rw [hpc, upd_ne _ _ hut]; exact hu⟩
  · intro h
    rw [hk] at h ⊢
    obtain ⟨w, hw⟩ := l.lk h
    refine ⟨w, ?_⟩
    rw [hpc, upd_ne _ _ ?_]
    · exact hw
    · intro hh; rw [hh] at hw; exact h1 _ hw

theorem Live.step {s s' t op} (i : Inv s) (l : Live s) (ht : t ≠ 0)
    (h : step s t op = some s') : Live s' := by
  unfold Mutex.step at h
  cases hpc : s.pc t with
  | idle =>
    rw [hpc] at h
    cases op with
    | lock => cases h; exact l.keep (t := t) rfl id rfl (by simp [hpc]) (by simp [hpc]) (fun _ h _ => h) (by simp)
    | lockTimed => cases h; exact l.keep (t := t) rfl id rfl (by simp [hpc]) (by simp [hpc]) (fun _ h _ => h) (by simp)
    | tryLock => cases h; exact l.keep (t := t) rfl id rfl (by simp [hpc]) (by simp [hpc]) (fun _ h _ => h) (by simp)
    | unlock =>
      dsimp only at h
      split at h
      · cases h
      · cases h; exact l.keep (t := t) rfl id rfl (by simp [hpc]) (by simp [hpc]) (fun _ h _ => h) (by simp)
    | expire => cases h
  | l0 tm =>
    rw [hpc] at h
    dsimp only at h
    split at h
    · cases h; exact l.keep (t := t) rfl (fun h => absurd h ht) rfl (by simp [hpc]) (by simp [hpc]) (fun _ h _ => h) (by simp)
    · split at h <;>
        (cases h; exact l.keep (t := t) rfl id rfl (by simp [hpc]) (by simp [hpc]) (fun _ h _ => h) (by simp))
  | l1 => rw [hpc] at h; cases h; exact l.keep (t := t) rfl id rfl (by simp [hpc]) (by simp [hpc]) (fun _ h _ => h) (by simp)
  | l2 tm =>
    rw [hpc] at h
    dsimp only at h
    split at h
    · cases h
      exact l.keep (t := t) rfl id rfl (by simp [hpc]) (by simp [hpc])
        (fun v h hv => by simp at h; exact h.resolve_right hv) (by simp)
    · cases h
  | l3 tm =>
    rw [hpc] at h
    dsimp only at h
    split at h
    · cases h; exact l.keep (t := t) rfl (fun h => absurd h ht) rfl (by simp [hpc]) (by simp [hpc]) (fun _ h _ => h) (by simp)
    · rename_i ho
      cases h; exact l.keep (t := t) rfl id rfl (by simp [hpc]) (by simp [hpc]) (fun _ h _ => h) (fun h => absurd h ho)
  | l4 =>
    rw [hpc] at h
    dsimp only at h
    split at h
    · cases h
      exact l.keep (t := t) rfl id rfl (by simp [hpc]) (by simp [hpc])
        (fun v h hv => List.mem_of_mem_erase h) (by simp)
    · cases h
  | l5 tm =>
    rw [hpc] at h
    dsimp only at h
    split at h
    · cases h; exact l.keep (t := t) rfl id rfl (by simp [hpc]) (by simp [hpc]) (fun _ h _ => h) (by simp)
    · rename_i hs
      split at h
      · cases h
        refine l.keep (t := t) rfl id rfl (by simp [hpc]) (by simp [hpc]) (fun _ h _ => h)
          (fun h _ => ⟨?_, .inr ⟨tm, hpc⟩⟩)
        have h : s.owner = 0 := h
        rw [i.que, hpc]
        refine ⟨trivial, fun hg => ht ?_⟩
        have := (i.ctl t ht).1 (by rw [hpc]; exact hg)
        exact this.symm.trans h
      · cases h
  | l6 =>
    rw [hpc] at h
    dsimp only at h
    split at h
    · cases h
      exact l.keep (t := t) rfl id rfl (by simp [hpc]) (by simp [hpc])
        (fun v h hv => List.mem_of_mem_erase h) (by simp)
    · cases h
  | l7 =>
    rw [hpc] at h
    dsimp only at h
    split at h <;>
      (cases h; exact l.keep (t := t) rfl id rfl (by simp [hpc]) (by simp [hpc]) (fun _ h _ => h) (by simp))
  | l9 => rw [hpc] at h; cases h; exact l.keep (t := t) rfl id rfl (by simp [hpc]) (by simp [hpc]) (fun _ h _ => h) (by simp)
  | t0 =>
    rw [hpc] at h
    dsimp only at h
    split at h
    · cases h; exact l.keep (t := t) rfl (fun h => absurd h ht) rfl (by simp [hpc]) (by simp [hpc]) (fun _ h _ => h) (by simp)
    · cases h; exact l.keep (t := t) rfl id rfl (by simp [hpc]) (by simp [hpc]) (fun _ h _ => h) (by simp)
  | u0 =>
    rw [hpc] at h
    dsimp only at h
    split at h <;>
      (cases h; exact l.keep (t := t) rfl id rfl (by simp [hpc]) (by simp [hpc]) (fun _ h _ => h) (by simp))
  | u1 => rw [hpc] at h; cases h; exact l.keep (t := t) rfl id rfl (by simp [hpc]) (by simp [hpc]) (fun _ h _ => h) (by simp)
  | u2 =>
    rw [hpc] at h
    dsimp only at h
    split at h
    · split at h
      · cases h; exact l.keep (t := t) rfl id rfl (by simp [hpc]) (by simp [hpc]) (fun _ h _ => h) (by simp)
      · rename_i p q hq
        cases h
        have hp0 : p ≠ 0 := by
          intro hh
          have := (i.que p).1 (by rw [hq]; simp)
          rw [hh, i.zero.1] at this
          exact this.1
        exact ⟨fun h => absurd h hp0, fun _ => ⟨t, upd_same _ _ _⟩⟩
    · cases h
  | u2s p =>
    rw [hpc] at h
    cases h
    refine ⟨?_, fun h => absurd rfl h⟩
    rintro h0 ⟨v, hv, hv'⟩
    have hv' : upd s.pc t .idle v = .l6 ∨ ∃ tm, upd s.pc t .idle v = .l5 tm := hv'
    have hvt : v ≠ t := by
      intro hh; subst hh; rw [upd_same] at hv'; simp at hv'
    rw [upd_ne _ _ hvt] at hv'
    obtain ⟨u, hu⟩ := l.lost h0 ⟨v, hv, hv'⟩
    refine ⟨u, ?_⟩
    show upd s.pc t .idle u = _ ∨ upd s.pc t .idle u = _
    rw [upd_ne _ _ (fun hh => by rw [hh, hpc] at hu; simp at hu)]
    exact hu
  | u3 =>
    rw [hpc] at h
    cases h
    refine ⟨fun _ _ => ⟨t, .inl (upd_same _ _ _)⟩, fun h => ?_⟩
    obtain ⟨w, hw⟩ := l.lk h
    refine ⟨w, (upd_ne _ _ (fun hh => ?_)).trans hw⟩
    rw [hh, hpc] at hw; cases hw
  | u4 =>
    rw [hpc] at h
    have hlk : ∀ p, s.qlk ≠ 0 → ∃ w, upd s.pc t p w = .u2s s.qlk := by
      intro p h
      obtain ⟨w, hw⟩ := l.lk h
      refine ⟨w, (upd_ne _ _ (fun hh => ?_)).trans hw⟩
      rw [hh, hpc] at hw; cases hw
    dsimp only at h
    split at h
    · rename_i hq
      cases h
      refine ⟨?_, hlk _⟩
      rintro _ ⟨v, hv, -⟩
      have hv : v ∈ s.queue := hv
      rw [hq] at hv; simp at hv
    · cases h
      exact ⟨fun _ _ => ⟨t, .inr (upd_same _ _ _)⟩, hlk _⟩
  | u5 =>
    rw [hpc] at h
    have hlk : ∀ p, s.qlk ≠ 0 → ∃ w, upd s.pc t p w = .u2s s.qlk := by
      intro p h
      obtain ⟨w, hw⟩ := l.lk h
      refine ⟨w, (upd_ne _ _ (fun hh => ?_)).trans hw⟩
      rw [hh, hpc] at hw; cases hw
    dsimp only at h
    split at h
    · cases h
      exact ⟨fun h => absurd h ht, hlk _⟩
    · rename_i ho
      cases h
      exact ⟨fun h => absurd h ho, hlk _⟩

theorem Reach.live {s} (h : Reach Warm s) : Live s := by
  induction h with
  | init => exact ⟨by rintro _ ⟨t, h, -⟩; simp at h, by simp⟩
  | step h ht hp hs ih => exact ih.step h.inv ht hs

/-- A thread can go on by itself: it is inside of a call and is able to make a transition other
than giving up by time-out. -/
def CanGo (s : St) (u : Nat) : Prop := s.pc u ≠ .idle ∧ ∃ s', step s u .lock = some s'

/-- C35: the mutex never gets stuck: while a thread waits, either some thread holds the mutex
(and is outside of its calls), or some thread inside of a call can go on. -/
theorem c35_not_stuck_partial {s} (h : Reach Warm s) {t tm} (ht : s.pc t = .l5 tm) :
    ∃ u, (s.pc u = .idle ∧ s.depth u ≠ 0) ∨ CanGo s u := by
  have i := h.inv
  have l := h.live
  by_cases hlk : s.qlk = 0
  case neg =>
    obtain ⟨w, hw⟩ := l.lk hlk
    exact ⟨w, .inr ⟨by simp [hw], by unfold Mutex.step; rw [hw]; exact ⟨_, rfl⟩⟩⟩
  have ht0 : t ≠ 0 := by intro hh; rw [hh, i.zero.1] at ht; cases ht
  by_cases ho : s.owner = 0
  · have hp : parked s t := by
      refine ⟨?_, .inr ⟨tm, ht⟩⟩
      rw [i.que, ht]
      refine ⟨trivial, fun hg => ht0 ?_⟩
      exact ((i.ctl t ht0).1 (by rw [ht]; exact hg)).symm.trans ho
    obtain ⟨u, hu | hu⟩ := l.lost ho ⟨t, hp⟩
    · refine ⟨u, .inr ⟨by simp [hu], ?_⟩⟩
      unfold Mutex.step; rw [hu]; dsimp only
      split <;> exact ⟨_, rfl⟩
    · refine ⟨u, .inr ⟨by simp [hu], ?_⟩⟩
      unfold Mutex.step; rw [hu]; dsimp only
      rw [if_pos ho]; exact ⟨_, rfl⟩
  · refine ⟨s.owner, ?_⟩
    have hc := (i.ctl s.owner ho).2 rfl
    have hg : granted s s.owner → s.sig s.owner = true :=
      fun h => h.resolve_right (fun h => ho (h.symm.trans hlk))
    cases hp : s.pc s.owner <;> rw [hp] at hc
    case idle => exact .inl ⟨rfl, hc⟩
    all_goals
      right
      refine ⟨by simp [hp], ?_⟩
      unfold Mutex.step
      simp only [hp, hlk, if_true]
    case u2 => cases s.queue <;> exact ⟨_, rfl⟩
    case u2s => exact absurd hc id
    case u4 => exact absurd hc id
    case u5 => exact absurd hc id
    case l2 => exact absurd hc id
    case l3 => rw [if_neg ho]; exact ⟨_, rfl⟩
    case l5 => rw [if_pos (hg hc)]; exact ⟨_, rfl⟩
    case l7 => rw [if_pos (hg hc)]; exact ⟨_, rfl⟩
    case l0 => rw [if_neg ho]; exact ⟨_, rfl⟩
    case t0 => rw [if_neg ho]; exact ⟨_, rfl⟩
    case u0 => split <;> exact ⟨_, rfl⟩
    all_goals exact ⟨_, rfl⟩

/-- The queue is ordered by the time of the registration. -/
structure Ordered (s : St) : Prop where
  sorted : s.queue.Pairwise (fun a b => s.stamp a < s.stamp b)
  old : ∀ v ∈ s.queue, s.stamp v < s.clock

theorem Ordered.sub {s s' : St} (o : Ordered s) (h : s'.queue.Sublist s.queue)
    (h1 : s'.stamp = s.stamp) (h2 : s'.clock = s.clock) : Ordered s' :=
  ⟨by rw [h1]; exact o.sorted.sublist h, fun v hv => by rw [h1, h2]; exact o.old v (h.subset hv)⟩

theorem Ordered.step {s s' t op} (i : Inv s) (o : Ordered s)
    (h : step s t op = some s') : Ordered s' := by
  unfold Mutex.step at h
  cases hpc : s.pc t with
  | l2 tm =>
    rw [hpc] at h
    dsimp only at h
    split at h
    · cases h
      have htq : t ∉ s.queue := by rw [i.que, hpc]; simp [inq]
      have hst : ∀ v ∈ s.queue, upd s.stamp t s.clock v = s.stamp v :=
        fun v hv => upd_ne _ _ (fun hh => htq (hh ▸ hv))
      constructor
      · show (s.queue ++ [t]).Pairwise
          (fun a b => upd s.stamp t s.clock a < upd s.stamp t s.clock b)
        rw [List.pairwise_append]
        refine ⟨?_, by simp, fun a ha b hb => ?_⟩
        · refine List.Pairwise.imp_of_mem (fun {a b} ha hb h => ?_) o.sorted
          rw [hst a ha, hst b hb]; exact h
        · simp at hb; subst hb
          rw [hst a ha, upd_same]; exact o.old a ha
      · intro v hv
        have hv : v ∈ s.queue ++ [t] := hv
        show upd s.stamp t s.clock v < s.clock + 1
        simp at hv
        rcases hv with hv | rfl
        · rw [hst v hv]; have := o.old v hv; omega
        · rw [upd_same]; omega
    · cases h
  | idle =>
    rw [hpc] at h
    cases op <;> dsimp only at h <;> (try split at h) <;> cases h <;>
      exact o.sub (List.Sublist.refl _) rfl rfl
  | l0 _ =>
    rw [hpc] at h; dsimp only at h
    split at h
    · cases h; exact o.sub (List.Sublist.refl _) rfl rfl
    · split at h <;> cases h <;> exact o.sub (List.Sublist.refl _) rfl rfl
  | l4 =>
    rw [hpc] at h; dsimp only at h
    split at h <;> cases h; exact o.sub List.erase_sublist rfl rfl
  | l6 =>
    rw [hpc] at h; dsimp only at h
    split at h <;> cases h; exact o.sub List.erase_sublist rfl rfl
  | l5 _ =>
    rw [hpc] at h; dsimp only at h
    split at h
    · cases h; exact o.sub (List.Sublist.refl _) rfl rfl
    · split at h <;> cases h; exact o.sub (List.Sublist.refl _) rfl rfl
  | u2 =>
    rw [hpc] at h; dsimp only at h
    split at h
    · split at h
      · cases h; exact o.sub (List.Sublist.refl _) rfl rfl
      · rename_i p q hq
        cases h
        exact o.sub (by rw [hq]; exact List.sublist_cons_self _ _) rfl rfl
    · cases h
  | _ =>
    rw [hpc] at h; dsimp only at h
    (try split at h) <;> cases h <;> exact o.sub (List.Sublist.refl _) rfl rfl

theorem Reach.ordered {s} (h : Reach Warm s) : Ordered s := by
  induction h with
  | init => exact ⟨by simp, by simp⟩
  | step h ht hp hs ih => exact ih.step h.inv hs

/-- C35: `unlock` with threads in the queue hands the mutex over to the one that waits longest. -/
theorem c35_fifo_partial {s s' t} (h : Reach Warm s) (ht : s.pc t = .u2) (hq : s.queue ≠ [])
    (hs : step s t .lock = some s') :
    ∃ p ∈ s.queue, s'.owner = p ∧ (∀ v ∈ s.queue, v = p ∨ s.stamp p < s.stamp v) ∧
      (∃ tm, s.pc p = .l3 tm ∨ s.pc p = .l5 tm ∨ s.pc p = .l6) := by
  have i := h.inv
  obtain ⟨p, q, hq⟩ : ∃ p q, s.queue = p :: q := by
    cases hh : s.queue with
    | nil => exact absurd hh hq
    | cons p q => exact ⟨p, q, rfl⟩
  have ht0 : t ≠ 0 := by intro hh; rw [hh, i.zero.1] at ht; cases ht
  have hown : s.owner = t := (i.ctl t ht0).1 (by rw [ht]; trivial)
  obtain ⟨hp1, hp2⟩ := (i.que p).1 (by rw [hq]; simp)
  have hp0 : p ≠ 0 := by intro h; rw [h, i.zero.1] at hp1; simp [inq] at hp1
  have hpt : p ≠ t := by intro h; rw [h, ht] at hp1; simp [inq] at hp1
  have hw := waits_of hp1 (d := s.depth p) (g := granted s p)
    (by rw [i.ctl p hp0, hown]; exact fun h => hpt h.symm)
  have hso := h.ordered.sorted
  unfold Mutex.step at hs
  rw [ht] at hs
  dsimp only at hs
  split at hs
  · rw [hq] at hs hso; cases hs
    refine ⟨p, by rw [hq]; simp, rfl, ?_, ?_⟩
    · intro v hv
      rw [hq] at hv
      simp at hv
      rcases hv with hv | hv
      · exact .inl hv
      · exact .inr ((List.pairwise_cons.1 hso).1 v hv)
    · cases hh : s.pc p <;> rw [hh] at hw <;> simp_all [waits]
  · cases hs

/-- Threads 2 and 3 wait for thread 1, which has the mutex twice and unlocks it twice. -/
def handover : List (Nat × Op) :=
  [(1, .lock), (1, .lock), (1, .lock), (2, .lock), (2, .lock), (2, .lock), (2, .lock),
   (3, .lockTimed), (3, .lock), (3, .lock), (3, .lock), (1, .lock), (1, .lock), (1, .lock),
   (1, .unlock), (1, .lock), (1, .lock), (3, .expire), (1, .unlock), (1, .lock), (1, .lock),
   (1, .lock), (2, .lock), (2, .lock), (3, .lock), (3, .lock)]

example : (exec {} handover).map (fun s => (s.owner, s.depth 1, s.depth 2, s.depth 3, s.queue)) =
    some (2, 0, 1, 0, []) := by decide

example : (exec {} (handover.take 16)).map (fun s => (s.owner, s.depth 1, s.recursion, s.queue)) =
    some (1, 1, 2, [2, 3]) := by decide

end LS.Mutex

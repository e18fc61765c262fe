/-
C152: locks held by scopes. Model: `Verif/Scopes.lean`.
-/
import Verif.Scopes

namespace LS.Scopes

/-- Lock objects without `TrySynchronized`, and `SyncReleased` only where the lock is held; `d` is how many times it is held. -/
def Fine : Prog → Nat → Prop
  | .act, _ => True
  | .throw, _ => True
  | .seq p q, d => Fine p d ∧ Fine q d
  | .catch p, d => Fine p d
  | .sync p, d => Fine p (d + 1)
  | .syncTry _ p, d => Fine p (d + 1)
  | .copied p, d => Fine p (d + 1)
  | .released p, d => 0 < d ∧ Fine p (d - 1)
  | .trySync _ _, _ => False

/-- No more than one lock object at a time, for a lock that is not recursive. -/
def Flat : Prog → Nat → Prop
  | .act, _ => True
  | .throw, _ => True
  | .seq p q, d => Flat p d ∧ Flat q d
  | .catch p, d => Flat p d
  | .sync p, d => d = 0 ∧ Flat p 1
  | .syncTry _ p, _ => Flat p 1
  | .copied p, d => d = 0 ∧ Flat p 1
  | .released p, _ => Flat p 0
  | .trySync _ _, _ => False

/-- How a run that gives the lock back ends. -/
def Kept (d : Nat) (x : Res) : Prop := (x.1 = .fin ∨ x.1 = .exn) → x.2.1 = d

theorem lock_some (r : Bool) (d d' : Nat) (h : lock r d = some d') : d' = d + 1 := by
  unfold lock at h
  split at h
  · simp at h; omega
  · split at h
    · simp at h; omega
    · simp at h

theorem tryLock_some (r f : Bool) (d d' : Nat) (h : tryLock r f d = some d') : d' = d + 1 := by
  unfold tryLock at h
  split at h
  · split at h
    · simp at h; omega
    · simp at h
  · split at h
    · simp at h; omega
    · simp at h

theorem endSync_kept (r : Bool) (d : Nat) (x : Res) (h : Kept (d + 1) x) : Kept d (endSync r x) := by
  obtain ⟨o, e, t⟩ := x
  cases o with
  | hang => intro g; simp [endSync] at g
  | ub => intro g; simp [endSync] at g
  | fin => have := h (.inl rfl); simp at this; subst this; intro _; simp [endSync, unlock]
  | exn => have := h (.inr rfl); simp at this; subst this; intro _; simp [endSync, unlock]

theorem endReleased_kept (r : Bool) (d : Nat) (hd : 0 < d) (x : Res) (h : Kept (d - 1) x) : Kept d (endReleased r x) := by
  obtain ⟨o, e, t⟩ := x
  have aux : ∀ o', o' ≠ .hang → o' ≠ .ub → e = d - 1 → Kept d (endReleased r (o', e, t)) := by
    intro o' h1 h2 he g
    cases hl : lock r e with
    | none => cases o' <;> simp_all [endReleased]
    | some d' =>
      have := lock_some r e d' hl
      cases o' <;> simp_all [endReleased] <;> omega
  cases o with
  | hang => intro g; simp [endReleased] at g
  | ub => intro g; simp [endReleased] at g
  | fin => exact aux _ (by simp) (by simp) (h (.inl rfl))
  | exn => exact aux _ (by simp) (by simp) (h (.inr rfl))

/-- However a program ends, normally or with an exception, every lock object gave back what it took: the lock is held as many
times as before. Partial: without `TrySynchronized`, and released only where it is held. -/
theorem C152_balanced_partial (r : Bool) (p : Prog) : ∀ d, Fine p d →
    (run r p d).1 = .fin ∨ (run r p d).1 = .exn → (run r p d).2.1 = d := by
  suffices ∀ d, Fine p d → Kept d (run r p d) from this
  induction p with
  | act => intro d _ _; rfl
  | throw => intro d _ _; rfl
  | seq p q ihp ihq =>
    intro d h g
    have hp := ihp d h.1
    have hq := ihq d h.2
    simp only [run] at g ⊢
    rcases e : run r p d with ⟨o, d', t⟩
    rw [e] at hp g
    cases o with
    | fin => have := hp (.inl rfl); simp at this; subst this; exact hq g
    | exn => exact hp (.inr rfl)
    | hang => simp at g
    | ub => simp at g
  | «catch» p ih =>
    intro d h g
    have hp := ih d h
    simp only [run] at g ⊢
    rcases e : run r p d with ⟨o, d', t⟩
    rw [e] at hp g
    cases o with
    | fin => exact hp (.inl rfl)
    | exn => exact hp (.inr rfl)
    | hang => simp at g
    | ub => simp at g
  | sync p ih =>
    intro d h
    simp only [run]
    cases e : lock r d with
    | none => intro g; simp at g
    | some d' => have := lock_some r d d' e; subst this; exact endSync_kept r d _ (ih _ h)
  | syncTry f p ih =>
    intro d h
    simp only [run]
    cases e : tryLock r f d with
    | none => intro _; rfl
    | some d' => have := tryLock_some r f d d' e; subst this; exact endSync_kept r d _ (ih _ h)
  | copied p ih =>
    intro d h
    simp only [run]
    cases e : lock r d with
    | none => intro g; simp at g
    | some d' => have := lock_some r d d' e; subst this; exact endSync_kept r d _ (ih _ h)
  | released p ih =>
    intro d h
    have h0 : d ≠ 0 := by have := h.1; omega
    simp only [run, unlock, if_neg h0]
    exact endReleased_kept r d h.1 _ (ih _ h.2)
  | trySync f p ih => intro d h; exact h.elim

example : run true (.sync (.seq .act (.sync .throw))) 0 = (.exn, 0, [1]) := by decide

/-- No `SyncReleased`. -/
def NoRel : Prog → Prop
  | .act => True
  | .throw => True
  | .seq p q => NoRel p ∧ NoRel q
  | .catch p => NoRel p
  | .sync p => NoRel p
  | .syncTry _ p => NoRel p
  | .copied p => NoRel p
  | .released _ => False
  | .trySync _ _ => False

theorem fine_of_noRel (p : Prog) : ∀ d, NoRel p → Fine p d := by
  induction p with
  | act => intro d h; trivial
  | throw => intro d h; trivial
  | seq p q ihp ihq => intro d h; exact ⟨ihp d h.1, ihq d h.2⟩
  | «catch» p ih => intro d h; exact ih d h
  | sync p ih => intro d h; exact ih _ h
  | syncTry f p ih => intro d h; exact ih _ h
  | copied p ih => intro d h; exact ih _ h
  | released p ih => intro d h; exact h.elim
  | trySync f p ih => intro d h; exact h.elim

theorem endSync_trace (r : Bool) (x : Res) : (endSync r x).2.2 = x.2.2 := by
  obtain ⟨o, e, t⟩ := x
  cases o <;> simp [endSync] <;> split <;> rfl

theorem noRel_trace (r : Bool) (p : Prog) : ∀ d, NoRel p → ∀ n ∈ (run r p d).2.2, d ≤ n := by
  induction p with
  | act => intro d _ n hn; simp [run] at hn; omega
  | throw => intro d _ n hn; simp [run] at hn
  | seq p q ihp ihq =>
    intro d h n hn
    have kp := C152_balanced_partial r p d (fine_of_noRel p d h.1)
    have hp := ihp d h.1
    simp only [run] at hn
    rcases e : run r p d with ⟨o, d', t⟩
    rw [e] at hp hn kp
    cases o with
    | fin =>
      have := kp (.inl rfl); simp at this; subst this
      simp only [List.mem_append] at hn
      rcases hn with hn | hn
      · exact hp n hn
      · exact ihq _ h.2 n hn
    | exn => exact hp n hn
    | hang => exact hp n hn
    | ub => exact hp n hn
  | «catch» p ih =>
    intro d h n hn
    have hp := ih d h
    simp only [run] at hn
    rcases e : run r p d with ⟨o, d', t⟩
    rw [e] at hp hn
    cases o <;> exact hp n hn
  | sync p ih =>
    intro d h n hn
    simp only [run] at hn
    cases e : lock r d with
    | none => simp [e] at hn
    | some d' =>
      have := lock_some r d d' e; subst this
      simp only [e, endSync_trace] at hn
      have := ih _ h n hn; omega
  | syncTry f p ih =>
    intro d h n hn
    simp only [run] at hn
    cases e : tryLock r f d with
    | none => simp [e] at hn
    | some d' =>
      have := tryLock_some r f d d' e; subst this
      simp only [e, endSync_trace] at hn
      have := ih _ h n hn; omega
  | copied p ih =>
    intro d h n hn
    simp only [run] at hn
    cases e : lock r d with
    | none => simp [e] at hn
    | some d' =>
      have := lock_some r d d' e; subst this
      simp only [e, endSync_trace] at hn
      have := ih _ h n hn; omega
  | released p ih => intro d h; exact h.elim
  | trySync f p ih => intro d h; exact h.elim

/-- Every statement in the scope of a lock object runs with the lock held. -/
theorem C152_held (r : Bool) (p : Prog) (f : Bool) (d : Nat) (h : NoRel p) :
    (∀ n ∈ (run r (.sync p) d).2.2, 0 < n) ∧ (∀ n ∈ (run r (.syncTry f p) d).2.2, 0 < n) ∧
    (∀ n ∈ (run r (.copied p) d).2.2, 0 < n) := by
  refine ⟨?_, ?_, ?_⟩
  · intro n hn
    simp only [run] at hn
    cases e : lock r d with
    | none => simp [e] at hn
    | some d' =>
      have := lock_some r d d' e; subst this
      simp only [e, endSync_trace] at hn
      have := noRel_trace r p _ h n hn; omega
  · intro n hn
    simp only [run] at hn
    cases e : tryLock r f d with
    | none => simp [e] at hn
    | some d' =>
      have := tryLock_some r f d d' e; subst this
      simp only [e, endSync_trace] at hn
      have := noRel_trace r p _ h n hn; omega
  · intro n hn
    simp only [run] at hn
    cases e : lock r d with
    | none => simp [e] at hn
    | some d' =>
      have := lock_some r d d' e; subst this
      simp only [e, endSync_trace] at hn
      have := noRel_trace r p _ h n hn; omega

example : (run true (.sync (.seq .act (.sync .act))) 0).2.2 = [1, 2] := by decide

theorem endSync_ends (r : Bool) (d : Nat) (x : Res) (hk : x.2.1 = d + 1) (h : x.1 = .fin ∨ x.1 = .exn) :
    (endSync r x).1 = x.1 := by
  obtain ⟨o, e, t⟩ := x
  simp at hk h; subst hk
  rcases h with rfl | rfl <;> simp [endSync, unlock]

theorem endReleased_ends (r : Bool) (x : Res) (hr : r = true ∨ x.2.1 = 0) (h : x.1 = .fin ∨ x.1 = .exn) :
    (endReleased r x).1 = x.1 := by
  obtain ⟨o, e, t⟩ := x
  simp at hr h
  have : ∃ d', lock r e = some d' := by
    unfold lock
    by_cases he : e = 0
    · exact ⟨1, by simp [he]⟩
    · rcases hr with hr | hr
      · exact ⟨e + 1, by simp [he, hr]⟩
      · exact absurd hr he
  obtain ⟨d', hd⟩ := this
  rcases h with rfl | rfl <;> simp [endReleased, hd]

/-- With a recursive lock every such program comes to its end: lock objects in lock objects do not wait for themselves. -/
theorem C152_recursive (p : Prog) : ∀ d, Fine p d → (run true p d).1 = .fin ∨ (run true p d).1 = .exn := by
  induction p with
  | act => intro d _; exact .inl rfl
  | throw => intro d _; exact .inr rfl
  | seq p q ihp ihq =>
    intro d h
    have hp := ihp d h.1
    have kp := C152_balanced_partial true p d h.1 hp
    have hq := ihq d h.2
    simp only [run]
    rcases e : run true p d with ⟨o, d', t⟩
    rw [e] at hp kp
    cases o with
    | fin => simp at kp; subst kp; exact hq
    | exn => exact .inr rfl
    | hang => simp at hp
    | ub => simp at hp
  | «catch» p ih =>
    intro d h
    have hp := ih d h
    simp only [run]
    rcases e : run true p d with ⟨o, d', t⟩
    rw [e] at hp
    cases o <;> simp_all
  | sync p ih =>
    intro d h
    have : lock true d = some (d + 1) := by unfold lock; split <;> simp; omega
    simp only [run, this]
    rw [endSync_ends true d _ (C152_balanced_partial true p _ h (ih _ h)) (ih _ h)]; exact ih _ h
  | syncTry f p ih =>
    intro d h
    simp only [run]
    cases e : tryLock true f d with
    | none => exact .inr rfl
    | some d' =>
      have := tryLock_some true f d d' e; subst this
      simp only []
      rw [endSync_ends true d _ (C152_balanced_partial true p _ h (ih _ h)) (ih _ h)]; exact ih _ h
  | copied p ih =>
    intro d h
    have : lock true d = some (d + 1) := by unfold lock; split <;> simp; omega
    simp only [run, this]
    rw [endSync_ends true d _ (C152_balanced_partial true p _ h (ih _ h)) (ih _ h)]; exact ih _ h
  | released p ih =>
    intro d h
    have h0 : d ≠ 0 := by have := h.1; omega
    simp only [run, unlock, if_neg h0]
    rw [endReleased_ends true _ (.inl rfl) (ih _ h.2)]; exact ih _ h.2
  | trySync f p ih => intro d h; exact h.elim

example : (run true (.sync (.sync (.released .act))) 0).1 = .fin := by decide

/-- With a lock that is not recursive every program with at most one lock object at a time comes to its
end. -/
theorem C152_flat (p : Prog) : ∀ d, d ≤ 1 → Flat p d → Fine p d →
    ((run false p d).1 = .fin ∨ (run false p d).1 = .exn) := by
  induction p with
  | act => intro d _ _ _; exact .inl rfl
  | throw => intro d _ _ _; exact .inr rfl
  | seq p q ihp ihq =>
    intro d hd h hf
    have hp := ihp d hd h.1 hf.1
    have kp := C152_balanced_partial false p d hf.1 hp
    have hq := ihq d hd h.2 hf.2
    simp only [run]
    rcases e : run false p d with ⟨o, d', t⟩
    rw [e] at hp kp
    cases o with
    | fin => simp at kp; subst kp; exact hq
    | exn => exact .inr rfl
    | hang => simp at hp
    | ub => simp at hp
  | «catch» p ih =>
    intro d hd h hf
    have hp := ih d hd h hf
    simp only [run]
    rcases e : run false p d with ⟨o, d', t⟩
    rw [e] at hp
    cases o <;> simp_all
  | sync p ih =>
    intro d hd h hf
    obtain ⟨rfl, h⟩ := h
    have e := ih 1 (by omega) h hf
    simp only [run, lock, if_pos]
    rw [endSync_ends false 0 _ (C152_balanced_partial false p _ hf e) e]; exact e
  | syncTry f p ih =>
    intro d hd h hf
    simp only [run]
    cases g : tryLock false f d with
    | none => exact .inr rfl
    | some d' =>
      have := tryLock_some false f d d' g; subst this
      have hd0 : d = 0 := by
        by_cases h0 : d = 0
        · exact h0
        · simp [tryLock, h0] at g
      subst hd0
      have e := ih 1 (by omega) h hf
      simp only []
      rw [endSync_ends false 0 _ (C152_balanced_partial false p _ hf e) e]; exact e
  | copied p ih =>
    intro d hd h hf
    obtain ⟨rfl, h⟩ := h
    have e := ih 1 (by omega) h hf
    simp only [run, lock, if_pos]
    rw [endSync_ends false 0 _ (C152_balanced_partial false p _ hf e) e]; exact e
  | released p ih =>
    intro d hd h hf
    have h1 : d = 1 := by have := hf.1; omega
    subst h1
    have e := ih 0 (by omega) h hf.2
    simp only [run, unlock]
    rw [if_neg (by omega)]
    simp only []
    rw [endReleased_ends false _ (.inr (C152_balanced_partial false p _ hf.2 e)) e]; exact e
  | trySync f p ih => intro d _ h; exact h.elim

example : run false (.sync (.seq .act (.released .act))) 0 = (.fin, 0, [1, 0]) := by decide

/-- No lock objects. -/
def Plain : Prog → Prop
  | .act => True
  | .throw => True
  | .seq p q => Plain p ∧ Plain q
  | .catch p => Plain p
  | _ => False

theorem plain_run (r : Bool) (p : Prog) : ∀ d, Plain p →
    (run r p d).2.1 = d ∧ ∀ n ∈ (run r p d).2.2, n = d := by
  induction p with
  | act => intro d _; simp [run]
  | throw => intro d _; simp [run]
  | seq p q ihp ihq =>
    intro d h
    have hp := ihp d h.1
    simp only [run]
    rcases e : run r p d with ⟨o, d', t⟩
    rw [e] at hp
    obtain ⟨h1, h2⟩ := hp
    simp at h1; subst h1
    have hq := ihq d' h.2
    cases o with
    | fin =>
      refine ⟨hq.1, fun n hn => ?_⟩
      simp only [List.mem_append] at hn
      rcases hn with hn | hn
      · exact h2 n hn
      · exact hq.2 n hn
    | exn => exact ⟨rfl, h2⟩
    | hang => exact ⟨rfl, h2⟩
    | ub => exact ⟨rfl, h2⟩
  | «catch» p ih =>
    intro d h
    have hp := ih d h
    simp only [run]
    rcases e : run r p d with ⟨o, d', t⟩
    rw [e] at hp
    cases o <;> exact hp
  | sync p ih => intro d h; exact h.elim
  | syncTry f p ih => intro d h; exact h.elim
  | copied p ih => intro d h; exact h.elim
  | released p ih => intro d h; exact h.elim
  | trySync f p ih => intro d h; exact h.elim

theorem endReleased_trace (r : Bool) (x : Res) : (endReleased r x).2.2 = x.2.2 := by
  obtain ⟨o, e, t⟩ := x
  cases o <;> simp [endReleased] <;> split <;> rfl

/-- Where the lock is held once, the statements in the scope of `SyncReleased` run without it; behind the scope, also behind an
exception, it is held again. -/
theorem C152_gone_partial (r : Bool) (p : Prog) (h : Plain p) :
    (∀ n ∈ (run r (.released p) 1).2.2, n = 0) ∧
    ((run r (.released p) 1).1 = .fin ∨ (run r (.released p) 1).1 = .exn → (run r (.released p) 1).2.1 = 1) := by
  have hp := plain_run r p 0 h
  have hr : run r (.released p) 1 = endReleased r (run r p 0) := rfl
  rw [hr, endReleased_trace]
  refine ⟨hp.2, fun g => endReleased_kept r 1 (by omega) _ (fun _ => hp.1) g⟩

example : run true (.sync (.catch (.released (.seq .act .throw)))) 0 = (.fin, 0, [0]) := by decide

/-- A lock object inside another waits for itself when the lock is not recursive. -/
theorem C152_nested (p : Prog) : (run false (.sync (.sync p)) 0).1 = .hang := rfl

/-- Releasing a plain lock that is not held is undefined behaviour. -/
theorem C152_unheld (p : Prog) : (run false (.released p) 0).1 = .ub := rfl

/-- Trying: with the lock held by another thread the scope is not entered and the exception is thrown; otherwise it is the same
as locking. -/
theorem C152_try (r : Bool) (p : Prog) :
    run r (.syncTry false p) 0 = (.exn, 0, []) ∧ run r (.syncTry true p) 0 = run r (.sync p) 0 := ⟨rfl, rfl⟩

example : run true (.catch (.syncTry false .act)) 0 = (.fin, 0, []) := by decide

/-- `TrySynchronized` does not try: it waits for the lock, also when another thread holds it. With a lock that is not recursive
it always throws, though it has the lock; with a recursive one it holds the lock once more than it gives back, so that the lock
is never free again. -/
theorem C152_try_violated (free : Bool) (p : Prog) :
    run false (.trySync free p) 0 = (.exn, 0, []) ∧
    (Fine p 2 → (run true (.trySync free p) 0).2.1 = 1) := by
  refine ⟨rfl, fun h => ?_⟩
  have e := C152_recursive p 2 h
  have k := C152_balanced_partial true p 2 h e
  exact endSync_kept true 1 (run true p 2) (fun _ => k) (by
    rw [endSync_ends true 1 _ k e]; exact e)

example : run true (.trySync false .act) 0 = (.fin, 1, [2]) := by decide

/-- `SyncReleased` unlocks once: where a recursive lock is held twice its scope runs with the lock held. -/
theorem C152_released_violated : run true (.sync (.sync (.released .act))) 0 = (.fin, 0, [1]) := by decide

/-- Where the recursive lock is not held, `SyncReleased` leaves it held. -/
theorem C152_unheld_violated : run true (.released .act) 0 = (.fin, 1, [0]) := by decide

end LS.Scopes

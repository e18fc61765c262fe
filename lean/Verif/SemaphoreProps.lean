import Verif.Semaphore
import Verif.FastLockProps
/-! # Property C36: semaphore -/

namespace LS.Semaphore
open LS.FastLock (upd upd_same upd_ne)

/-- States reachable from a new semaphore with `n` permits by operations that satisfy `P`. -/
inductive Reach (P : St → Op → Prop) (n : Nat) : St → Prop
  | init : Reach P n { counter := n }
  | step {s s' op b} : Reach P n s → P s op → step s op = .ok (b, s') → Reach P n s'

/-- No timed `lock` expires, and no slot which got its permit at once is cancelled. -/
def Good (s : St) : Op → Prop
  | .expire _ => False
  | .cancel x => s.slot x ≠ .atOnce
  | _ => True

structure Inv (n : Nat) (s : St) : Prop where
  sum : s.counter + s.grants = n + s.releases
  busy : s.queue ≠ [] → s.counter = 0
  que : ∀ x, x ∈ s.queue ↔ s.slot x = .waiting
  nodup : s.queue.Nodup
  alive : ∀ x, s.slot x ≠ .dead

theorem Inv.noDead {n s} (i : Inv n s) : s.queue.any (fun x => s.slot x = .dead) = false := by
  simp [i.alive]

theorem Inv.unlock {n s s'} (i : Inv n s)
    (h : unlock { s with releases := s.releases + 1 } = .ok s') : Inv n s' := by
  unfold Semaphore.unlock at h
  have hd := i.noDead
  simp only [hd, Bool.false_eq_true, if_false] at h
  obtain ⟨sum, busy, que, nodup, alive⟩ := i
  split at h
  · rename_i hq
    cases h
    exact ⟨by simp; omega, by simp [hq], que, nodup, alive⟩
  · rename_i x q hq
    cases h
    rw [hq] at nodup
    obtain ⟨hx, hn⟩ := List.nodup_cons.1 nodup
    have hc := busy (by simp [hq])
    refine ⟨by simp only; omega, fun _ => hc, ?_, hn, ?_⟩
    · intro y
      show y ∈ q ↔ upd s.slot x .signaled y = _
      by_cases hy : y = x
      · subst hy; simp [upd_same, hx]
      · rw [upd_ne _ _ hy, ← que y, hq]; simp [hy]
    · intro y
      show upd s.slot x .signaled y ≠ _
      by_cases hy : y = x
      · subst hy; simp [upd_same]
      · rw [upd_ne _ _ hy]; exact alive y

theorem Inv.slot {n s x v} (i : Inv n s) (h : s.slot x ≠ .waiting) (hv : v ≠ .waiting ∧ v ≠ .dead) :
    Inv n { s with slot := upd s.slot x v } := by
  obtain ⟨sum, busy, que, nodup, alive⟩ := i
  refine ⟨sum, busy, ?_, nodup, ?_⟩
  · intro y
    show y ∈ s.queue ↔ upd s.slot x v y = _
    by_cases hy : y = x
    · subst hy; rw [upd_same, que y]; simp [h, hv.1]
    · rw [upd_ne _ _ hy]; exact que y
  · intro y
    show upd s.slot x v y ≠ _
    by_cases hy : y = x
    · subst hy; rw [upd_same]; exact hv.2
    · rw [upd_ne _ _ hy]; exact alive y

theorem unlock_ok {n s} (i : Inv n s) :
    ∃ s', unlock { s with releases := s.releases + 1 } = .ok s' := by
  unfold Semaphore.unlock
  have hd := i.noDead
  simp only [hd, Bool.false_eq_true, if_false]
  cases s.queue <;> exact ⟨_, rfl⟩

theorem Inv.step {n s s' op b} (i : Inv n s) (hg : Good s op) (h : step s op = .ok (b, s')) :
    Inv n s' := by
  have i0 := i
  obtain ⟨sum, busy, que, nodup, alive⟩ := i
  cases op with
  | lockAsync x =>
    unfold Semaphore.step at h
    dsimp only at h
    split at h
    case isFalse => cases h; exact i0
    rename_i hx
    split at h
    · rename_i hc
      cases h
      have hq : s.queue = [] := Classical.byContradiction fun hh => by
        have := busy hh; omega
      have := i0.slot (x := x) (v := .atOnce) (by rw [hx]; simp) (by simp)
      exact ⟨by simp only; omega, by simp [hq], this.que, nodup, this.alive⟩
    · cases h
      have hxq : x ∉ s.queue := by rw [que, hx]; simp
      refine ⟨sum, fun _ => by simp only; omega, ?_, ?_, ?_⟩
      · intro y
        show y ∈ s.queue ++ [x] ↔ upd s.slot x .waiting y = _
        by_cases hy : y = x
        · subst hy; simp [upd_same]
        · rw [upd_ne _ _ hy, ← que y]; simp [hy]
      · show (s.queue ++ [x]).Nodup
        rw [List.nodup_append]
        refine ⟨nodup, by simp, fun a ha b hb => ?_⟩
        simp at hb; subst hb
        exact fun hh => hxq (hh ▸ ha)
      · intro y
        show upd s.slot x .waiting y ≠ _
        by_cases hy : y = x
        · subst hy; simp [upd_same]
        · rw [upd_ne _ _ hy]; exact alive y
  | tryLock =>
    unfold Semaphore.step at h
    dsimp only at h
    split at h
    · cases h
      refine ⟨by simp only; omega, fun hq => ?_, que, nodup, alive⟩
      have := busy hq
      simp only; omega
    · cases h; exact i0
  | unlock =>
    unfold Semaphore.step at h
    dsimp only at h
    obtain ⟨s1, h1⟩ := unlock_ok i0
    rw [h1] at h
    cases h
    exact i0.unlock h1
  | cancel x =>
    unfold Semaphore.step at h
    dsimp only at h
    cases hx : s.slot x <;> rw [hx] at h <;> dsimp only at h
    case waiting =>
      split at h
      · cases h
      · cases h
        refine ⟨sum, fun hq => busy (fun hh => hq (by simp [hh])), ?_, nodup.erase x, ?_⟩
        · intro y
          show y ∈ s.queue.erase x ↔ upd s.slot x .gone y = _
          by_cases hy : y = x
          · subst hy; simp [upd_same, nodup.not_mem_erase]
          · rw [upd_ne _ _ hy, ← que y, List.mem_erase_of_ne hy]
        · intro y
          show upd s.slot x .gone y ≠ _
          by_cases hy : y = x
          · subst hy; simp [upd_same]
          · rw [upd_ne _ _ hy]; exact alive y
    case atOnce => exact absurd hx hg
    case signaled =>
      split at h
      · cases h
      · cases h; exact i0.slot (by rw [hx]; simp) (by simp)
    all_goals cases h; exact i0
  | cancelUnlock x =>
    unfold Semaphore.step at h
    dsimp only at h
    split at h
    · rename_i hx
      have i1 := i0.slot (x := x) (v := .gone) (by rw [hx]; simp) (by simp)
      obtain ⟨s1, h1⟩ := unlock_ok i1
      rw [h1] at h
      cases h
      exact i1.unlock h1
    · cases h; exact i0
  | expire x => exact absurd hg id

theorem Reach.inv {n s} (h : Reach Good n s) : Inv n s := by
  induction h with
  | init => exact ⟨by simp, by simp, by simp, by simp, by simp⟩
  | step _ hg hs ih => exact ih.step hg hs

/-! ## C36 -/

/-- C36: without expired timed locks and cancelled immediate grants, no permit is lost or made up:
the free permits and those given and not yet given back add up to the initial count; nobody
waits while a permit is free.
Missing: expired timed locks (`c36_timeout_violated`), and the cancellation of a slot which got its
permit at once (`c36_cancel_violated`). -/
theorem c36_conserve_partial {n s} (h : Reach Good n s) :
    s.counter + s.grants = n + s.releases ∧ (s.queue ≠ [] → s.counter = 0) :=
  ⟨h.inv.sum, h.inv.busy⟩

/-- C36: when all permits were returned, the whole count is available: exactly `n` calls of
`tryLock` in a row succeed. -/
theorem c36_available_partial {n s} (h : Reach Good n s) (hr : s.releases = s.grants) :
    ∀ k, (∃ b s', run s (List.replicate k .tryLock) = .ok s' ∧ step s' .tryLock = .ok (b, s') ∧
      b = false) ↔ n ≤ k := by
  have h0 : s.counter = n := by have := h.inv.sum; omega
  have key : ∀ k s, ∃ s', run s (List.replicate k .tryLock) = .ok s' ∧
      s'.counter = s.counter - k := by
    intro k
    induction k with
    | zero => intro s; exact ⟨s, rfl, rfl⟩
    | succ k ih =>
      intro s
      by_cases hc : s.counter > 0
      · obtain ⟨s', h1, h2⟩ := ih { s with counter := s.counter - 1, grants := s.grants + 1 }
        refine ⟨s', ?_, by rw [h2]; simp only; omega⟩
        rw [List.replicate_succ]; unfold run Semaphore.step
        dsimp only
        rw [if_pos hc]; exact h1
      · obtain ⟨s', h1, h2⟩ := ih s
        refine ⟨s', ?_, by rw [h2]; omega⟩
        rw [List.replicate_succ]; unfold run Semaphore.step
        dsimp only
        rw [if_neg hc]; exact h1
  intro k
  obtain ⟨s', h1, h2⟩ := key k s
  constructor
  · rintro ⟨b, s1, h3, h4, rfl⟩
    rw [h1] at h3
    cases h3
    unfold Semaphore.step at h4
    dsimp only at h4
    split at h4
    · cases h4
    · omega
  · intro hk
    refine ⟨false, s', h1, ?_, rfl⟩
    unfold Semaphore.step
    dsimp only
    rw [if_neg (by omega)]

/-- C36: and no operation of such a program is undefined. -/
theorem c36_defined_partial {n s op} (h : Reach Good n s) (hg : Good s op) :
    ∃ b s', step s op = .ok (b, s') := by
  have i := h.inv
  cases op with
  | lockAsync x =>
    unfold Semaphore.step; dsimp only
    split
    · split <;> exact ⟨_, _, rfl⟩
    · exact ⟨_, _, rfl⟩
  | tryLock => unfold Semaphore.step; dsimp only; split <;> exact ⟨_, _, rfl⟩
  | unlock =>
    obtain ⟨s1, h1⟩ := unlock_ok i
    unfold Semaphore.step; dsimp only; rw [h1]; exact ⟨_, _, rfl⟩
  | cancel x =>
    unfold Semaphore.step; dsimp only
    have a : (s.queue.reverse.takeWhile (· ≠ x)).any (fun y => decide (s.slot y = .dead)) = false := by
      simp [i.alive]
    cases s.slot x <;> simp only [a, i.noDead, Bool.false_eq_true, if_false] <;> exact ⟨_, _, rfl⟩
  | cancelUnlock x =>
    unfold Semaphore.step; dsimp only
    split
    · rename_i hx
      obtain ⟨s1, h1⟩ := unlock_ok (i.slot (x := x) (v := .gone) (by rw [hx]; simp) (by simp))
      rw [h1]; exact ⟨_, _, rfl⟩
    · exact ⟨_, _, rfl⟩
  | expire x => exact absurd hg id

theorem unlock_sum {n : Nat} {s s' : St} (h : unlock { s with releases := s.releases + 1 } = .ok s')
    (i : s.counter + s.grants ≤ n + s.releases) :
    s'.counter + s'.grants ≤ n + s'.releases := by
  unfold Semaphore.unlock at h
  split at h
  · cases h
  · split at h <;> cases h <;> simp only <;> omega

/-- C36: in any program (as long as it is defined) the permits given never exceed the initial
count and the returned ones. -/
theorem c36_never_over {n s} (h : Reach (fun _ _ => True) n s) : s.grants ≤ n + s.releases := by
  suffices s.counter + s.grants ≤ n + s.releases by omega
  induction h with
  | init => simp
  | @step s s' op b _ _ hs ih =>
    cases op with
    | lockAsync x =>
      unfold Semaphore.step at hs; dsimp only at hs
      split at hs
      · split at hs <;> cases hs <;> simp only <;> omega
      · cases hs; exact ih
    | tryLock =>
      unfold Semaphore.step at hs; dsimp only at hs
      split at hs <;> cases hs <;> (try simp only) <;> omega
    | unlock =>
      unfold Semaphore.step at hs; dsimp only at hs
      cases hu : unlock { s with releases := s.releases + 1 } with
      | error e => rw [hu] at hs; cases hs
      | ok s1 => rw [hu] at hs; cases hs; exact unlock_sum hu ih
    | cancel x =>
      unfold Semaphore.step at hs; dsimp only at hs
      cases hx : s.slot x <;> rw [hx] at hs <;> dsimp only at hs
      case waiting => split at hs <;> cases hs; exact ih
      case signaled => split at hs <;> cases hs; exact ih
      case atOnce => cases hs; simp only; omega
      all_goals cases hs; exact ih
    | cancelUnlock x =>
      unfold Semaphore.step at hs; dsimp only at hs
      split at hs
      · cases hu : unlock { s with slot := upd s.slot x .gone, releases := s.releases + 1 } with
        | error e => rw [hu] at hs; cases hs
        | ok s1 => rw [hu] at hs; cases hs; exact unlock_sum (s := { s with slot := upd s.slot x .gone }) hu ih
      · cases hs; exact ih
    | expire x =>
      unfold Semaphore.step at hs; dsimp only at hs
      split at hs <;> cases hs <;> exact ih

/-- Two permits, four users; one waiting user gives up, one gives up after it was served. -/
example : (run { counter := 2 } [.lockAsync 1, .lockAsync 2, .lockAsync 3, .lockAsync 4,
      .lockAsync 5, .cancel 4, .unlock, .cancel 3, .cancelUnlock 3]).map
    (fun s => (s.counter, s.queue, s.slot 5, s.grants, s.releases)) =
      .ok (0, [], .signaled, 4, 2) := by rfl

/-- C36 (violated): a timed `lock` that expires leaves its destroyed slot in the queue, so the next
`unlock` is undefined behaviour. -/
theorem c36_timeout_violated :
    run { counter := 1 } [.lockAsync 1, .lockAsync 2, .expire 2, .unlock] = .error .ub := by rfl

/-- C36 (violated): `cancelLockAsync` does not return the permit of a slot that got it at once
(`remove` reports success for a slot which never was in the queue): all slots are cancelled, nobody
holds the semaphore, but no permit is left. -/
theorem c36_cancel_violated :
    (run { counter := 1 } [.lockAsync 1, .cancel 1, .cancelUnlock 1]).map
      (fun s => (s.counter, s.queue, s.slot 1, s.grants, s.releases)) = .ok (0, [], .gone, 1, 1) ∧
    (run { counter := 1 } [.lockAsync 1, .cancel 1, .cancelUnlock 1]).bind
      (fun s => (step s .tryLock).map (·.1)) = .ok false := ⟨rfl, rfl⟩

end LS.Semaphore

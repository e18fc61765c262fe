import Verif.LevelLock
/-! # Properties C33 and C34: level lock and reader/writer lock -/

namespace LS.LevelLock

/-- The holders have the current level and are counted. -/
structure Inv (s : St) : Prop where
  level : ∀ x ∈ s.holders, x.2 = s.cur
  count : s.use = s.holders.length

theorem releaseTop_inv {s x r} (h : Inv s) (hc : s.use = 0 ∨ x.2 = s.cur) :
    Inv (releaseTop s x r) := by
  refine ⟨fun y hy => ?_, ?_⟩
  · simp only [releaseTop, List.mem_append, List.mem_singleton] at hy ⊢
    rcases hy with hy | rfl
    · rcases hc with hc | hc
      · rw [h.count, List.length_eq_zero_iff] at hc
        rw [hc] at hy; simp at hy
      · rw [h.level y hy, hc]
    · rfl
  · simp [releaseTop, h.count]

theorem releaseSame_inv {q} : ∀ {s}, Inv s → Inv (releaseSame s q) := by
  induction q with
  | nil => intro s h; exact ⟨h.level, h.count⟩
  | cons x r ih =>
    intro s h
    unfold releaseSame
    split
    · next hx => exact ih (releaseTop_inv h (Or.inr hx))
    · exact ⟨h.level, h.count⟩

theorem unlock_inv {s x} (h : Inv s) (hx : x ∈ s.holders) : Inv (unlock s x) := by
  have h1 : Inv { s with use := s.use - 1, holders := s.holders.erase x } := by
    refine ⟨fun y hy => h.level y (List.mem_of_mem_erase hy), ?_⟩
    simp only [List.length_erase_of_mem hx, h.count]
  unfold unlock
  simp only []
  split
  · next h0 =>
    split
    · exact h1
    · exact releaseSame_inv (releaseTop_inv h1 (Or.inl h0))
  · exact h1

theorem Inv.step {s s' op} (h : Inv s) (hs : step s op = some (.ok s')) : Inv s' := by
  cases op with
  | lock id level =>
    simp only [LevelLock.step, Option.some.injEq] at hs
    unfold lockAsync at hs
    split at hs
    · split at hs
      · injection hs with hs; subst hs; exact ⟨h.level, h.count⟩
      · split at hs
        · injection hs with hs; subst hs; exact ⟨h.level, h.count⟩
        · cases hs
    · next hc =>
      injection hs with hs; subst hs
      have : s.use = 0 ∨ level = s.cur := by
        by_cases h1 : level = s.cur
        · exact Or.inr h1
        · left
          apply Classical.byContradiction
          intro h2; exact hc (Or.inr ⟨h1, h2⟩)
      have := releaseTop_inv (x := (id, level)) (r := s.q) h this
      exact ⟨this.level, this.count⟩
  | tryLock id level =>
    simp only [LevelLock.step, Option.some.injEq] at hs
    injection hs with hs; subst hs
    unfold tryLock
    split
    · exact h
    · next hc =>
      have : s.use = 0 ∨ level = s.cur := by
        by_cases h1 : level = s.cur
        · exact Or.inr h1
        · left
          apply Classical.byContradiction
          intro h2; exact hc (Or.inr ⟨h1, h2⟩)
      have := releaseTop_inv (x := (id, level)) (r := s.q) h this
      exact ⟨this.level, this.count⟩
  | unlock id =>
    simp only [LevelLock.step] at hs
    cases hf : s.holders.find? (fun x => x.1 = id) with
    | none => rw [hf] at hs; cases hs
    | some x =>
      rw [hf] at hs
      simp only [Option.map_some, Option.some.injEq] at hs
      injection hs with hs; subst hs
      exact unlock_inv h (List.mem_of_find?_eq_some hf)
  | cancel id =>
    simp only [LevelLock.step] at hs
    unfold cancel at hs
    cases hf : s.holders.find? (fun x => x.1 = id) with
    | some x =>
      rw [hf] at hs
      simp only [Option.some.injEq] at hs
      injection hs with hs; subst hs
      exact unlock_inv h (List.mem_of_find?_eq_some hf)
    | none =>
      rw [hf] at hs
      simp only [] at hs
      split at hs
      · injection hs with hs
        injection hs with hs; subst hs
        exact ⟨h.level, h.count⟩
      · cases hs

theorem Reach.inv {ok s} (h : Reach ok s) : Inv s := by
  induction h with
  | init => exact ⟨by simp, rfl⟩
  | step _ _ hs ih => exact ih.step hs

/-! ## C33 -/

/-- C33: simultaneous holders have the same level, for all histories of `lock`, `tryLock`,
`unlock`, `cancelAsync`. -/
theorem c33_same_level {ok s x y} (h : Reach ok s) (hx : x ∈ s.holders) (hy : y ∈ s.holders) :
    x.2 = y.2 := by
  rw [h.inv.level x hx, h.inv.level y hy]

/-- The level of a request of the reader/writer lock: 0 for reading, the thread id for writing
(rwlock.h:206-223). -/
def rwLevel (write : Bool) (thread : Nat) : Nat := if write then thread else 0

/-- C33: while a thread writes, every holder is this thread writing: nobody reads and no other
thread writes.  Thread ids are not zero. -/
theorem c33_writer_exclusive {ok s i j w t u} (h : Reach ok s) (ht : t ≠ 0)
    (hx : (i, rwLevel true t) ∈ s.holders) (hy : (j, rwLevel w u) ∈ s.holders) :
    w = true ∧ u = t := by
  have := c33_same_level h hx hy
  cases w with
  | true => exact ⟨rfl, this.symm⟩
  | false => exact absurd this ht

/-- A request is not granted while older requests wait, so writers do not starve. -/
theorem c33_no_overtaking {s : St} {id level} (hq : s.qbot ≠ none) :
    tryLock s id level = s ∧ ∀ s', lockAsync s id level = .ok s' → s'.holders = s.holders := by
  refine ⟨by unfold tryLock; rw [if_pos (Or.inl hq)], fun s' hs => ?_⟩
  unfold lockAsync at hs
  rw [if_pos (Or.inl hq)] at hs
  split at hs
  · injection hs with hs; subst hs; rfl
  · split at hs
    · injection hs with hs; subst hs; rfl
    · cases hs

/-- Runs a list of operations. -/
def exec : St → List Op → Option St
  | s, [] => some s
  | s, op :: l =>
    match step s op with
    | some (.ok s') => exec s' l
    | _ => none

theorem exec_reach {ok} : ∀ (l : List Op) {s s'}, Reach ok s → (∀ x ∈ l, ok x) →
    exec s l = some s' → Reach ok s'
  | [], _, _, h, _, he => by simp [exec] at he; subst he; exact h
  | op :: l, s, s', h, hok, he => by
    unfold exec at he
    split at he
    · next s1 hs =>
      exact exec_reach l (h.step (hok op (by simp)) hs) (fun x hx => hok x (by simp [hx])) he
    · cases he

/-- Two readers (1, 2), a writer (3, thread 7), then readers 4, 5, 6. -/
example : (exec {} [.lock 1 0, .lock 2 0, .lock 3 7, .lock 4 0, .lock 5 0, .unlock 1, .unlock 2]).map
    (fun s => (s.holders, s.q)) = some ([(3, 7)], [(4, 0), (5, 0)]) := by decide +kernel
example : (exec {} [.lock 1 0, .lock 2 0, .lock 3 7, .lock 4 0, .lock 5 0, .unlock 1, .unlock 2,
    .unlock 3]).map (fun s => (s.holders, s.q)) = some ([(4, 0), (5, 0)], []) := by decide +kernel

/-! ## C34 -/

/-- Use without `cancelAsync`. -/
def NoCancel : Op → Prop
  | .cancel _ => False
  | _ => True

instance (op : Op) : Decidable (NoCancel op) := by cases op <;> unfold NoCancel <;> infer_instance

/-- C34, as far as it holds: while no request ever had to wait (`qbot` is null) a request finding
no holder, or holders of its level only, is granted at once. -/
theorem c34_grant_partial {ok s id level} (h : Reach ok s) (hq : s.qbot = none)
    (hf : ∀ x ∈ s.holders, x.2 = level) :
    ∃ s', lockAsync s id level = .ok s' ∧ (id, level) ∈ s'.holders := by
  have hc : ¬ (s.qbot ≠ none ∨ (level ≠ s.cur ∧ s.use ≠ 0)) := by
    rintro (h1 | ⟨h1, h2⟩)
    · exact h1 hq
    · rw [h.inv.count] at h2
      cases hh : s.holders with
      | nil => rw [hh] at h2; exact h2 rfl
      | cons x r =>
        have hx : x ∈ s.holders := by rw [hh]; simp
        exact h1 (by rw [← hf x hx, h.inv.level x hx])
  refine ⟨_, by unfold lockAsync; rw [if_neg hc], by simp⟩

/-- Nobody holds the lock but `qbot` is set. -/
theorem dead_step {s s' op} (h1 : s.holders = []) (h2 : s.qbot ≠ none)
    (hs : step s op = some (.ok s')) : s'.holders = [] ∧ s'.qbot ≠ none := by
  cases op with
  | lock id level =>
    simp only [step, Option.some.injEq] at hs
    unfold lockAsync at hs
    rw [if_pos (Or.inl h2)] at hs
    split at hs
    · injection hs with hs; subst hs; exact ⟨h1, by simp⟩
    · split at hs
      · injection hs with hs; subst hs; exact ⟨h1, by simp⟩
      · cases hs
  | tryLock id level =>
    simp only [step, Option.some.injEq] at hs
    injection hs with hs; subst hs
    rw [(c33_no_overtaking h2).1]; exact ⟨h1, h2⟩
  | unlock id => simp [step, h1] at hs
  | cancel id =>
    simp only [step] at hs
    unfold cancel at hs
    rw [h1] at hs
    simp only [List.find?_nil] at hs
    split at hs
    · injection hs with hs
      injection hs with hs; subst hs; exact ⟨rfl, h2⟩
    · cases hs

/-- C34 (the failure in general): once a request had to wait, the lock is lost for ever as soon as
it has no holder: no later history grants any request. -/
theorem c34_dead_after_contention {s : St} (h1 : s.holders = []) (h2 : s.qbot ≠ none) :
    ∀ (l : List Op) {s'}, exec s l = some s' → s'.holders = [] := by
  intro l
  induction l generalizing s with
  | nil => intro s' he; simp [exec] at he; subst he; exact h1
  | cons op l ih =>
    intro s' he
    unfold exec at he
    split at he
    · next s1 hs =>
      have := dead_step h1 h2 hs
      exact ih this.1 this.2 he
    · cases he

/-- C34 (negation): a reader, a waiting writer, both unlock; nobody holds the lock, nobody waits,
and yet a request (here `tryLock`, or `lock` which queues) is not granted. -/
theorem c34_availability_violated : ∃ s, Reach NoCancel s ∧ s.holders = [] ∧ s.q = [] ∧
    (∀ id level, tryLock s id level = s) ∧
    ∀ id level s', lockAsync s id level = .ok s' → s'.holders = [] := by
  have he : exec {} [.lock 1 0, .lock 2 7, .unlock 1, .unlock 2] =
      some { q := [], qbot := some 2, cur := 7, use := 0, holders := [] } := by decide +kernel
  refine ⟨_, exec_reach _ .init (by decide +kernel) he, rfl, rfl, ?_, ?_⟩
  · intro id level; exact (c33_no_overtaking (by simp)).1
  · intro id level s' hs; exact (c33_no_overtaking (by simp)).2 s' hs

/-- `cancelAsync` of the slot which was queued last leaves `qbot` pointing to it; the next request
writes to that slot, which is gone. -/
theorem c34_cancel_violated : ∃ s, Reach (fun _ => True) s ∧
    step s (.lock 4 9) = some (.error .ub) := by
  have he : exec {} [.lock 1 0, .lock 2 7, .lock 3 8, .cancel 3] =
      some { q := [(2, 7)], qbot := some 3, cur := 0, use := 1, holders := [(1, 0)] } := by
    decide +kernel
  exact ⟨_, exec_reach _ .init (fun _ _ => trivial) he, rfl⟩

/-- Without `cancelAsync` the queue is never damaged. -/
theorem c33_no_ub {s} (h : Reach NoCancel s) : s.q = [] ∨ s.qbot = s.q.getLast?.map Prod.fst := by
  have same : ∀ (q : List (Nat × Nat)) (s : St),
      (q = [] ∨ s.qbot = q.getLast?.map Prod.fst) →
      ((releaseSame s q).q = [] ∨
        (releaseSame s q).qbot = (releaseSame s q).q.getLast?.map Prod.fst) := by
    intro q
    induction q with
    | nil => intro s _; exact Or.inl rfl
    | cons x r ih =>
      intro s hs
      unfold releaseSame
      split
      · apply ih
        rcases hs with hs | hs
        · cases hs
        · cases r with
          | nil => exact Or.inl rfl
          | cons y r => right; rw [show (releaseTop s x (y :: r)).qbot = s.qbot from rfl, hs]; simp
      · exact hs
  induction h with
  | init => exact Or.inl rfl
  | @step s s' op _ hok hs ih =>
    cases op with
    | lock id level =>
      simp only [step, Option.some.injEq] at hs
      unfold lockAsync at hs
      split at hs
      · split at hs
        · injection hs with hs; subst hs; right; simp
        · split at hs
          · injection hs with hs; subst hs; right; simp
          · cases hs
      · injection hs with hs; subst hs; exact ih
    | tryLock id level =>
      simp only [step, Option.some.injEq] at hs
      injection hs with hs; subst hs
      unfold tryLock; split <;> exact ih
    | unlock id =>
      simp only [step] at hs
      cases hf : s.holders.find? (fun x => x.1 = id) with
      | none => rw [hf] at hs; cases hs
      | some x =>
        rw [hf] at hs
        simp only [Option.map_some, Option.some.injEq] at hs
        injection hs with hs; subst hs
        unfold unlock
        simp only []
        split
        · split
          · next hq => left; exact hq
          · next y r hq =>
            apply same
            have hq' : s.q = y :: r := hq
            rw [hq'] at ih
            rcases ih with ih | ih
            · cases ih
            · cases r with
              | nil => exact Or.inl rfl
              | cons z r => right; simp only [releaseTop]; rw [ih]; simp
        · exact ih
    | cancel i => exact absurd hok (fun h => h)

end LS.LevelLock

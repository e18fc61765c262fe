/-
C156: locking several locks at once. Model: `Verif/MultiLock.lean`.
-/
import Verif.MultiLock

namespace LS.MultiLock

/-- Two different locks are locked in the order of their addresses, each once, whatever order they are given in. -/
theorem C156_order (a b : Nat) (h : a ≠ b) :
    (Multi.locks (.two a b)).Pairwise (· < ·) ∧ (∀ x, x ∈ Multi.locks (.two a b) ↔ x = a ∨ x = b) ∧
    Multi.locks (.two a b) = Multi.locks (.two b a) := by
  rcases Nat.lt_or_gt_of_ne h with h | h
  · have h' : ¬ b < a := by omega
    simp [Multi.locks, order2, h, h']
  · have h' : ¬ a < b := by omega
    simp [Multi.locks, order2, h, h']
    intro x; constructor <;> rintro (h | h) <;> simp [h]

example : Multi.locks (.two 9 4) = [4, 9] := by decide

/-- The same for three. -/
theorem C156_order_three (a b c : Nat) (h1 : a ≠ b) (h2 : a ≠ c) (h3 : b ≠ c) :
    (Multi.locks (.three a b c)).Pairwise (· < ·) ∧ (∀ x, x ∈ Multi.locks (.three a b c) ↔ x = a ∨ x = b ∨ x = c) := by
  simp only [Multi.locks, order3]
  by_cases p : a < b <;> by_cases q : a < c <;> by_cases r : b < c <;> simp [p, q, r] <;>
    (try constructor) <;> (try omega) <;> intro x <;> constructor <;> intro h <;> omega

example : Multi.locks (.three 7 9 4) = [4, 7, 9] := by decide

/-- What holds of every thread that uses `MultiLock2` with different locks only. -/
structure Good (t : Th) : Prop where
  sorted : (t.held ++ t.want).Pairwise (· < ·)
  later : ∀ m ∈ t.later, ∃ a b, m = .two a b ∧ a ≠ b
  idle : t.cur = none → t.held = [] ∧ t.want = []
  busy : ∀ m, t.cur = some m → ∃ a b, m = .two a b ∧ ∀ x ∈ t.held ++ t.want, x = a ∨ x = b

/-- Nothing more to do. -/
def Done (t : Th) : Prop := t.cur = none ∧ t.later = []

theorem mem_set (s : List Th) (i : Nat) (t u : Th) (h : u ∈ s.set i t) : u = t ∨ u ∈ s := by
  rcases List.mem_or_eq_of_mem_set h with h | h
  · exact .inr h
  · exact .inl h

theorem step_good (s s' : List Th) (i : Nat) (h : step s i = some s') (hg : ∀ t ∈ s, Good t) : ∀ t ∈ s', Good t := by
  unfold step at h
  split at h
  · simp at h
  · rename_i t ht
    have tm : t ∈ s := List.mem_of_getElem? ht
    have g := hg t tm
    split at h
    · rename_i x w hw
      split at h
      · simp at h
      · simp at h; subst h
        intro u hu
        rcases mem_set s i _ u hu with rfl | hu
        · have e : t.held ++ t.want = (t.held ++ [x]) ++ w := by simp [hw]
          refine ⟨?_, g.later, ?_, ?_⟩
          · show ((t.held ++ [x]) ++ w).Pairwise _
            rw [← e]; exact g.sorted
          · intro hc
            have := (g.idle hc).2
            rw [hw] at this; simp at this
          · intro m hm
            obtain ⟨a, b, rfl, hb⟩ := g.busy m hm
            refine ⟨a, b, rfl, ?_⟩
            show ∀ y ∈ (t.held ++ [x]) ++ w, _
            rw [← e]; exact hb
        · exact hg u hu
    · rename_i hw
      split at h
      · rename_i m hm
        simp at h; subst h
        intro u hu
        rcases mem_set s i _ u hu with rfl | hu
        · obtain ⟨a, b, rfl, hb⟩ := g.busy m hm
          have e : (Multi.two a b).unlock t.held = [] := by
            simp only [Multi.unlock, List.filter_eq_nil_iff]
            intro y hy
            have := hb y (by simp [hy])
            rcases this with rfl | rfl <;> simp
          refine ⟨?_, g.later, ?_, ?_⟩
          · show ((Multi.two a b).unlock t.held ++ t.want).Pairwise _
            rw [e, hw]; simp
          · intro _; exact ⟨e, hw⟩
          · intro m' hm'; simp at hm'
        · exact hg u hu
      · rename_i hc
        split at h
        · simp at h
        · rename_i m l hl
          simp at h; subst h
          intro u hu
          rcases mem_set s i _ u hu with rfl | hu
          · obtain ⟨a, b, rfl, hab⟩ := g.later m (by rw [hl]; simp)
            have o := C156_order a b hab
            have e := (g.idle hc).1
            refine ⟨?_, ?_, ?_, ?_⟩
            · show (t.held ++ (Multi.two a b).locks).Pairwise _
              rw [e]; exact o.1
            · intro m' hm'; exact g.later m' (by rw [hl]; simp [hm'])
            · intro hc'; simp at hc'
            · intro m' hm'
              simp at hm'; subst hm'
              refine ⟨a, b, rfl, ?_⟩
              show ∀ y ∈ t.held ++ (Multi.two a b).locks, _
              rw [e]; intro y hy; exact (o.2.1 y).1 (by simpa using hy)
          · exact hg u hu

theorem run_good (l : List Nat) : ∀ s, (∀ t ∈ s, Good t) → ∀ t ∈ run l s, Good t := by
  induction l with
  | nil => intro s h; exact h
  | cons i l ih =>
    intro s h
    simp only [run]
    cases e : step s i with
    | none => exact ih s h
    | some s' => exact ih s' (step_good s s' i e h)

theorem init_good (ps : List (List Multi)) (h : ∀ p ∈ ps, ∀ m ∈ p, ∃ a b, m = Multi.two a b ∧ a ≠ b) :
    ∀ t ∈ init ps, Good t := by
  intro t ht
  simp only [init, List.mem_map] at ht
  obtain ⟨p, hp, rfl⟩ := ht
  exact ⟨by simp, h p hp, fun _ => ⟨rfl, rfl⟩, fun m hm => by simp at hm⟩

theorem exists_bound (s : List Th) : ∃ B, ∀ t ∈ s, ∀ x ∈ t.want, x ≤ B := by
  induction s with
  | nil => exact ⟨0, by simp⟩
  | cons t s ih =>
    obtain ⟨B, hB⟩ := ih
    have : ∀ l : List Nat, ∃ C, ∀ x ∈ l, x ≤ C := by
      intro l
      induction l with
      | nil => exact ⟨0, by simp⟩
      | cons y l ihl =>
        obtain ⟨C, hC⟩ := ihl
        refine ⟨max y C, ?_⟩
        intro x hx
        rcases List.mem_cons.1 hx with rfl | hx
        · omega
        · have := hC x hx; omega
    obtain ⟨C, hC⟩ := this t.want
    refine ⟨max B C, ?_⟩
    intro u hu x hx
    rcases List.mem_cons.1 hu with rfl | hu
    · have := hC x hx; omega
    · have := hB u hu x hx; omega

theorem progress (s : List Th) (hg : ∀ t ∈ s, Good t) (hs : ∀ i, step s i = none) : ∀ t ∈ s, Done t := by
  obtain ⟨B, hB⟩ := exists_bound s
  have noWant : ∀ n, ∀ t ∈ s, ∀ x w, t.want = x :: w → B - x ≤ n → False := by
    intro n
    induction n using Nat.strongRecOn with
    | _ n ih =>
      intro t ht x w hw hn
      obtain ⟨i, hi⟩ := List.getElem?_of_mem ht
      have h := hs i
      unfold step at h
      rw [hi] at h
      simp only [hw] at h
      split at h
      · rename_i ha
        rw [List.any_eq_true] at ha
        obtain ⟨u, hu, hx⟩ := ha
        have hx : x ∈ u.held := by simpa using hx
        have gu := hg u hu
        cases hwu : u.want with
        | cons y w' =>
          have hlt : x < y := by
            have := gu.sorted
            rw [List.pairwise_append] at this
            exact this.2.2 x hx y (by rw [hwu]; simp)
          have hy : y ≤ B := hB u hu y (by rw [hwu]; simp)
          exact ih (B - y) (by omega) u hu y w' hwu (Nat.le_refl _)
        | nil =>
          obtain ⟨j, hj⟩ := List.getElem?_of_mem hu
          have h' := hs j
          unfold step at h'
          rw [hj] at h'
          simp only [hwu] at h'
          split at h'
          · simp at h'
          · rename_i hc
            have := (gu.idle hc).1
            rw [this] at hx; simp at hx
      · simp at h
  intro t ht
  obtain ⟨i, hi⟩ := List.getElem?_of_mem ht
  have h := hs i
  unfold step at h
  rw [hi] at h
  cases hw : t.want with
  | cons x w => exact (noWant _ t ht x w hw (Nat.le_refl _)).elim
  | nil =>
    simp only [hw] at h
    split at h
    · simp at h
    · rename_i hc
      split at h
      · rename_i hl; exact ⟨hc, hl⟩
      · simp at h

/-- Any number of threads that lock and unlock any pairs of different locks, again and again, never wait for each other in a
circle: as long as one is not finished, one can make a step. Partial: with `MultiLock2` and different locks only. -/
theorem C156_progress_partial (ps : List (List Multi)) (h : ∀ p ∈ ps, ∀ m ∈ p, ∃ a b, m = Multi.two a b ∧ a ≠ b)
    (l : List Nat) (hn : ∃ t ∈ run l (init ps), ¬ (t.cur = none ∧ t.later = [])) :
    ∃ i, (step (run l (init ps)) i).isSome = true := by
  apply Classical.byContradiction
  intro hc
  have hs : ∀ i, step (run l (init ps)) i = none := by
    intro i
    cases e : step (run l (init ps)) i with
    | none => rfl
    | some s' => exact absurd ⟨i, by rw [e]; rfl⟩ hc
  obtain ⟨t, ht, hd⟩ := hn
  exact hd (progress _ (run_good l _ (init_good ps h)) hs t ht)

example : (run [0, 1, 0, 1, 0, 0, 1, 1, 1] (init [[.two 4 9], [.two 9 4]])) = [⟨[], [], none, []⟩, ⟨[], [], none, []⟩] := by
  decide

/-- No lock is held by two threads. -/
def Excl (s : List Th) : Prop :=
  ∀ (i j : Nat) (t u : Th), i ≠ j → s[i]? = some t → s[j]? = some u → ∀ x ∈ t.held, x ∉ u.held

theorem unlock_sub (m : Multi) (h : List Nat) : ∀ x ∈ m.unlock h, x ∈ h := by
  cases m with
  | two a b => intro x hx; exact (List.mem_filter.1 hx).1
  | three a b c => intro x hx; exact hx

theorem excl_set (s : List Th) (i : Nat) (t t' : Th) (ht : s[i]? = some t) (h : Excl s)
    (hx : ∀ x ∈ t'.held, x ∈ t.held ∨ ∀ u ∈ s, x ∉ u.held) : Excl (s.set i t') := by
  intro j k a b hjk ha hb x hxa hxb
  rw [List.getElem?_set] at ha hb
  by_cases hj : i = j
  · subst hj
    have hk : ¬ i = k := hjk
    rw [if_neg hk] at hb
    split at ha
    · split at ha
      · simp at ha; subst ha
        rcases hx x hxa with h1 | h1
        · exact h i k t b hjk ht hb x h1 hxb
        · exact h1 b (List.mem_of_getElem? hb) hxb
      · simp at ha
    · rename_i hne; exact hne rfl
  · rw [if_neg hj] at ha
    by_cases hk : i = k
    · subst hk
      split at hb
      · split at hb
        · simp at hb; subst hb
          rcases hx x hxb with h1 | h1
          · exact h j i a t hjk ha ht x hxa h1
          · exact h1 a (List.mem_of_getElem? ha) hxa
        · simp at hb
      · rename_i hne; exact hne rfl
    · rw [if_neg hk] at hb
      exact h j k a b hjk ha hb x hxa hxb

theorem step_excl (s s' : List Th) (i : Nat) (h : step s i = some s') (he : Excl s) : Excl s' := by
  unfold step at h
  split at h
  · simp at h
  · rename_i t ht
    split at h
    · rename_i x w hw
      split at h
      · simp at h
      · rename_i hany
        simp at h; subst h
        refine excl_set s i t _ ht he ?_
        intro y hy
        have hy : y ∈ t.held ++ [x] := hy
        rcases List.mem_append.1 hy with hy | hy
        · exact .inl hy
        · simp at hy; subst hy
          right; intro u hu hc
          exact hany (List.any_eq_true.2 ⟨u, hu, by simpa using hc⟩)
    · split at h
      · rename_i m hm
        simp at h; subst h
        exact excl_set s i t _ ht he (fun y hy => .inl (unlock_sub m t.held y hy))
      · split at h
        · simp at h
        · simp at h; subst h
          exact excl_set s i t _ ht he (fun y hy => .inl hy)

/-- No lock is ever held by two threads. -/
theorem C156_excl (ps : List (List Multi)) (l : List Nat) (i j : Nat) (t u : Th) (hij : i ≠ j)
    (ht : (run l (init ps))[i]? = some t) (hu : (run l (init ps))[j]? = some u) : ∀ x ∈ t.held, x ∉ u.held := by
  suffices ∀ l s, Excl s → Excl (run l s) by
    refine this l (init ps) ?_ i j t u hij ht hu
    intro i j t u _ ht _ x hx
    have : t ∈ init ps := List.mem_of_getElem? ht
    simp only [init, List.mem_map] at this
    obtain ⟨p, _, rfl⟩ := this
    simp at hx
  intro l
  induction l with
  | nil => intro s h; exact h
  | cons i l ih =>
    intro s h
    simp only [run]
    cases e : step s i with
    | none => exact ih s h
    | some s' => exact ih s' (step_excl s s' i e h)

example : (run [0, 0, 0, 1, 1] (init [[.two 4 9], [.two 9 4]])) =
    [⟨[4, 9], [], some (.two 4 9), []⟩, ⟨[], [4, 9], some (.two 9 4), []⟩] := by decide

/-- When it is at its end a thread holds nothing. Partial: with `MultiLock2` and different locks only. -/
theorem C156_free_partial (ps : List (List Multi)) (h : ∀ p ∈ ps, ∀ m ∈ p, ∃ a b, m = Multi.two a b ∧ a ≠ b)
    (l : List Nat) (t : Th) (ht : t ∈ run l (init ps)) (hc : t.cur = none) : t.held = [] :=
  ((run_good l _ (init_good ps h) t ht).idle hc).1

/-- `MultiLock3` never unlocks: after one thread locked and unlocked, another waits for ever. -/
theorem C156_three_violated :
    run [0, 0, 0, 0, 0] (init [[.three 1 2 3], [.two 1 2]]) = [⟨[1, 2, 3], [], none, []⟩, ⟨[], [], none, [.two 1 2]⟩] ∧
    step (run [0, 0, 0, 0, 0, 1] (init [[.three 1 2 3], [.two 1 2]])) 1 = none ∧
    step (run [0, 0, 0, 0, 0, 1] (init [[.three 1 2 3], [.two 1 2]])) 0 = none := by decide

/-- The same lock twice: the thread waits for itself. -/
theorem C156_same_violated : step (run [0, 0] (init [[.two 5 5]])) 0 = none ∧
    (run [0, 0] (init [[.two 5 5]])) = [⟨[5], [5], some (.two 5 5), []⟩] := by decide

/-- Trying never returns true: with both locks free it ends without a return; otherwise it says no and holds nothing. -/
theorem C156_try_violated (free : Nat → Bool) (a b : Nat) :
    tryLock2 free a b = if free a && free b then .ub else .no [] := by
  unfold tryLock2
  cases h1 : free a <;> cases h2 : free b <;> simp

example : tryLock2 (fun _ => true) 1 2 = .ub := by decide

end LS.MultiLock

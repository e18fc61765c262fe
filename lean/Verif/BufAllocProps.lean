import Verif.BufAlloc
/-!
# C137: the allocator in a buffer

Specification: the bytes of the blocks the program has are in the buffer and no byte belongs to two blocks; blocks given
back in the opposite order of allocation are reused; a request is refused only when it does not fit.
-/

namespace LS.BufAlloc

/-- The byte at `a` belongs to the block `b`. -/
def has (b : Nat × Nat) (a : Nat) : Prop := b.1 ≤ a ∧ a < b.1 + b.2

/-- No byte belongs to two blocks, and all bytes are below `m`. -/
def Good (m : Nat) (l : List (Nat × Nat)) : Prop :=
  l.Pairwise (fun b c => ∀ a, ¬ (has b a ∧ has c a)) ∧ ∀ b ∈ l, ∀ a, has b a → a < m

/-- Requests are not larger than what is left of the 64-bit numbers. -/
def small (m : Nat) : Op → Bool
  | .alloc n => decide (m + n < W)
  | .createFails n => decide (m + n < W)
  | .dealloc _ _ => true

structure Inv (s : St) : Prop where
  max : s.used ≤ s.max
  word : s.max < W
  low : ∀ b ∈ s.live, 0 < b.2 → b.1 + b.2 ≤ s.used
  dis : s.live.Pairwise (fun b c => ∀ a, ¬ (has b a ∧ has c a))

theorem alloc_inv {s s' : St} {n p : Nat} (h : Inv s) (hn : s.max + n < W) (hs : alloc s n = .ok (p, s')) :
    Inv s' ∧ p = s.used ∧ s'.used = s.used + n ∧ s'.live = (s.used, n) :: s.live ∧ s'.max = s.max := by
  have h1 := h.max
  unfold alloc at hs
  rw [Nat.mod_eq_of_lt (by omega : s.used + n < W)] at hs
  split at hs
  · cases hs
  · cases hs
    refine ⟨⟨by simp only; omega, h.word, ?_, ?_⟩, rfl, rfl, rfl, rfl⟩
    · intro b hb h0
      simp only [List.mem_cons] at hb
      rcases hb with rfl | hb
      · exact Nat.le_refl _
      · have := h.low b hb h0; simp only; omega
    · simp only
      rw [List.pairwise_cons]
      refine ⟨?_, h.dis⟩
      rintro b hb a ⟨⟨x1, x2⟩, ⟨x3, x4⟩⟩
      have := h.low b hb (by omega)
      simp only at x1 x2
      omega

theorem freeAt_eq {u o n : Nat} (h : o + n < W) : freeAt u o n = if o + n ≥ u ∧ o < u then o else u := by
  unfold freeAt
  rw [Nat.mod_eq_of_lt h]

theorem dealloc_inv {s s' : St} {b : Nat × Nat} (h : Inv s) (hs : dealloc s b = .ok s') : Inv s' ∧ s'.max = s.max := by
  unfold dealloc at hs
  split at hs
  · rename_i hb
    cases hs
    have hm := h.max
    have hw := h.word
    have hdis : (s.live.erase b).Pairwise (fun b c => ∀ a, ¬ (has b a ∧ has c a)) := h.dis.sublist List.erase_sublist
    have hle : freeAt s.used b.1 b.2 ≤ s.used := by
      unfold freeAt; split <;> omega
    refine ⟨⟨by simp only; omega, hw, ?_, hdis⟩, rfl⟩
    intro c hc h0
    have hc' := List.mem_of_mem_erase hc
    have c1 := h.low c hc' h0
    simp only
    by_cases z : b.2 = 0
    · have : freeAt s.used b.1 b.2 = s.used := by
        unfold freeAt
        rw [z]
        by_cases lt : b.1 < s.used
        · rw [Nat.add_zero, Nat.mod_eq_of_lt (by omega), if_neg (by omega)]
        · rw [if_neg (by omega)]
      omega
    · have b1 := h.low b hb (by omega)
      rw [freeAt_eq (by omega)]
      split
      · -- the block is the last one
        have hp := (List.perm_cons_erase hb).pairwise_iff (R := fun b c => ∀ a, ¬ (has b a ∧ has c a))
          (fun h a x => h a ⟨x.2, x.1⟩) |>.mp h.dis
        rw [List.pairwise_cons] at hp
        have d := hp.1 c hc
        rcases Nat.lt_or_ge b.1 (c.1 + c.2) with lt | ge
        · exfalso
          exact d (max b.1 c.1) ⟨⟨by omega, by omega⟩, ⟨by omega, by omega⟩⟩
        · exact ge
      · exact c1
  · cases hs

theorem step_inv {s s' : St} {op : Op} (h : Inv s) (hn : small s.max op = true) (hs : step s op = .ok s') : Inv s' ∧ s'.max = s.max := by
  cases op with
  | alloc n =>
    simp only [small, decide_eq_true_eq] at hn
    simp only [step] at hs
    split at hs
    · rename_i p s1 e
      cases hs
      have := alloc_inv h hn e
      exact ⟨this.1, this.2.2.2.2⟩
    · cases hs; exact ⟨h, rfl⟩
    · cases hs
  | dealloc o n => exact dealloc_inv h hs
  | createFails n =>
    simp only [small, decide_eq_true_eq] at hn
    simp only [step] at hs
    split at hs
    · rename_i p s1 e
      have a := alloc_inv h hn e
      have d := dealloc_inv a.1 hs
      exact ⟨d.1, d.2.trans a.2.2.2.2⟩
    · cases hs; exact ⟨h, rfl⟩
    · cases hs

theorem run_inv : ∀ (l : List Op) {s s' : St}, Inv s → (∀ op ∈ l, small s.max op = true) → run s l = .ok s' → Inv s' ∧ s'.max = s.max
  | [], s, s', h, _, hr => by cases hr; exact ⟨h, rfl⟩
  | op :: l, s, s', h, hk, hr => by
    simp only [run] at hr
    split at hr
    · rename_i s1 hs
      obtain ⟨h1, e1⟩ := step_inv h (hk op (List.mem_cons_self ..)) hs
      obtain ⟨h2, e2⟩ := run_inv l h1 (fun o ho => by rw [e1]; exact hk o (List.mem_cons_of_mem _ ho)) hr
      exact ⟨h2, e2.trans e1⟩
    · cases hr

theorem new_inv {m : Nat} (hm : m < W) : Inv (new m) :=
  ⟨Nat.zero_le _, hm, fun _ hb => (by cases hb), List.Pairwise.nil⟩

/-! ## Results -/

/-- **C137 (no overlap).** After every history the blocks are in the buffer and no byte belongs to two of them. -/
theorem C137_blocks_partial (m : Nat) (hm : m < W) (l : List Op) (hl : ∀ op ∈ l, small m op = true) (s : St)
    (hs : run (new m) l = .ok s) : Good m s.live ∧ s.used ≤ m := by
  obtain ⟨h, e⟩ := run_inv l (new_inv hm) hl hs
  have em : s.max = m := e
  refine ⟨⟨h.dis, ?_⟩, ?_⟩
  · intro b hb a ha
    have h1 := h.low b hb (by have := ha.1; have := ha.2; omega)
    have h2 := h.max
    have := ha.2
    omega
  · have := h.max; omega

/-- **C137 (refusal).** A request is refused exactly when it is larger than the rest of the buffer, and the exception
says how much is left. -/
theorem C137_refuse_partial (s : St) (n : Nat) (hu : s.used ≤ s.max) (hn : s.max + n < W) :
    alloc s n = if n ≤ s.max - s.used then .ok (s.used, { s with used := s.used + n, live := (s.used, n) :: s.live })
      else .error (.limit n (s.max - s.used)) := by
  unfold alloc
  rw [Nat.mod_eq_of_lt (by omega : s.used + n < W)]
  have : (s.max + W - s.used) % W = s.max - s.used := by
    have e : s.max + W - s.used = (s.max - s.used) + W := by omega
    rw [e, Nat.add_mod_right, Nat.mod_eq_of_lt (by omega)]
  rw [this]
  by_cases h : n ≤ s.max - s.used
  · rw [if_pos h, if_neg (by omega)]
  · rw [if_neg h, if_pos (by omega)]

/-- Histories in which each block is given back before the blocks allocated before it. `u` is the place of the next
block and `m` the size of the buffer. -/
inductive Nested (m : Nat) : Nat → List Op → Prop
  | nil (u : Nat) : Nested m u []
  | pair (u n : Nat) (l r : List Op) : u + n ≤ m → Nested m (u + n) l → Nested m u r →
      Nested m u (.alloc n :: l ++ .dealloc u n :: r)
  | fails (u n : Nat) (r : List Op) : u + n ≤ m → Nested m u r → Nested m u (.createFails n :: r)

theorem run_append : ∀ (l r : List Op) {s s1 : St}, run s l = .ok s1 → run s (l ++ r) = run s1 r
  | [], r, s, s1, h => by cases h; rfl
  | op :: l, r, s, s1, h => by
    simp only [run] at h
    simp only [List.cons_append, run]
    split at h
    · rename_i s2 hs
      exact run_append l r h
    · cases h

theorem alloc_fit {s : St} {n : Nat} (hw : s.max < W) (hn : s.used + n ≤ s.max) :
    alloc s n = .ok (s.used, { s with used := s.used + n, live := (s.used, n) :: s.live }) := by
  unfold alloc
  rw [Nat.mod_eq_of_lt (by omega : s.used + n < W), if_neg (by omega)]

theorem dealloc_top {u m n : Nat} {l : List (Nat × Nat)} (hw : m < W) (hn : u + n ≤ m) :
    dealloc ⟨u + n, m, (u, n) :: l⟩ (u, n) = .ok ⟨u, m, l⟩ := by
  unfold dealloc
  rw [if_pos (List.mem_cons_self ..), freeAt_eq (by show u + n < W; omega)]
  simp only [List.erase_cons_head]
  by_cases h : n = 0
  · subst h; simp
  · rw [if_pos (by omega)]

/-- **C137 (reuse).** A history in which blocks are given back in the opposite order of allocation runs without refusal
and leaves the allocator as it was. -/
theorem C137_nested (m : Nat) (hw : m < W) (u : Nat) (l : List Op) (h : Nested m u l) (s : St) (hu : s.used = u) (hm : s.max = m) :
    run s l = .ok s := by
  induction h generalizing s with
  | nil u => rfl
  | pair u n l r hn _ _ ih1 ih2 =>
    obtain ⟨us, ms, ls⟩ := s
    simp only at hu hm
    subst hu; subst hm
    have a := alloc_fit (s := ⟨us, ms, ls⟩) (n := n) hw hn
    simp only [List.cons_append, run, step, a]
    rw [run_append l _ (ih1 _ rfl rfl)]
    simp only [run, step]
    rw [dealloc_top hw hn]
    exact ih2 _ rfl rfl
  | fails u n r hn _ ih =>
    obtain ⟨us, ms, ls⟩ := s
    simp only at hu hm
    subst hu; subst hm
    have a := alloc_fit (s := ⟨us, ms, ls⟩) (n := n) hw hn
    simp only [run, step, a]
    rw [dealloc_top hw hn]
    exact ih _ rfl rfl

theorem aligned_run (k m : Nat) : ∀ (l : List Op) (s s' : St), Inv s → s.max = m → k ∣ s.used →
    (∀ b ∈ s.live, k ∣ b.1) → (∀ op ∈ l, small m op = true) →
    (∀ op ∈ l, ∀ n, op = .alloc n ∨ op = .createFails n → k ∣ n) → run s l = .ok s' → (∀ b ∈ s'.live, k ∣ b.1) ∧ k ∣ s'.used := by
  have dstep : ∀ (s s' : St) (b : Nat × Nat), k ∣ s.used → (∀ b ∈ s.live, k ∣ b.1) → dealloc s b = .ok s' →
      (∀ b ∈ s'.live, k ∣ b.1) ∧ k ∣ s'.used := by
    intro s s' b hu hl hs
    unfold dealloc at hs
    split at hs
    · rename_i hb
      cases hs
      refine ⟨fun c hc => hl c (List.mem_of_mem_erase hc), ?_⟩
      simp only [freeAt]
      split
      · exact hl b hb
      · exact hu
    · cases hs
  have astep : ∀ (s s' : St) (n p : Nat), Inv s → s.max + n < W → k ∣ n → k ∣ s.used → (∀ b ∈ s.live, k ∣ b.1) → alloc s n = .ok (p, s') →
      (∀ b ∈ s'.live, k ∣ b.1) ∧ k ∣ s'.used := by
    intro s s' n p h hn kn hu hl hs
    obtain ⟨_, _, e2, e3, _⟩ := alloc_inv h hn hs
    rw [e2, e3]
    refine ⟨?_, Nat.dvd_add hu kn⟩
    intro b hb
    rcases List.mem_cons.mp hb with rfl | hb
    · exact hu
    · exact hl b hb
  intro l
  induction l with
  | nil => intro s s' _ _ hu hl _ _ hr; cases hr; exact ⟨hl, hu⟩
  | cons op l ih =>
    intro s s' h e hu hl hk hd hr
    simp only [run] at hr
    split at hr
    · rename_i s1 hs
      have h1 := step_inv h (by rw [e]; exact hk op (List.mem_cons_self ..)) hs
      have g : (∀ b ∈ s1.live, k ∣ b.1) ∧ k ∣ s1.used := by
        have hk0 := hk op (List.mem_cons_self ..)
        have hd0 := hd op (List.mem_cons_self ..)
        cases op with
        | alloc n =>
          simp only [small, decide_eq_true_eq] at hk0
          simp only [step] at hs
          split at hs
          · rename_i p s2 e2
            cases hs
            exact astep s s1 n p h (by omega) (hd0 n (Or.inl rfl)) hu hl e2
          · cases hs; exact ⟨hl, hu⟩
          · cases hs
        | dealloc o n => exact dstep s s1 _ hu hl hs
        | createFails n =>
          simp only [small, decide_eq_true_eq] at hk0
          simp only [step] at hs
          split at hs
          · rename_i p s2 e2
            obtain ⟨a1, a2⟩ := astep s s2 n p h (by omega) (hd0 n (Or.inr rfl)) hu hl e2
            exact dstep s2 s1 _ a2 a1 hs
          · cases hs; exact ⟨hl, hu⟩
          · cases hs
      exact ih s1 s' h1.1 (h1.2.trans e) g.2 g.1 (fun o ho => hk o (List.mem_cons_of_mem _ ho)) (fun o ho => hd o (List.mem_cons_of_mem _ ho)) hr
    · cases hr

/-- **C137 (alignment).** When all sizes are multiples of `k`, so are the offsets of all blocks. -/
theorem C137_aligned_partial (k m : Nat) (hm : m < W) (l : List Op) (hl : ∀ op ∈ l, small m op = true)
    (hk : ∀ op ∈ l, ∀ n, op = .alloc n ∨ op = .createFails n → k ∣ n) (s : St) (hs : run (new m) l = .ok s) (b : Nat × Nat) (hb : b ∈ s.live) :
    k ∣ b.1 :=
  (aligned_run k m l (new m) s (new_inv hm) rfl (Nat.dvd_zero k) (fun _ hb => (by cases hb)) hl hk hs).1 b hb

def look : Except Err St → Option St
  | .ok s => some s
  | .error _ => none

example : look (run (new 64) [.alloc 8, .alloc 16, .alloc 60, .alloc 8, .dealloc 24 8, .alloc 0, .createFails 4, .alloc 40]) =
    some ⟨64, 64, [(24, 40), (24, 0), (8, 16), (0, 8)]⟩ := by decide

example : Nested 64 0 [.alloc 8, .alloc 16, .createFails 40, .dealloc 8 16, .alloc 56, .dealloc 8 56, .dealloc 0 8] :=
  .pair 0 8 [.alloc 16, .createFails 40, .dealloc 8 16, .alloc 56, .dealloc 8 56] [] (by decide)
    (.pair 8 16 [.createFails 40] _ (by decide) (.fails 24 40 [] (by decide) (.nil _)) (.pair 8 56 [] [] (by decide) (.nil _) (.nil _))) (.nil _)

example : look (run (new 64) [.alloc 8, .alloc 24, .dealloc 0 8, .dealloc 8 24, .alloc 16]) = some ⟨24, 64, [(8, 16)]⟩ := by decide

example : alloc ⟨60, 64, []⟩ 5 = .error (.limit 5 4) := by rfl

/-- **C137 violated**: a size near 2^64 makes `used` smaller, and the next block lies over a block the program has. -/
theorem C137_overflow_violated :
    look (run (new 64) [.alloc 16, .alloc (2 ^ 64 - 8), .alloc 8]) = some ⟨16, 64, [(8, 8), (16, 2 ^ 64 - 8), (0, 16)]⟩ ∧
    has (8, 8) 8 ∧ has (0, 16) 8 ∧ has (16, 2 ^ 64 - 8) 100 := by
  refine ⟨by decide, ?_, ?_, ?_⟩ <;> simp [has]

/-- **C137 violated**: after a block of one byte the next block is not aligned. -/
theorem C137_align_violated : look (run (new 64) [.alloc 1, .alloc 8]) = some ⟨9, 64, [(1, 8), (0, 1)]⟩ := by decide

theorem low_inv (u m : Nat) : ∀ (l : List Op) (s s' : St), Inv s → s.max = m → u ≤ s.used → (∀ b ∈ s.live, u ≤ b.1) →
    (∀ op ∈ l, small m op = true) → run s l = .ok s' → u ≤ s'.used := by
  have dstep : ∀ (s s' : St) (b : Nat × Nat), u ≤ s.used → (∀ b ∈ s.live, u ≤ b.1) → dealloc s b = .ok s' →
      (∀ b ∈ s'.live, u ≤ b.1) ∧ u ≤ s'.used := by
    intro s s' b hu hl hs
    unfold dealloc at hs
    split at hs
    · rename_i hb
      cases hs
      refine ⟨fun c hc => hl c (List.mem_of_mem_erase hc), ?_⟩
      simp only [freeAt]
      split
      · exact hl b hb
      · exact hu
    · cases hs
  have astep : ∀ (s s' : St) (n p : Nat), Inv s → s.max + n < W → u ≤ s.used → (∀ b ∈ s.live, u ≤ b.1) → alloc s n = .ok (p, s') →
      (∀ b ∈ s'.live, u ≤ b.1) ∧ u ≤ s'.used := by
    intro s s' n p h hn hu hl hs
    obtain ⟨_, _, e2, e3, _⟩ := alloc_inv h hn hs
    rw [e2, e3]
    refine ⟨?_, by omega⟩
    intro b hb
    rcases List.mem_cons.mp hb with rfl | hb
    · exact hu
    · exact hl b hb
  intro l
  induction l with
  | nil => intro s s' _ _ hu _ _ hr; cases hr; exact hu
  | cons op l ih =>
    intro s s' h e hu hl hk hr
    simp only [run] at hr
    split at hr
    · rename_i s1 hs
      have h1 := step_inv h (by rw [e]; exact hk op (List.mem_cons_self ..)) hs
      have g : (∀ b ∈ s1.live, u ≤ b.1) ∧ u ≤ s1.used := by
        have hk0 := hk op (List.mem_cons_self ..)
        cases op with
        | alloc n =>
          simp only [small, decide_eq_true_eq] at hk0
          simp only [step] at hs
          split at hs
          · rename_i p s2 e2
            cases hs
            exact astep s s1 n p h (by omega) hu hl e2
          · cases hs; exact ⟨hl, hu⟩
          · cases hs
        | dealloc o n => exact dstep s s1 _ hu hl hs
        | createFails n =>
          simp only [small, decide_eq_true_eq] at hk0
          simp only [step] at hs
          split at hs
          · rename_i p s2 e2
            obtain ⟨a1, a2⟩ := astep s s2 n p h (by omega) hu hl e2
            exact dstep s2 s1 _ a2 a1 hs
          · cases hs; exact ⟨hl, hu⟩
          · cases hs
      exact ih s1 s' h1.1 (h1.2.trans e) g.2 g.1 (fun o ho => hk o (List.mem_cons_of_mem _ ho)) hr
    · cases hr

/-- **C137 violated**: two blocks given back in the order of allocation: the program has nothing, and whatever it does
later the first 8 of 16 bytes are never used again. -/
theorem C137_lost_violated : look (run (new 16) [.alloc 8, .alloc 8, .dealloc 0 8, .dealloc 8 8]) = some ⟨8, 16, []⟩ ∧
    ∀ (l : List Op) (s : St), (∀ op ∈ l, small 16 op = true) → run ⟨8, 16, []⟩ l = .ok s → 8 ≤ s.used ∧ alloc s 9 = .error (.limit 9 (16 - s.used)) := by
  refine ⟨by decide, ?_⟩
  intro l s hl hr
  have hi : Inv ⟨8, 16, []⟩ := ⟨by decide, by decide, fun _ hb => (by cases hb), List.Pairwise.nil⟩
  have h := low_inv 8 16 l _ s hi rfl (by decide) (fun _ hb => by cases hb) hl hr
  obtain ⟨h1, h2⟩ := run_inv l hi hl hr
  have h3 := h1.max
  have h4 : s.max = 16 := h2
  refine ⟨h, ?_⟩
  rw [C137_refuse_partial s 9 h3 (by rw [h4]; decide), h4, if_neg (by omega)]

end LS.BufAlloc

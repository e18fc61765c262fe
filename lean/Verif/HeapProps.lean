import Verif.Heap
/-! # Properties C15, C16, C17: heap sort, heap, priority queue -/

namespace LS.Heap
variable {α : Type}

/-! ## Specification -/

/-- `less` is a strict weak order (the requirement of `std::less`-like comparisons). -/
structure StrictWeak (less : α → α → Bool) : Prop where
  asymm : ∀ a b, less a b = true → less b a = false
  negTrans : ∀ a b c, less a b = false → less b c = false → less a c = false

/-- No item is followed by a smaller one. -/
def Sorted (less : α → α → Bool) (l : List α) : Prop := l.Pairwise fun a b => less b a = false

/-! ## Helper lemmas -/

section
variable {less : α → α → Bool}

/-- `a ≤ b`. -/
def le (less : α → α → Bool) (a b : α) : Prop := less b a = false

theorem le_trans' (hs : StrictWeak less) {a b c : α} (h1 : le less a b) (h2 : le less b c) :
    le less a c := hs.negTrans c b a h2 h1

theorem le_of_less (hs : StrictWeak less) {a b : α} (h : less a b = true) : le less a b :=
  hs.asymm a b h

theorem le_refl' (hs : StrictWeak less) (a : α) : le less a a := by
  unfold le
  cases h : less a a with
  | false => rfl
  | true => exact (hs.asymm a a h).symm.trans h |>.symm

end

/-- Item `i`, or `d` outside of the list. -/
abbrev g (d : α) (l : List α) (i : Nat) : α := l.getD i d

theorem get_g (d : α) {l : List α} {i : Nat} (h : i < l.length) : l[i]? = some (g d l i) := by
  simp [g, h]

theorem swap_spec (d : α) {l : List α} {i j : Nat} (hi : i < l.length) (hj : j < l.length) :
    ∃ l', swap l i j = some l' ∧ l'.length = l.length ∧ l'.Perm l ∧
      g d l' i = g d l j ∧ g d l' j = g d l i ∧
      (∀ k, k ≠ i → k ≠ j → l'[k]? = l[k]?) := by
  refine ⟨(l.set i l[j]).set j l[i], ?_, by simp, List.set_set_perm hi hj, ?_, ?_, ?_⟩
  · simp [swap, hi, hj]
  · by_cases h : i = j
    · subst h; simp [g, hi]
    · simp [g, hi, hj, List.getElem?_set, Ne.symm h]
  · simp [g, hi, hj, List.getElem?_set]
  · intro k h1 h2
    simp [List.getElem?_set, Ne.symm h1, Ne.symm h2]

variable {less : α → α → Bool}

/-- The heap order on the first `n` items. -/
def IsHeap (less : α → α → Bool) (d : α) (l : List α) (n : Nat) : Prop :=
  ∀ i, 0 < i → i < n → le less (g d l i) (g d l ((i - 1) / 2))

theorem siftUp_spec (hs : StrictWeak less) (d : α) (n : Nat) : ∀ (fuel child : Nat) (l : List α),
    child ≤ fuel → child < n → n ≤ l.length →
    (∀ i, 0 < i → i < n → i ≠ child → le less (g d l i) (g d l ((i - 1) / 2))) →
    (∀ i, 0 < i → i < n → (i - 1) / 2 = child → 0 < child →
      le less (g d l i) (g d l ((child - 1) / 2))) →
    ∃ l', siftUp less fuel l child = some l' ∧ l'.length = l.length ∧ l'.Perm l ∧
      IsHeap less d l' n ∧ (∀ k, n ≤ k → l'[k]? = l[k]?) := by
  intro fuel
  induction fuel with
  | zero =>
    intro child l h1 h2 h3 h4 _
    have : child = 0 := by omega
    subst this
    exact ⟨l, by simp [siftUp], rfl, .refl _, fun i hi hn => h4 i hi hn (by omega), fun _ _ => rfl⟩
  | succ fuel ih =>
    intro child l h1 h2 h3 h4 h5
    by_cases hc : child > 0
    · have e1 := get_g d (l := l) (i := (child - 1) / 2) (by omega)
      have e2 := get_g d (l := l) (i := child) (by omega)
      by_cases hl : less (g d l ((child - 1) / 2)) (g d l child) = true
      · obtain ⟨l1, s1, s2, s3, s4, s5, s6⟩ := swap_spec d (l := l) (i := (child - 1) / 2) (j := child)
          (by omega) (by omega)
        have s7 : ∀ k, k ≠ (child - 1) / 2 → k ≠ child → g d l1 k = g d l k := by
          intro k k1 k2; simp only [g, List.getD_eq_getElem?_getD, s6 k k1 k2]
        obtain ⟨l2, t1, t2, t3, t4, t5⟩ := ih ((child - 1) / 2) l1 (by omega) (by omega) (by omega)
          (by
            intro i i1 i2 i3
            by_cases hic : i = child
            · subst hic
              rw [s5, s4]; exact le_of_less hs hl
            · rw [s7 i i3 hic]
              by_cases hp : (i - 1) / 2 = child
              · rw [hp, s5]; exact h5 i i1 i2 hp hc
              · by_cases hq : (i - 1) / 2 = (child - 1) / 2
                · rw [hq, s4]
                  have := h4 i i1 i2 hic
                  rw [hq] at this
                  exact le_trans' hs this (le_of_less hs hl)
                · rw [s7 _ hq hp]; exact h4 i i1 i2 hic)
          (by
            intro i i1 i2 i3 i4
            have hq : g d l1 (((child - 1) / 2 - 1) / 2) = g d l (((child - 1) / 2 - 1) / 2) :=
              s7 _ (by omega) (by omega)
            have hpp := h4 ((child - 1) / 2) i4 (by omega) (by omega)
            rw [hq]
            by_cases hic : i = child
            · subst hic; rw [s5]; exact hpp
            · rw [s7 i (by omega) hic]
              have := h4 i i1 i2 hic
              rw [i3] at this
              exact le_trans' hs this hpp)
        refine ⟨l2, ?_, by omega, t3.trans s3, t4, ?_⟩
        · simp only [siftUp, if_pos hc, e1, e2, hl, if_true, s1, t1]
        · intro k hk; rw [t5 k hk, s6 k (by omega) (by omega)]
      · refine ⟨l, by simp only [siftUp, if_pos hc, e1, e2, hl, Bool.false_eq_true, if_false], rfl,
          .refl _, ?_, fun _ _ => rfl⟩
        intro i i1 i2
        by_cases hic : i = child
        · subst hic; simpa [le] using hl
        · exact h4 i i1 i2 hic
    · exact ⟨l, by simp only [siftUp, if_neg hc], rfl, .refl _,
        fun i hi hn => h4 i hi hn (by omega), fun _ _ => rfl⟩

theorem siftDown_spec (hs : StrictWeak less) (d : α) (n : Nat) : ∀ (fuel root : Nat) (l : List α),
    n ≤ fuel + root → n ≤ l.length →
    (∀ i, 0 < i → i < n → (i - 1) / 2 ≠ root → le less (g d l i) (g d l ((i - 1) / 2))) →
    (∀ i, 0 < i → i < n → (i - 1) / 2 = root → 0 < root →
      le less (g d l i) (g d l ((root - 1) / 2))) →
    ∃ l', siftDown less n fuel l root = some l' ∧ l'.length = l.length ∧ l'.Perm l ∧
      IsHeap less d l' n ∧ (∀ k, n ≤ k → l'[k]? = l[k]?) := by
  intro fuel
  induction fuel with
  | zero =>
    intro root l h1 h2 h4 _
    refine ⟨l, by rw [siftDown, if_neg (by omega)], rfl, .refl _, ?_, fun _ _ => rfl⟩
    intro i i1 i2
    exact h4 i i1 i2 (by omega)
  | succ fuel ih =>
    intro root l h1 h2 h4 h5
    by_cases hc : root * 2 + 1 < n
    · -- the chosen child
      obtain ⟨c, hpick, hcr, hcn, hmax⟩ : ∃ c,
          pickChild less n l root = some c ∧ (c - 1) / 2 = root ∧ (root < c ∧ c < n) ∧
          ∀ i, 0 < i → i < n → (i - 1) / 2 = root → le less (g d l i) (g d l c) := by
        unfold pickChild
        by_cases h2c : root * 2 + 1 + 1 < n
        · rw [if_pos h2c, get_g d (by omega), get_g d (by omega)]
          by_cases hl : less (g d l (root * 2 + 1)) (g d l (root * 2 + 1 + 1)) = true
          · refine ⟨root * 2 + 1 + 1, by simp only [hl, if_true], by omega, by omega, ?_⟩
            intro i i1 i2 i3
            have : i = root * 2 + 1 ∨ i = root * 2 + 1 + 1 := by omega
            rcases this with rfl | rfl
            · exact le_of_less hs hl
            · exact le_refl' hs _
          · refine ⟨root * 2 + 1, by simp only [hl, Bool.false_eq_true, if_false], by omega,
              by omega, ?_⟩
            intro i i1 i2 i3
            have : i = root * 2 + 1 ∨ i = root * 2 + 1 + 1 := by omega
            rcases this with rfl | rfl
            · exact le_refl' hs _
            · simpa [le] using hl
        · rw [if_neg h2c]
          refine ⟨root * 2 + 1, rfl, by omega, by omega, ?_⟩
          intro i i1 i2 i3
          have : i = root * 2 + 1 := by omega
          subst this; exact le_refl' hs _
      have e1 := get_g d (l := l) (i := root) (by omega)
      have e2 := get_g d (l := l) (i := c) (by omega)
      by_cases hl : less (g d l root) (g d l c) = true
      · obtain ⟨l1, s1, s2, s3, s4, s5, s6⟩ := swap_spec d (l := l) (i := root) (j := c)
          (by omega) (by omega)
        have s7 : ∀ k, k ≠ root → k ≠ c → g d l1 k = g d l k := by
          intro k k1 k2; simp only [g, List.getD_eq_getElem?_getD, s6 k k1 k2]
        obtain ⟨l2, t1, t2, t3, t4, t5⟩ := ih c l1 (by omega) (by omega)
          (by
            intro i i1 i2 i3
            by_cases hir : (i - 1) / 2 = root
            · rw [hir, s4]
              by_cases hic : i = c
              · subst hic; rw [s5]; exact le_of_less hs hl
              · rw [s7 i (by omega) hic]; exact hmax i i1 i2 hir
            · rw [s7 _ hir i3]
              by_cases hi2 : i = root
              · subst hi2
                rw [s4]
                exact h5 c (by omega) hcn.2 hcr (by omega)
              · rw [s7 i hi2 (by rintro rfl; exact hir hcr)]
                exact h4 i i1 i2 hir)
          (by
            intro i i1 i2 i3 _
            rw [hcr, s4, s7 i (by omega) (by omega)]
            have := h4 i i1 i2 (by omega)
            rwa [i3] at this)
        refine ⟨l2, ?_, by omega, t3.trans s3, t4, ?_⟩
        · simp only [siftDown, if_pos hc, hpick, e1, e2, hl, if_true, s1, t1]
        · intro k hk; rw [t5 k hk, s6 k (by omega) (by omega)]
      · refine ⟨l, by simp only [siftDown, if_pos hc, hpick, e1, e2, hl, Bool.false_eq_true, if_false],
          rfl, .refl _, ?_, fun _ _ => rfl⟩
        intro i i1 i2
        by_cases hic : (i - 1) / 2 = root
        · rw [hic]
          have : le less (g d l c) (g d l root) := by simpa [le] using hl
          exact le_trans' hs (hmax i i1 i2 hic) this
        · exact h4 i i1 i2 hic
    · refine ⟨l, by simp only [siftDown, if_neg hc], rfl, .refl _, ?_, fun _ _ => rfl⟩
      intro i i1 i2
      exact h4 i i1 i2 (by omega)

theorem heap_max (hs : StrictWeak less) (d : α) {l : List α} {n : Nat} (h : IsHeap less d l n) :
    ∀ i, i < n → le less (g d l i) (g d l 0) := by
  intro i
  induction i using Nat.strongRecOn with
  | ind i ih =>
    intro hi
    by_cases h0 : i = 0
    · subst h0; exact le_refl' hs _
    · exact le_trans' hs (h i (by omega) hi) (ih ((i - 1) / 2) (by omega) (by omega))

/-- The heap holds `heapSize ≤ length` items in heap order. -/
structure Good (less : α → α → Bool) (h : Heap α) : Prop where
  le : h.heapSize ≤ h.cont.length
  heap : ∀ d, IsHeap less d h.cont h.heapSize

theorem push_spec (hs : StrictWeak less) {h : Heap α} (hg : Good less h)
    (hlt : h.heapSize < h.cont.length) :
    ∃ h', push less h = some (true, h') ∧ Good less h' ∧ h'.heapSize = h.heapSize + 1 ∧
      h'.cont.Perm h.cont ∧ h'.cont.length = h.cont.length ∧
      (∀ k, h.heapSize + 1 ≤ k → h'.cont[k]? = h.cont[k]?) := by
  have key : ∀ d, ∃ l', siftUp less h.heapSize h.cont h.heapSize = some l' ∧
      l'.length = h.cont.length ∧ l'.Perm h.cont ∧ IsHeap less d l' (h.heapSize + 1) ∧
      (∀ k, h.heapSize + 1 ≤ k → l'[k]? = h.cont[k]?) := by
    intro d
    refine siftUp_spec hs d (h.heapSize + 1) h.heapSize h.heapSize h.cont (by omega) (by omega)
      (by omega) ?_ ?_
    · intro i i1 i2 i3; exact hg.heap d i i1 (by omega)
    · intro i i1 i2 i3 _; omega
  obtain ⟨l', k1, k2, k3, k4, k5⟩ := key h.cont[h.heapSize]
  refine ⟨{ cont := l', heapSize := h.heapSize + 1 }, ?_, ⟨?_, ?_⟩, rfl, k3, k2, k5⟩
  · simp only [push, if_pos hlt, k1]
  · show h.heapSize + 1 ≤ l'.length; omega
  · intro d
    obtain ⟨l2, m1, -, -, m4, -⟩ := key d
    rw [k1] at m1; cases m1; exact m4

theorem pop_spec (hs : StrictWeak less) {h : Heap α} (hg : Good less h) (hlt : 0 < h.heapSize) :
    ∃ h', pop less h = some (true, h') ∧ Good less h' ∧ h'.heapSize = h.heapSize - 1 ∧
      h'.cont.Perm h.cont ∧ h'.cont.length = h.cont.length ∧
      h'.cont[h.heapSize - 1]? = h.cont[0]? ∧
      (∀ k, h.heapSize ≤ k → h'.cont[k]? = h.cont[k]?) := by
  have hle := hg.le
  by_cases h1 : h.heapSize = 1
  · refine ⟨{ h with heapSize := h.heapSize - 1 }, ?_, ⟨?_, ?_⟩, rfl, .refl _, rfl, ?_, fun _ _ => rfl⟩
    · simp only [pop, if_pos hlt, h1]; rfl
    · show h.heapSize - 1 ≤ h.cont.length; omega
    · intro d i i1 i2; simp only at i2; omega
    · simp [h1]
  · have key : ∀ d, ∃ l1 l', swap h.cont 0 (h.heapSize - 1) = some l1 ∧
        siftDown less (h.heapSize - 1) (h.heapSize - 1) l1 0 = some l' ∧
        l1.length = h.cont.length ∧
        l'.length = h.cont.length ∧ l'.Perm h.cont ∧ IsHeap less d l' (h.heapSize - 1) ∧
        g d l' (h.heapSize - 1) = g d h.cont 0 ∧
        (∀ k, h.heapSize ≤ k → l'[k]? = h.cont[k]?) := by
      intro d
      obtain ⟨l1, s1, s2, s3, s4, s5, s6⟩ := swap_spec d (l := h.cont) (i := 0)
        (j := h.heapSize - 1) (by omega) (by omega)
      have s7 : ∀ k, k ≠ 0 → k ≠ h.heapSize - 1 → g d l1 k = g d h.cont k := by
        intro k k1 k2; simp only [g, List.getD_eq_getElem?_getD, s6 k k1 k2]
      obtain ⟨l', t1, t2, t3, t4, t5⟩ := siftDown_spec hs d (h.heapSize - 1) (h.heapSize - 1) 0 l1
        (by omega) (by omega)
        (by
          intro i i1 i2 i3
          rw [s7 i (by omega) (by omega), s7 ((i - 1) / 2) i3 (by omega)]
          exact hg.heap d i i1 (by omega))
        (by intro i _ _ _ h0; omega)
      refine ⟨l1, l', s1, t1, s2, by omega, t3.trans s3, t4, ?_, ?_⟩
      · simp only [g, List.getD_eq_getElem?_getD, t5 (h.heapSize - 1) (by omega)]
        simpa [g, List.getD_eq_getElem?_getD] using s5
      · intro k hk; rw [t5 k (by omega), s6 k (by omega) (by omega)]
    have hpos : 0 < h.cont.length := by omega
    obtain ⟨l1, l', k1, k2, k2', k3, k4, k5, k6, k7⟩ := key h.cont[0]
    have hsd : shiftDown less { cont := l1, heapSize := h.heapSize - 1 } 0 =
        some { cont := l', heapSize := h.heapSize - 1 } := by
      unfold shiftDown
      split
      · simp only [k2]
      · next hh =>
        simp only at hh
        -- a heap of one item: the loop does nothing
        have : h.heapSize - 1 = 1 := by omega
        rw [this] at k2
        simp [siftDown] at k2
        rw [k2]
    refine ⟨{ cont := l', heapSize := h.heapSize - 1 }, ?_, ⟨?_, ?_⟩, rfl, k4, k3, ?_, k7⟩
    · have : h.heapSize - 1 > 0 := by omega
      simp only [pop, if_pos hlt, if_pos this, k1, hsd]
    · show h.heapSize - 1 ≤ l'.length; omega
    · intro d
      obtain ⟨m1, m2, n1, n2, -, -, -, n5, -⟩ := key d
      rw [k1] at n1; cases n1
      rw [k2] at n2; cases n2
      exact n5
    · simp only
      rw [get_g h.cont[0] (by omega), k6, ← get_g h.cont[0] hpos]

theorem makeHeap_spec (hs : StrictWeak less) (fuel : Nat) : ∀ (h : Heap α), Good less h →
    h.cont.length ≤ fuel + h.heapSize →
    ∃ h', makeHeap less fuel h = some h' ∧ Good less h' ∧ h'.heapSize = h.cont.length ∧
      h'.cont.Perm h.cont := by
  induction fuel with
  | zero =>
    intro h hg hf
    have := hg.le
    exact ⟨h, by rw [makeHeap, if_neg (by omega)], hg, by omega, .refl _⟩
  | succ fuel ih =>
    intro h hg hf
    have := hg.le
    by_cases hlt : h.heapSize < h.cont.length
    · obtain ⟨h1, a1, a2, a3, a4, a5, -⟩ := push_spec hs hg hlt
      obtain ⟨h2, b1, b2, b3, b4⟩ := ih h1 a2 (by omega)
      exact ⟨h2, by simp only [makeHeap, if_pos hlt, a1, b1], b2, by omega, b4.trans a4⟩
    · exact ⟨h, by rw [makeHeap, if_neg hlt], hg, by omega, .refl _⟩

theorem sortHeap_spec (hs : StrictWeak less) (d : α) (fuel : Nat) : ∀ (h : Heap α), Good less h →
    h.heapSize ≤ fuel →
    (∀ i j, i < j → j < h.cont.length → h.heapSize ≤ j → le less (g d h.cont i) (g d h.cont j)) →
    ∃ h', sortHeap less fuel h = some h' ∧ h'.cont.Perm h.cont ∧
      h'.cont.length = h.cont.length ∧
      (∀ i j, i < j → j < h'.cont.length → le less (g d h'.cont i) (g d h'.cont j)) := by
  induction fuel with
  | zero =>
    intro h hg hf hsuf
    exact ⟨h, by rw [sortHeap, if_neg (by omega)], .refl _, rfl, fun i j h1 h2 =>
      hsuf i j h1 h2 (by omega)⟩
  | succ fuel ih =>
    intro h hg hf hsuf
    have hle := hg.le
    by_cases hlt : h.heapSize > 0
    · obtain ⟨h1, a1, a2, a3, a4, a5, a6, a7⟩ := pop_spec hs hg hlt
      have a8 : ∀ k, h.heapSize ≤ k → g d h1.cont k = g d h.cont k := by
        intro k hk; simp only [g, List.getD_eq_getElem?_getD, a7 k hk]
      have a9 : g d h1.cont (h.heapSize - 1) = g d h.cont 0 := by
        simp only [g, List.getD_eq_getElem?_getD, a6]
      have hmem : ∀ i, i < h.heapSize → ∃ j, j < h.heapSize ∧ g d h1.cont i = g d h.cont j := by
        intro i hi
        have p1 : (h1.cont.take h.heapSize).Perm (h.cont.take h.heapSize) := by
          have e : h1.cont.drop h.heapSize = h.cont.drop h.heapSize := by
            apply List.ext_getElem?
            intro k
            rw [List.getElem?_drop, List.getElem?_drop, a7 _ (by omega)]
          have := a4
          rw [← List.take_append_drop h.heapSize h1.cont, ← List.take_append_drop h.heapSize h.cont,
            e] at this
          exact (List.perm_append_right_iff _).1 this
        have m1 : g d h1.cont i ∈ h1.cont.take h.heapSize := by
          rw [List.mem_take_iff_getElem]
          refine ⟨i, by omega, ?_⟩
          simp [g, show i < h1.cont.length by omega]
        have m2 := p1.mem_iff.1 m1
        obtain ⟨j, hj, hj2⟩ := List.mem_take_iff_getElem.1 m2
        refine ⟨j, by omega, ?_⟩
        rw [← hj2]; simp [g, show j < h.cont.length by omega]
      obtain ⟨h2, b1, b2, b3, b4⟩ := ih h1 a2 (by omega) (by
        intro i j hij hj hjn
        by_cases hj2 : j = h.heapSize - 1
        · subst hj2
          rw [a9]
          obtain ⟨k, hk, e⟩ := hmem i (by omega)
          rw [e]; exact heap_max hs d (hg.heap d) k hk
        · rw [a8 j (by omega)]
          by_cases hi : i < h.heapSize
          · obtain ⟨k, hk, e⟩ := hmem i hi
            rw [e]; exact hsuf k j (by omega) (by omega) (by omega)
          · rw [a8 i (by omega)]; exact hsuf i j hij (by omega) (by omega))
      exact ⟨h2, by simp only [sortHeap, if_pos hlt, a1, b1], b2.trans a4, by omega, b4⟩
    · exact ⟨h, by rw [sortHeap, if_neg hlt], .refl _, rfl, fun i j h1 h2 =>
        hsuf i j h1 h2 (by omega)⟩

/-! ## Property theorems -/

/-- C15: for every strict weak order and every container, `HeapSort::sort` terminates without an
out-of-range access and leaves a sorted permutation of the original contents. -/
theorem C15_heapsort_sorts (hs : StrictWeak less) (l : List α) :
    ∃ l', sort less l = some l' ∧ l'.Perm l ∧ Sorted less l' := by
  obtain ⟨h1, a1, a2, a3, a4⟩ := makeHeap_spec hs l.length { cont := l }
    ⟨Nat.zero_le _, fun d i _ h => absurd h (by simp)⟩ (by simp)
  cases l with
  | nil => exact ⟨[], rfl, .refl _, .nil⟩
  | cons d l =>
    obtain ⟨h2, b1, b2, b3, b4⟩ := sortHeap_spec hs d h1.heapSize h1 a2 (Nat.le_refl _) (by
      intro i j _ hj hn
      rw [a4.length_eq] at hj
      simp only at hj a3
      omega)
    refine ⟨h2.cont, ?_, b2.trans a4, ?_⟩
    · simp only [sort, a1, b1]
    · rw [Sorted, List.pairwise_iff_getElem]
      intro i j hi hj hij
      have := b4 i j hij hj
      simpa [g, le, hi, hj] using this

/-- Operations of a heap user; a heap works on the leading `heapSize` items of its container. -/
inductive HOp where
  | push
  | pop
deriving DecidableEq

/-- A history on a heap over a container. -/
def runOps (less : α → α → Bool) : List HOp → Heap α → Option (Heap α)
  | [], h => some h
  | .push :: os, h => (push less h).bind fun p => runOps less os p.2
  | .pop :: os, h => (pop less h).bind fun p => runOps less os p.2

/-- The items currently in the heap. -/
def items (h : Heap α) : List α := h.cont.take h.heapSize

theorem good_init (l : List α) : Good less { cont := l } :=
  ⟨Nat.zero_le _, fun d i _ h => absurd h (by simp)⟩

theorem push_full {h : Heap α} (hf : ¬ h.heapSize < h.cont.length) : push less h = some (false, h) := by
  rw [push, if_neg hf]

theorem pop_empty {h : Heap α} (hf : ¬ 0 < h.heapSize) : pop less h = some (false, h) := by
  rw [pop, if_neg hf]

theorem runOps_good (hs : StrictWeak less) (os : List HOp) : ∀ h, Good less h →
    ∃ h', runOps less os h = some h' ∧ Good less h' ∧ h'.cont.Perm h.cont := by
  induction os with
  | nil => intro h hg; exact ⟨h, rfl, hg, .refl _⟩
  | cons o os ih =>
    intro h hg
    cases o with
    | push =>
      by_cases hlt : h.heapSize < h.cont.length
      · obtain ⟨h1, a1, a2, -, a4, -⟩ := push_spec hs hg hlt
        obtain ⟨h2, b1, b2, b3⟩ := ih h1 a2
        exact ⟨h2, by simp [runOps, a1, b1], b2, b3.trans a4⟩
      · obtain ⟨h2, b1, b2, b3⟩ := ih h hg
        exact ⟨h2, by simp [runOps, push_full hlt, b1], b2, b3⟩
    | pop =>
      by_cases hlt : 0 < h.heapSize
      · obtain ⟨h1, a1, a2, -, a4, -⟩ := pop_spec hs hg hlt
        obtain ⟨h2, b1, b2, b3⟩ := ih h1 a2
        exact ⟨h2, by simp [runOps, a1, b1], b2, b3.trans a4⟩
      · obtain ⟨h2, b1, b2, b3⟩ := ih h hg
        exact ⟨h2, by simp [runOps, pop_empty hlt, b1], b2, b3⟩

theorem perm_take {a b : List α} {n : Nat} (h : a.Perm b) (hd : ∀ k, n ≤ k → a[k]? = b[k]?) :
    (a.take n).Perm (b.take n) := by
  have e : a.drop n = b.drop n := by
    apply List.ext_getElem?
    intro k
    rw [List.getElem?_drop, List.getElem?_drop, hd _ (by omega)]
  rw [← List.take_append_drop n a, ← List.take_append_drop n b, e] at h
  exact (List.perm_append_right_iff _).1 h

/-- C16: after any history of pushes and pops, no item of a non-empty heap is above `top()`,
and `top()` is itself in the heap. -/
theorem C16_top_is_maximal (hs : StrictWeak less) (l : List α) (os : List HOp) :
    ∃ h, runOps less os { cont := l } = some h ∧ h.cont.Perm l ∧
      (items h ≠ [] → ∃ t, top h = some t ∧ t ∈ items h ∧ ∀ x ∈ items h, less t x = false) := by
  obtain ⟨h, h1, h2, h3⟩ := runOps_good hs os { cont := l } (good_init l)
  refine ⟨h, h1, h3, ?_⟩
  intro hne
  have hle := h2.le
  have hpos : 0 < h.heapSize := by
    rcases Nat.eq_zero_or_pos h.heapSize with h0 | h0
    · simp [items, h0] at hne
    · exact h0
  have hl : 0 < h.cont.length := by omega
  refine ⟨h.cont[0], by simp [top, hl], ?_, ?_⟩
  · rw [items, List.mem_take_iff_getElem]; exact ⟨0, by omega, rfl⟩
  · intro x hx
    obtain ⟨j, hj, rfl⟩ := List.mem_take_iff_getElem.1 hx
    have := heap_max hs h.cont[0] (h2.heap h.cont[0]) j (by omega)
    have hj' : j < h.cont.length := by omega
    simpa [g, le, hl, hj'] using this

/-- C16: `push` adds exactly the next container item to the heap, or reports `false` when the
container has no more. -/
theorem C16_push_adds (hs : StrictWeak less) (l : List α) (os : List HOp) (h : Heap α)
    (hr : runOps less os { cont := l } = some h) :
    (∀ x, h.cont[h.heapSize]? = some x →
      ∃ h', push less h = some (true, h') ∧ (items h').Perm (items h ++ [x])) ∧
    (h.cont[h.heapSize]? = none → push less h = some (false, h)) := by
  obtain ⟨h0, h1, h2, -⟩ := runOps_good hs os { cont := l } (good_init l)
  rw [hr] at h1; cases h1
  constructor
  · intro x hx
    have hlt : h.heapSize < h.cont.length := by
      rw [List.getElem?_eq_some_iff] at hx; exact hx.1
    obtain ⟨h', a1, -, a3, a4, -, a6⟩ := push_spec hs h2 hlt
    refine ⟨h', a1, ?_⟩
    have := perm_take a4 a6
    rw [items, a3]
    rwa [List.take_add_one (l := h.cont), hx] at this
  · intro hx
    rw [List.getElem?_eq_none_iff] at hx
    exact push_full (by omega)

/-- C16: `pop` takes exactly the top item out of the heap (it is put right behind the remaining
items) and keeps all others; on an empty heap it reports `false`. -/
theorem C16_pop_removes_top (hs : StrictWeak less) (l : List α) (os : List HOp) (h : Heap α)
    (hr : runOps less os { cont := l } = some h) :
    (∀ t, items h ≠ [] → top h = some t →
      ∃ h', pop less h = some (true, h') ∧ (items h' ++ [t]).Perm (items h) ∧
        h'.cont[h'.heapSize]? = some t) ∧
    (items h = [] → pop less h = some (false, h)) := by
  obtain ⟨h0, h1, h2, -⟩ := runOps_good hs os { cont := l } (good_init l)
  rw [hr] at h1; cases h1
  have hle := h2.le
  constructor
  · intro t hne ht
    have hpos : 0 < h.heapSize := by
      rcases Nat.eq_zero_or_pos h.heapSize with h0 | h0
      · simp [items, h0] at hne
      · exact h0
    obtain ⟨h', a1, -, a3, a4, -, a6, a7⟩ := pop_spec hs h2 hpos
    rw [show h.cont[0]? = some t from ht] at a6
    refine ⟨h', a1, ?_, by rw [a3]; exact a6⟩
    have := perm_take a4 a7
    rw [items, items, a3]
    obtain ⟨n, hn⟩ : ∃ n, h.heapSize = n + 1 := ⟨h.heapSize - 1, by omega⟩
    rw [hn] at this a6 ⊢
    rw [List.take_add_one (l := h'.cont)] at this
    simp only [Nat.add_sub_cancel] at a6 ⊢
    rwa [a6] at this
  · intro he
    refine pop_empty ?_
    have h4 := congrArg List.length he
    rw [items, List.length_take, List.length_nil] at h4
    omega

/-! ### Priority queue -/

/-- Pushing a sequence of items into an empty queue. -/
def pushAll (less : α → α → Bool) : List α → Heap α → Option (Heap α)
  | [], q => some q
  | x :: xs, q => (PQ.push less q x).bind (pushAll less xs)

/-- Popping `n` times. -/
def popN (less : α → α → Bool) : Nat → Heap α → Option (Heap α)
  | 0, q => some q
  | n + 1, q => (PQ.pop less q).bind (popN less n)

/-- The queue's array holds exactly the heap. -/
structure PGood (less : α → α → Bool) (q : Heap α) : Prop extends Good less q where
  all : q.heapSize = q.cont.length

theorem pq_push (hs : StrictWeak less) {q : Heap α} (h : PGood less q) (x : α) :
    ∃ q', PQ.push less q x = some q' ∧ PGood less q' ∧ q'.cont.Perm (q.cont ++ [x]) := by
  have hg : Good less { q with cont := q.cont ++ [x] } := by
    refine ⟨by simp [h.all], ?_⟩
    intro d i i1 i2
    have := h.heap d i i1 i2
    have hi : i < q.cont.length := by simp only at i2; have := h.all; omega
    simp only [g, List.getD_eq_getElem?_getD] at this ⊢
    rw [List.getElem?_append_left hi, List.getElem?_append_left (by omega)]
    exact this
  obtain ⟨q', a1, a2, a3, a4, a5, -⟩ := push_spec hs hg (by simp [h.all])
  refine ⟨q', by simp [PQ.push, a1], ⟨a2, ?_⟩, a4⟩
  have := h.all
  simp only [List.length_append, List.length_cons, List.length_nil] at a3 a5
  omega

theorem pushAll_spec (hs : StrictWeak less) (xs : List α) : ∀ q, PGood less q →
    ∃ q', pushAll less xs q = some q' ∧ PGood less q' ∧ q'.cont.Perm (q.cont ++ xs) := by
  induction xs with
  | nil => intro q h; exact ⟨q, rfl, h, by simp⟩
  | cons x xs ih =>
    intro q h
    obtain ⟨q1, a1, a2, a3⟩ := pq_push hs h x
    obtain ⟨q2, b1, b2, b3⟩ := ih q1 a2
    refine ⟨q2, by simp [pushAll, a1, b1], b2, b3.trans ?_⟩
    have := a3.append_right xs
    rwa [List.append_assoc] at this

/-- C17 (part that holds): after pushing any items, the queue's length is right and its top is a
maximal pushed item. Missing: everything after a `pop`, which removes the wrong number of items
(`C17_pop_violated`). -/
theorem C17_push_top_partial (hs : StrictWeak less) (xs : List α) :
    ∃ q, pushAll less xs { cont := [] } = some q ∧ PQ.length q = xs.length ∧
      PQ.empty q = xs.isEmpty ∧
      (xs ≠ [] → ∃ t, PQ.top q = some t ∧ t ∈ xs ∧ ∀ x ∈ xs, less t x = false) := by
  obtain ⟨q, a1, a2, a3⟩ := pushAll_spec hs xs { cont := [] }
    ⟨good_init [], rfl⟩
  simp only [List.nil_append] at a3
  have hall := a2.all
  have hlen := a3.length_eq
  refine ⟨q, a1, ?_, ?_, ?_⟩
  · show q.heapSize = _; omega
  · rw [PQ.empty, Bool.eq_iff_iff, List.isEmpty_iff, List.isEmpty_iff,
      ← List.length_eq_zero_iff, hlen, List.length_eq_zero_iff]
  · intro hne
    have := List.length_pos_iff.2 hne
    have hl : 0 < q.cont.length := by omega
    refine ⟨q.cont[0], by simp [PQ.top, hl], a3.mem_iff.1 (List.getElem_mem hl), ?_⟩
    intro x hx
    obtain ⟨j, hj, rfl⟩ := List.getElem_of_mem (a3.mem_iff.2 hx)
    have := heap_max hs q.cont[0] (a2.heap q.cont[0]) j (by omega)
    simpa [g, le, hl, hj] using this

/-- C17 is false for the code: of three items one `pop` removes two, and after three pushes and
three pops an item is still there. -/
theorem C17_pop_violated :
    (pushAll (fun a b => decide (a < b)) [1, 2, 3] { cont := [] } = some { cont := [3, 1, 2], heapSize := 3 }) ∧
    ((pushAll (fun a b => decide (a < b)) [1, 2, 3] { cont := [] }).bind
      (PQ.pop fun a b => decide (a < b)) = some { cont := [2], heapSize := 2 }) ∧
    ((pushAll (fun a b => decide (a < b)) [1] { cont := [] }).bind
      (PQ.pop fun a b => decide (a < b)) = some { cont := [1], heapSize := 0 }) := by
  decide

/-- In general: a pop of a queue of `n ≥ 1` items always leaves exactly one item in the array. -/
theorem C17_pop_leaves_one_violated (hs : StrictWeak less) (xs : List α) (hne : xs ≠ []) :
    ∃ q, (pushAll less xs { cont := [] }).bind (PQ.pop less) = some q ∧ q.cont.length = 1 := by
  obtain ⟨q, a1, a2, a3⟩ := pushAll_spec hs xs { cont := [] } ⟨good_init [], rfl⟩
  have := List.length_pos_iff.2 hne
  have hl := a3.length_eq
  simp only [List.nil_append] at hl
  have hall := a2.all
  obtain ⟨q', b1, b2, b3, b4, b5, -⟩ := pop_spec hs a2.toGood (by omega)
  refine ⟨_, by simp [a1, PQ.pop, b1]; rfl, ?_⟩
  simp only [trunc, List.length_take]
  omega

/-! ### `pop(at)` -/

/-- `HeapSort::pop(at)` breaks the heap: after removing position 1 of a heap the top stays right
but the heap order is lost, so a later top is not maximal. -/
theorem C16_popAt_violated :
    makeHeap (fun a b => decide (a < b)) 7 { cont := [9, 8, 5, 7, 6, 4, 3] } =
      some { cont := [9, 8, 5, 7, 6, 4, 3], heapSize := 7 } ∧
    popAt (fun a b => decide (a < b)) { cont := [9, 8, 5, 7, 6, 4, 3], heapSize := 7 } 1 =
      some (true, { cont := [9, 3, 5, 7, 6, 4, 8], heapSize := 6 }) ∧
    (pop (fun a b => decide (a < b)) { cont := [9, 3, 5, 7, 6, 4, 8], heapSize := 6 }).map
      (fun p => (top p.2, items p.2)) = some (some 5, [5, 3, 4, 7, 6]) := by
  decide

/-! ### Concrete cases -/
theorem natLess : StrictWeak (fun a b : Nat => decide (a < b)) :=
  ⟨by intro a b h; simp at *; omega, by intro a b c h1 h2; simp at *; omega⟩
example : sort (fun a b => decide (a < b)) [3, 1, 2, 5, 4, 1] = some [1, 1, 2, 3, 4, 5] := by decide
example : runOps (fun a b => decide (a < b)) [.push, .push, .pop, .push, .push] { cont := [3, 7, 9, 1] } =
    some { cont := [9, 3, 7, 1], heapSize := 3 } := by decide

end LS.Heap

/-
C159: an array in a block of fixed size. Model: `Verif/InBlock.lean`.
-/
import Verif.InBlock

namespace LS.InBlock

variable {T : Type}

theorem room (s : St T) (n : Nat) (hb : s.items.length + n < M) :
    s.addExtra n = decide (s.items.length + n ≤ s.sz / s.w) := by
  simp only [St.addExtra, St.cap, Nat.mod_eq_of_lt hb]
  split
  · rename_i h
    have : ¬ s.items.length + n ≤ s.sz / s.w := by omega
    rw [decide_eq_false this]
    split <;> rfl
  · rename_i h
    have : s.items.length + n ≤ s.sz / s.w := by omega
    rw [decide_eq_true this]

/-- Adding adds when all items have room in the block, otherwise it refuses and nothing changes. Partial: the number of items
does not leave the range of numbers. -/
theorem C159_add_partial (s : St T) (x : T) (n : Nat) (hb : s.items.length + n < M) :
    s.add x n = if s.items.length + n ≤ s.sz / s.w then .ok ⟨s.sz, s.w, s.items ++ List.replicate n x⟩ else .limit s := by
  simp only [St.add, room s n hb, decide_eq_true_eq]
  split
  · rename_i h
    cases n with
    | zero => simp [St.write]
    | succ n =>
      simp only [St.write]
      have h1 := Nat.mul_le_mul_right s.w h
      have h2 := Nat.div_mul_le_self s.sz s.w
      have e : s.items.length + (n + 1) = s.items.length + n + 1 := by omega
      rw [e] at h1
      rw [if_neg (by omega)]
  · rfl

example : (St.mk 20 8 ['a']).add 'b' 1 = .ok ⟨20, 8, ['a', 'b']⟩ ∧ (St.mk 20 8 ['a', 'b']).add 'c' 1 = .limit ⟨20, 8, ['a', 'b']⟩ := by
  decide

/-- Resizing: the first items stay, new ones have the given value; refused when the block has no room, and nothing changes. -/
theorem C159_resize (s : St T) (n : Nat) (x : T) (hn : n < M) :
    s.resize n x = if n ≤ s.items.length ∨ n ≤ s.sz / s.w
      then .ok ⟨s.sz, s.w, s.items.take n ++ List.replicate (n - s.items.length) x⟩ else .limit s := by
  simp only [St.resize]
  split
  · rename_i h
    rw [C159_add_partial s x _ (by omega)]
    have e : s.items.length + (n - s.items.length) = n := by omega
    rw [e, List.take_of_length_le (by omega)]
    by_cases c : n ≤ s.sz / s.w
    · rw [if_pos c, if_pos (.inr c)]
    · rw [if_neg c, if_neg (by omega)]
  · rename_i h
    rw [if_pos (.inl (by omega))]
    have : n - s.items.length = 0 := by omega
    simp [this]

example : (St.mk 33 8 ['a']).resize 4 'b' = .ok ⟨33, 8, ['a', 'b', 'b', 'b']⟩ := by decide

/-- A table made for `k` items takes the places below `k`, and never a place at `k` or above: a thread variable made after the
thread started cannot be set in it. -/
theorem C159_table (k w i : Nat) (x : T) (hw : 0 < w) (hi : i + 1 < M) (s : St T) (hs : s.sz = k * w) (hsw : s.w = w)
    (hl : s.items.length ≤ i) :
    (i < k → ∃ s', s.resize (i + 1) x = .ok s' ∧ s'.items.length = i + 1) ∧ (k ≤ i → s.resize (i + 1) x = .limit s) := by
  have e : s.sz / s.w = k := by rw [hs, hsw]; exact Nat.mul_div_cancel k hw
  rw [C159_resize s (i + 1) x hi, e]
  constructor
  · intro h
    rw [if_pos (.inr (by omega))]
    exact ⟨_, rfl, by simp; omega⟩
  · intro h
    rw [if_neg (by omega)]

example : (St.mk 24 8 ([] : List Nat)).resize 3 7 = .ok ⟨24, 8, [7, 7, 7]⟩ ∧ (St.mk 24 8 ([] : List Nat)).resize 4 7 = .limit ⟨24, 8, []⟩ := by
  decide

/-- Reserving and giving back change nothing; reserving says whether there is room; giving back never fails. -/
theorem C159_reserve (s : St T) (n : Nat) (hn : n < M) :
    (s.reserve n = if n ≤ s.items.length ∨ n ≤ s.sz / s.w then .ok s else .limit s) ∧ s.freeExtra = .ok s := by
  constructor
  · simp only [St.reserve]
    split
    · rename_i h
      rw [room s _ (by omega)]
      have e : s.items.length + (n - s.items.length) = n := by omega
      simp only [e, decide_eq_true_eq]
      by_cases c : n ≤ s.sz / s.w
      · rw [if_pos c, if_pos (.inr c)]
      · rw [if_neg c, if_neg (by omega)]
    · rw [if_pos (.inl (by omega))]
  · simp only [St.freeExtra]
    split
    · rename_i h
      have : s.cap ≤ s.sz := Nat.div_le_self _ _
      simp only [alloc]
      rw [if_neg (by omega)]
    · rfl

/-- Numbers of the calls. -/
def Op.num : Op T → Nat
  | .add _ => 1
  | .addN _ n => n
  | .resize n _ => n
  | .reserve n => n
  | .freeExtra => 0

/-- Any calls stay in the block. Partial: numbers together with the size of the block are in the range. -/
theorem C159_inside_partial (l : List (Op T)) : ∀ (s : St T), s.items.length ≤ s.sz / s.w → (∀ o ∈ l, s.sz + o.num < M) →
    ∃ s', run l s = .ok s' ∧ s'.sz = s.sz ∧ s'.w = s.w ∧ s'.items.length * s'.w ≤ s'.sz := by
  induction l with
  | nil =>
    intro s h _
    exact ⟨s, rfl, rfl, rfl, Nat.le_trans (Nat.mul_le_mul_right _ h) (Nat.div_mul_le_self _ _)⟩
  | cons o l ih =>
    intro s h hb
    have hd := Nat.div_le_self s.sz s.w
    have ho := hb o (by simp)
    have hl : ∀ p ∈ l, s.sz + p.num < M := fun p hp => hb p (by simp [hp])
    have same : ∃ s', run l s = .ok s' ∧ s'.sz = s.sz ∧ s'.w = s.w ∧ s'.items.length * s'.w ≤ s'.sz := ih s h hl
    have addc : ∀ x n, s.sz + n < M → ∃ s', (match s.add x n with
        | .ok s' => run l s' | .limit s' => run l s' | .ub => .ub) = R.ok s' ∧
        s'.sz = s.sz ∧ s'.w = s.w ∧ s'.items.length * s'.w ≤ s'.sz := by
      intro x n hn
      rw [C159_add_partial s x n (by omega)]
      by_cases c : s.items.length + n ≤ s.sz / s.w
      · rw [if_pos c]
        exact ih ⟨s.sz, s.w, s.items ++ List.replicate n x⟩ (by simpa using c) hl
      · rw [if_neg c]; exact same
    simp only [run]
    cases o with
    | add x => exact addc x 1 ho
    | addN x n => exact addc x n ho
    | resize n x =>
      have hn : s.sz + n < M := ho
      simp only [St.op]
      rw [C159_resize s n x (by omega)]
      by_cases c : n ≤ s.items.length ∨ n ≤ s.sz / s.w
      · rw [if_pos c]
        exact ih ⟨s.sz, s.w, s.items.take n ++ List.replicate (n - s.items.length) x⟩ (by simp; omega) hl
      · rw [if_neg c]; exact same
    | reserve n =>
      have hn : s.sz + n < M := ho
      simp only [St.op]
      rw [(C159_reserve s n (by omega)).1]
      by_cases c : n ≤ s.items.length ∨ n ≤ s.sz / s.w
      · rw [if_pos c]; exact same
      · rw [if_neg c]; exact same
    | freeExtra =>
      simp only [St.op]
      rw [(C159_reserve s 0 (by simp [M])).2]; exact same

example : run [.add 'a', .resize 3 'b', .add 'c', .reserve 9, .resize 1 'z', .addN 'd' 2, .freeExtra] (St.mk 31 8 []) =
    .ok ⟨31, 8, ['a', 'd', 'd']⟩ := by decide

/-- The memory asked for `count` items may be smaller: items are compared with bytes. -/
theorem C159_units_violated : alloc 16 8 16 = some 2 := by decide

/-- Too great a count leaves the range of numbers, passes the test, and items are written outside. -/
theorem C159_wrap_violated : (St.mk 16 8 ['a']).add 'b' (2 ^ 64 - 1) = .ub := by
  have h : (St.mk 16 8 ['a']).addExtra (2 ^ 64 - 1) = true := by decide
  simp only [St.add, h, if_true]
  rfl

end LS.InBlock

/-! Shared arithmetic facts about machine words, kept apart from every model. -/

namespace LS

theorem and_255 (n : Nat) : n &&& 255 = n % 256 := Nat.and_two_pow_sub_one_eq_mod n 8
theorem and_63 (n : Nat) : n &&& 63 = n % 64 := Nat.and_two_pow_sub_one_eq_mod n 6
theorem and_31 (n : Nat) : n &&& 31 = n % 32 := Nat.and_two_pow_sub_one_eq_mod n 5
theorem and_15 (n : Nat) : n &&& 15 = n % 16 := Nat.and_two_pow_sub_one_eq_mod n 4
theorem and_7 (n : Nat) : n &&& 7 = n % 8 := Nat.and_two_pow_sub_one_eq_mod n 3
theorem and_3 (n : Nat) : n &&& 3 = n % 4 := Nat.and_two_pow_sub_one_eq_mod n 2
theorem and_1 (n : Nat) : n &&& 1 = n % 2 := Nat.and_two_pow_sub_one_eq_mod n 1

/-- `(a << k) | b` is addition when `b` fits below bit `k`. -/
theorem shl_or (a b k : Nat) (h : b < 2 ^ k) : (a <<< k) ||| b = a * 2 ^ k + b := by
  rw [← Nat.shiftLeft_add_eq_or_of_lt h, Nat.shiftLeft_eq]

theorem or_shl (a b k : Nat) (h : b < 2 ^ k) : b ||| (a <<< k) = a * 2 ^ k + b := by
  rw [Nat.or_comm, shl_or a b k h]

theorem or_add {a b k : Nat} (m : Nat) (ha : a = m * 2 ^ k) (h : b < 2 ^ k) : a ||| b = a + b := by
  rw [ha, ← Nat.shiftLeft_eq, ← Nat.shiftLeft_add_eq_or_of_lt h]

/-- A byte string: every element is below 256. -/
def Bytes (l : List Nat) : Prop := ∀ b ∈ l, b < 256

instance (l : List Nat) : Decidable (Bytes l) := inferInstanceAs (Decidable (∀ b ∈ l, b < 256))

@[simp] theorem Bytes_nil : Bytes [] := by intro b hb; simp at hb
@[simp] theorem Bytes_cons {a : Nat} {l : List Nat} : Bytes (a :: l) ↔ a < 256 ∧ Bytes l := by
  simp [Bytes]
@[simp] theorem Bytes_append {l m : List Nat} : Bytes (l ++ m) ↔ Bytes l ∧ Bytes m := by
  simp only [Bytes, List.mem_append]; constructor
  · intro h; exact ⟨fun b hb => h b (Or.inl hb), fun b hb => h b (Or.inr hb)⟩
  · rintro ⟨h1, h2⟩ b (hb | hb)
    · exact h1 b hb
    · exact h2 b hb

end LS

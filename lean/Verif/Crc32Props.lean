import Verif.Crc32
/-! # Properties C62, C63: the checksum is the standard CRC-32 and detects bursts -/

namespace LS.Crc

/-! ## Specification -/

/-- The reflected generator polynomial of CRC-32. -/
def poly : BitVec 32 := 0xEDB88320

/-- One message bit through the reflected shift register. -/
def bitStep (crc : BitVec 32) (bit : Bool) : BitVec 32 :=
  if crc.getLsbD 0 ^^ bit then (crc >>> 1) ^^^ poly else crc >>> 1

/-- Bits of a byte, least significant first. -/
def bitsOfByte (b : BitVec 8) : List Bool := (List.range 8).map b.getLsbD

/-- The bits of a message in transmission order. -/
def bits (m : List (BitVec 8)) : List Bool := m.flatMap bitsOfByte

/-- Bitwise CRC-32 of a bit string: register preset to ones, result complemented. -/
def crcBits (m : List Bool) : BitVec 32 := ~~~ (m.foldl bitStep (BitVec.allOnes 32))

/-- Bitwise CRC-32 of a byte string. -/
def crc32 (m : List (BitVec 8)) : BitVec 32 := crcBits (bits m)

/-! ## Helper lemmas -/

/-- The register step without input. -/
def L (x : BitVec 32) : BitVec 32 := if x.getLsbD 0 then (x >>> 1) ^^^ poly else x >>> 1

def Lk : Nat → BitVec 32 → BitVec 32
  | 0, x => x
  | n + 1, x => Lk n (L x)

theorem L_xor (x y : BitVec 32) : L (x ^^^ y) = L x ^^^ L y := by
  simp only [L, BitVec.getLsbD_xor, BitVec.ushiftRight_xor_distrib]
  cases x.getLsbD 0 <;> cases y.getLsbD 0 <;> simp
  · ac_rfl
  · ac_rfl
  · rw [show x >>> 1 ^^^ poly ^^^ (y >>> 1 ^^^ poly) = x >>> 1 ^^^ y >>> 1 ^^^ (poly ^^^ poly) by ac_rfl]
    simp

theorem Lk_xor (n : Nat) : ∀ (x y : BitVec 32), Lk n (x ^^^ y) = Lk n x ^^^ Lk n y := by
  induction n with
  | zero => intro x y; rfl
  | succ n ih => intro x y; simp only [Lk, L_xor, ih]

theorem xor_zero_iff (x y : BitVec 32) : x ^^^ y = 0 ↔ x = y := by
  constructor
  · intro h
    have := congrArg (· ^^^ y) h
    simpa [BitVec.xor_assoc] using this
  · rintro rfl; simp

theorem L_msb (x : BitVec 32) : (L x).getLsbD 31 = x.getLsbD 0 := by
  unfold L
  cases h : x.getLsbD 0
  · simp
  · simp [poly]

theorem L_zero {x : BitVec 32} (h : L x = 0) : x = 0 := by
  have h0 : x.getLsbD 0 = false := by rw [← L_msb, h]; simp
  have h1 : x >>> 1 = 0 := by simpa only [L, h0, Bool.false_eq_true, if_false] using h
  apply BitVec.eq_of_getLsbD_eq
  intro i hi
  cases i with
  | zero => simpa using h0
  | succ i =>
    have := congrArg (BitVec.getLsbD · i) h1
    simpa [BitVec.getLsbD_ushiftRight, Nat.add_comm] using this

theorem L_inj {x y : BitVec 32} (h : L x = L y) : x = y := by
  rw [← xor_zero_iff]; apply L_zero; rw [L_xor, h]; simp

theorem Lk_inj (n : Nat) : ∀ {x y : BitVec 32}, Lk n x = Lk n y → x = y := by
  induction n with
  | zero => intro x y h; exact h
  | succ n ih => intro x y h; exact L_inj (ih h)

/-- A bit list as a register word, first bit lowest. -/
def word : List Bool → BitVec 32
  | [] => 0
  | b :: bs => (word bs <<< 1) ^^^ (if b then 1 else 0)

theorem bitStep_eq (c : BitVec 32) (b : Bool) : bitStep c b = L (c ^^^ if b then 1 else 0) := by
  unfold bitStep L
  have h1 : (1#32).getLsbD 0 = true := by decide
  have h2 : (1#32) >>> 1 = 0 := by decide
  cases b
  · simp
  · simp only [if_true, BitVec.getLsbD_xor, BitVec.ushiftRight_xor_distrib, h1, h2]
    cases c.getLsbD 0 <;> simp

theorem word_bound (bs : List Bool) : ∀ i, bs.length ≤ i → (word bs).getLsbD i = false := by
  induction bs with
  | nil => intro i _; simp [word]
  | cons b bs ih =>
    intro i hi
    simp only [List.length_cons] at hi
    obtain ⟨j, rfl⟩ : ∃ j, i = j + 1 := ⟨i - 1, by omega⟩
    simp only [word, BitVec.getLsbD_xor, BitVec.getLsbD_shiftLeft, Nat.add_sub_cancel,
      ih j (by omega)]
    cases b <;> simp

theorem L_shl {x : BitVec 32} (h : x.getLsbD 31 = false) : L (x <<< 1) = x := by
  have h0 : (x <<< 1).getLsbD 0 = false := by simp
  simp only [L, h0, Bool.false_eq_true, if_false]
  apply BitVec.eq_of_getLsbD_eq
  intro i hi
  simp only [BitVec.getLsbD_ushiftRight, BitVec.getLsbD_shiftLeft]
  by_cases h31 : i = 31
  · subst h31; rw [h]; simp
  · have : 1 + i < 32 := by omega
    simp [this]

/-- Feeding up to 32 bits is xoring them into the register and stepping. -/
theorem feed (bs : List Bool) : ∀ (c : BitVec 32), bs.length ≤ 32 →
    bs.foldl bitStep c = Lk bs.length (c ^^^ word bs) := by
  induction bs with
  | nil => intro c _; simp [Lk, word]
  | cons b bs ih =>
    intro c h
    simp only [List.length_cons] at h
    have e : ∀ y : BitVec 32, c ^^^ ((word bs <<< 1) ^^^ y) = (c ^^^ y) ^^^ (word bs <<< 1) := by
      intro y; ac_rfl
    rw [List.foldl_cons, ih _ (by omega), bitStep_eq, List.length_cons, Lk, word, e,
      L_xor _ (word bs <<< 1), L_shl (word_bound bs 31 (by omega))]

theorem word_inj : ∀ (a b : List Bool), a.length = b.length → a.length ≤ 32 → word a = word b → a = b := by
  intro a b h1 h2 h3
  have key : ∀ (bs : List Bool) (i : Nat), bs.length ≤ 32 → i < bs.length →
      (word bs).getLsbD i = bs.getD i false := by
    intro bs
    induction bs with
    | nil => intro i _ hi; simp at hi
    | cons c bs ih =>
      intro i hl hi
      simp only [List.length_cons] at hl hi
      cases i with
      | zero => cases c <;> simp [word]
      | succ i =>
        have := ih i (by omega) (by omega)
        have h32 : i + 1 < 32 := by omega
        simp only [word, BitVec.getLsbD_xor, BitVec.getLsbD_shiftLeft, Nat.add_sub_cancel, this]
        cases c <;> simp [h32]
  apply List.ext_getElem h1
  intro i hi1 hi2
  have e1 := key a i h2 hi1
  have e2 := key b i (by omega) hi2
  rw [h3, e2] at e1
  simpa [hi1, hi2] using e1.symm

theorem Lk_add (m : Nat) : ∀ (n : Nat) (x : BitVec 32), Lk (m + n) x = Lk n (Lk m x) := by
  induction m with
  | zero => intro n x; simp [Lk]
  | succ m ih => intro n x; rw [show m + 1 + n = (m + n) + 1 by omega, Lk, ih, Lk]

theorem L_even {x : BitVec 32} (h : x.getLsbD 0 = false) : L x = x >>> 1 := by
  simp only [L, h, Bool.false_eq_true, if_false]

theorem Lk_high (n : Nat) : ∀ (x : BitVec 32), (∀ i < n, x.getLsbD i = false) → Lk n x = x >>> n := by
  induction n with
  | zero => intro x _; simp [Lk]
  | succ n ih =>
    intro x h
    rw [Lk, L_even (h 0 (by omega)), ih, ← BitVec.shiftRight_add, Nat.add_comm]
    intro i hi
    rw [BitVec.getLsbD_ushiftRight]
    exact h _ (by omega)

theorem split8 (x : BitVec 32) : x = (x &&& ~~~ 0xff#32) ^^^ (x &&& 0xff#32) := by
  apply BitVec.eq_of_getLsbD_eq
  intro i hi
  simp only [BitVec.getLsbD_xor, BitVec.getLsbD_and, BitVec.getLsbD_not, hi, decide_true, Bool.true_and]
  cases x.getLsbD i <;> cases (0xff#32).getLsbD i <;> rfl

theorem mask_low : ∀ i < 8, (0xff#32).getLsbD i = true := by decide
theorem mask_high : ∀ i < 32, 8 ≤ i → (0xff#32).getLsbD i = false := by decide

theorem Lk8 (x : BitVec 32) : Lk 8 x = (x >>> 8) ^^^ Lk 8 (x &&& 0xff#32) := by
  conv => lhs; rw [split8 x, Lk_xor]
  congr 1
  rw [Lk_high]
  · apply BitVec.eq_of_getLsbD_eq
    intro i hi
    simp only [BitVec.getLsbD_ushiftRight, BitVec.getLsbD_and, BitVec.getLsbD_not]
    by_cases h : 8 + i < 32
    · rw [mask_high _ h (by omega)]; simp [h]
    · simp [h, BitVec.getLsbD_of_ge x (8 + i) (by omega)]
  · intro i hi
    rw [BitVec.getLsbD_and, BitVec.getLsbD_not, mask_low i hi]; simp

/-- The table holds the register after eight steps for each low byte. -/
theorem table_ok : ∀ i < 256, table.getD i 0 = Lk 8 (BitVec.ofNat 32 i) := by decide +kernel

theorem table_get (x : BitVec 32) : table.getD (x &&& 0xff#32).toNat 0 = Lk 8 (x &&& 0xff#32) := by
  have h : (x &&& 0xff#32).toNat < 256 := by
    rw [BitVec.toNat_and]
    exact Nat.lt_of_le_of_lt Nat.and_le_right (by decide)
  rw [table_ok _ h, BitVec.ofNat_toNat, BitVec.setWidth_eq]

theorem word_byte : ∀ b : BitVec 8, word (bitsOfByte b) = b.setWidth 32 := by decide +kernel

theorem write_eq (c : BitVec 32) (b : BitVec 8) : write c b = (bitsOfByte b).foldl bitStep c := by
  have hl : (bitsOfByte b).length = 8 := by simp [bitsOfByte]
  have hb : b.setWidth 32 >>> 8 = 0#32 := by
    apply BitVec.eq_of_getLsbD_eq
    intro i hi
    simp
  rw [feed _ _ (by omega), hl, word_byte, Lk8, write, table_get, BitVec.ushiftRight_xor_distrib, hb]
  simp

theorem blockWrite_eq (m : List (BitVec 8)) : ∀ c, blockWrite c m = (bits m).foldl bitStep c := by
  induction m with
  | nil => intro c; rfl
  | cons b m ih =>
    intro c
    have : blockWrite c (b :: m) = blockWrite (write c b) m := rfl
    rw [this, ih, write_eq, ← List.foldl_append]
    rfl

theorem bitStep_inj {x y : BitVec 32} {b : Bool} (h : bitStep x b = bitStep y b) : x = y := by
  rw [bitStep_eq, bitStep_eq] at h
  have := L_inj h
  have h2 := congrArg (· ^^^ (if b then 1 else 0 : BitVec 32)) this
  simpa [BitVec.xor_assoc] using h2

theorem foldl_inj (s : List Bool) : ∀ {x y : BitVec 32}, s.foldl bitStep x = s.foldl bitStep y → x = y := by
  induction s with
  | nil => intro x y h; exact h
  | cons b s ih => intro x y h; exact bitStep_inj (ih h)

/-! ## Property theorems -/

/-- C62: however the data is divided into blocks, the checksum is the bitwise CRC-32 of the
concatenation. -/
theorem C62_crc_standard (blocks : List (List (BitVec 8))) :
    checksum blocks = crc32 blocks.flatten := by
  have h : ∀ c, blocks.foldl blockWrite c = (bits blocks.flatten).foldl bitStep c := by
    induction blocks with
    | nil => intro c; rfl
    | cons b bs ih =>
      intro c
      rw [List.foldl_cons, ih, blockWrite_eq, List.flatten_cons]
      simp [bits]
  rw [checksum, h, crc32, crcBits, getCrc32]
  rfl

/-- C63 at bit level: two different bit strings whose difference lies inside a window of at most
32 consecutive bits have different checksums. -/
theorem C63_bit_burst (p u v s : List Bool) (hl : u.length = v.length) (h32 : u.length ≤ 32)
    (hne : u ≠ v) : crcBits (p ++ u ++ s) ≠ crcBits (p ++ v ++ s) := by
  intro h
  apply hne
  simp only [crcBits, List.foldl_append] at h
  have h1 := congrArg (~~~ ·) h
  simp only [BitVec.not_not] at h1
  have h2 := foldl_inj s h1
  rw [feed u _ h32, feed v _ (by omega), hl] at h2
  have h3 := Lk_inj _ h2
  have h4 := congrArg (p.foldl bitStep (BitVec.allOnes 32) ^^^ ·) h3
  simp only [← BitVec.xor_assoc, BitVec.xor_self, BitVec.zero_xor] at h4
  exact word_inj _ _ hl h32 h4

theorem bitsOfByte_inj {a b : BitVec 8} (h : bitsOfByte a = bitsOfByte b) : a = b := by
  have := congrArg word h
  rw [word_byte, word_byte] at this
  have h2 := congrArg (BitVec.setWidth 8) this
  simpa using h2

theorem bits_length (m : List (BitVec 8)) : (bits m).length = 8 * m.length := by
  induction m with
  | nil => rfl
  | cons b m ih =>
    rw [bits, List.flatMap_cons, List.length_append, ← bits, ih]
    simp [bitsOfByte]; omega

theorem bits_inj : ∀ {a b : List (BitVec 8)}, a.length = b.length → bits a = bits b → a = b
  | [], [], _, _ => rfl
  | x :: a, y :: b, hl, h => by
    simp only [bits, List.flatMap_cons] at h
    obtain ⟨h1, h2⟩ := List.append_inj h (by simp [bitsOfByte])
    rw [bitsOfByte_inj h1, bits_inj (by simpa using hl) h2]

/-- C63: two different byte strings which differ only inside a window of at most four consecutive
bytes have different checksums, however each of them is fed. -/
theorem C63_crc_burst (p u v s : List (BitVec 8)) (hl : u.length = v.length) (h4 : u.length ≤ 4)
    (hne : u ≠ v) (x y : List (List (BitVec 8))) (hx : x.flatten = p ++ u ++ s)
    (hy : y.flatten = p ++ v ++ s) : checksum x ≠ checksum y := by
  rw [C62_crc_standard, C62_crc_standard, hx, hy]
  simp only [crc32, bits, List.flatMap_append]
  refine C63_bit_burst _ (bits u) (bits v) _ ?_ ?_ ?_
  · rw [bits_length, bits_length, hl]
  · rw [bits_length]; omega
  · intro h; exact hne (bits_inj hl h)

/-! ### Concrete cases -/

/-- The check value of CRC-32 ("123456789"), fed in two blocks. -/
example : checksum [[0x31, 0x32, 0x33, 0x34], [0x35, 0x36, 0x37, 0x38, 0x39]] = 0xCBF43926 := by
  decide +kernel
example : crc32 [0x31, 0x32, 0x33, 0x34, 0x35, 0x36, 0x37, 0x38, 0x39] = 0xCBF43926 := by
  decide +kernel
example : checksum [[1, 2, 3, 4, 5, 6]] ≠ checksum [[1, 9, 3, 4, 7, 6]] :=
  C63_crc_burst [1] [2, 3, 4, 5] [9, 3, 4, 7] [6] rfl (by decide) (by decide) _ _ rfl rfl

end LS.Crc

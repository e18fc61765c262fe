/-
Results about numbers as text: C57 (round trip), C92 (`numberToString` and its buffer), C93 (what a parsed
number is).
-/
import Verif.NumText

namespace LS.NumText

/-! ## What a numeral denotes -/

namespace Spec

/-- The value of a letter: 0-9, A-Z, a-z. -/
def letter (c : Nat) : Option Nat :=
  if 48 ≤ c ∧ c < 58 then some (c - 48)
  else if 65 ≤ c ∧ c < 91 then some (c - 55)
  else if 97 ≤ c ∧ c < 123 then some (c - 87)
  else none

/-- The number which letters denote when they follow letters which denote `acc`. -/
def valueFrom (base acc : Nat) : List Nat → Option Nat
  | [] => some acc
  | c :: l =>
    match letter c with
    | none => none
    | some d => if d < base then valueFrom base (acc * base + d) l else none

/-- The number which a text denotes. -/
def value (base : Nat) (t : List Nat) : Option Nat := if t = [] then none else valueFrom base 0 t

/-- The number which a text with an optional sign denotes. -/
def valueS (base : Nat) (t : List Nat) : Option Int :=
  match t with
  | 43 :: l => (value base l).map Int.ofNat
  | 45 :: l => (value base l).map fun (n : Nat) => -(n : Int)
  | l => (value base l).map Int.ofNat

end Spec

example : Spec.value 16 [49, 70, 102] = some 511 := by decide
example : Spec.valueS 10 [45, 52, 50] = some (-42) := by decide
example : Spec.value 8 [56] = none := by decide

theorem valueFrom_append (base : Nat) (s : List Nat) : ∀ (t : List Nat) (acc : Nat),
    Spec.valueFrom base acc (t ++ s) = (Spec.valueFrom base acc t).bind fun n => Spec.valueFrom base n s := by
  intro t
  induction t with
  | nil => intro acc; rfl
  | cons c l ih =>
    intro acc
    rw [List.cons_append, Spec.valueFrom, Spec.valueFrom]
    cases Spec.letter c with
    | none => rfl
    | some d =>
      simp only
      split
      · exact ih _
      · rfl

theorem letter_digitChar (up : Bool) (x : Nat) (h : x < 36) : Spec.letter (digitChar up x) = some x := by
  unfold Spec.letter digitChar
  cases up <;> simp only [Bool.false_eq_true, if_false, if_true] <;> by_cases h9 : x > 9 <;> simp only [h9, if_true, if_false]
  · rw [if_neg (by omega), if_neg (by omega), if_pos (by omega)]; congr 1; omega
  · rw [if_pos (by omega)]; congr 1; omega
  · rw [if_neg (by omega), if_pos (by omega)]; congr 1; omega
  · rw [if_pos (by omega)]; congr 1; omega

/-- What `extract` gives: the digits, without zeros in front. -/
structure Numeral (base val : Nat) (t : List Nat) : Prop where
  value : Spec.valueFrom base 0 t = some val
  ne : t ≠ []
  lead : 0 < val → t.head? ≠ some 48
  upper : val < base ^ t.length
  lower : 0 < val → base ^ (t.length - 1) ≤ val
  range : ∀ c ∈ t, 48 ≤ c ∧ c < 123

theorem digitChar_range (up : Bool) (x : Nat) (h : x < 36) : 48 ≤ digitChar up x ∧ digitChar up x < 123 := by
  unfold digitChar
  cases up <;> by_cases h9 : x > 9 <;> simp [h9] <;> omega

theorem extract_numeral {base : Nat} (up : Bool) (h2 : 2 ≤ base) (h36 : base ≤ 36) : ∀ (fuel val : Nat), 0 < fuel → val < 2 ^ fuel →
    ∃ t, extract fuel val base up = some t ∧ Numeral base val t := by
  intro fuel
  induction fuel with
  | zero => intro val h; omega
  | succ fuel ih =>
    intro val _ hv
    have hm : val % base < 36 := Nat.lt_of_lt_of_le (Nat.mod_lt _ (by omega)) h36
    have hmb : val % base < base := Nat.mod_lt _ (by omega)
    have hr := digitChar_range up _ hm
    rw [extract, if_neg (by omega)]
    by_cases hb : val ≥ base
    · rw [if_pos hb]
      have hf : 0 < fuel := by
        rcases Nat.eq_zero_or_pos fuel with rfl | h
        · omega
        · exact h
      have hq : val / base < 2 ^ fuel := by
        rw [Nat.div_lt_iff_lt_mul (by omega)]
        rw [Nat.pow_succ] at hv
        exact Nat.lt_of_lt_of_le hv (Nat.mul_le_mul_left _ h2)
      obtain ⟨t, e, hn⟩ := ih (val / base) hf hq
      have hdm := Nat.div_add_mod val base
      have hqp : 0 < val / base := Nat.div_pos hb (by omega)
      refine ⟨t ++ [digitChar up (val % base)], by rw [e]; rfl, ?_, by simp, ?_, ?_, ?_, ?_⟩
      · rw [valueFrom_append, hn.value]
        show Spec.valueFrom base (val / base) [_] = _
        rw [Spec.valueFrom, letter_digitChar up _ hm]
        simp only [if_pos hmb, Spec.valueFrom]
        rw [Nat.mul_comm, hdm]
      · intro _
        obtain ⟨c, l, rfl⟩ := List.exists_cons_of_ne_nil hn.ne
        exact hn.lead hqp
      · rw [List.length_append, List.length_singleton, Nat.pow_succ]
        have := hn.upper
        calc val = base * (val / base) + val % base := hdm.symm
          _ < base * (val / base) + base := by omega
          _ = (val / base + 1) * base := by rw [Nat.mul_comm, ← Nat.succ_mul]
          _ ≤ base ^ t.length * base := Nat.mul_le_mul_right _ this
      · intro _
        have h1 := hn.lower hqp
        have hl : 0 < t.length := List.length_pos_iff.mpr hn.ne
        have : (t ++ [digitChar up (val % base)]).length - 1 = (t.length - 1) + 1 := by simp; omega
        rw [this, Nat.pow_succ]
        calc base ^ (t.length - 1) * base ≤ val / base * base := Nat.mul_le_mul_right _ h1
          _ ≤ val := Nat.div_mul_le_self _ _
      · intro c hc
        rcases List.mem_append.mp hc with h | h
        · exact hn.range c h
        · rw [List.mem_singleton.mp h]; exact hr
    · rw [if_neg hb]
      have e : val % base = val := Nat.mod_eq_of_lt (by omega)
      refine ⟨_, rfl, ?_, by simp, ?_, ?_, ?_, ?_⟩
      · rw [Spec.valueFrom, letter_digitChar up _ hm]
        simp only [Spec.valueFrom, Nat.zero_mul, Nat.zero_add]
        rw [if_pos hmb, e]
      · intro hp
        rw [e]
        simp only [List.head?_cons, ne_eq, Option.some.injEq]
        unfold digitChar
        cases up <;> by_cases h9 : val > 9 <;> simp [h9] <;> omega
      · simp; omega
      · simp; omega
      · intro c hc
        rw [List.mem_singleton.mp hc]; exact hr

theorem numeral_zero {base : Nat} (h2 : 2 ≤ base) : Numeral base 0 [48] := by
  refine ⟨?_, by simp, by omega, by simp; omega, by omega, by simp⟩
  have : Spec.letter 48 = some 0 := by decide
  rw [Spec.valueFrom, this]
  simp only [if_pos (show 0 < base by omega), Spec.valueFrom, Nat.zero_mul, Nat.add_zero]

theorem toStrU_numeral {base val : Nat} (up : Bool) (h2 : 2 ≤ base) (h36 : base ≤ 36) (hv : val < 2 ^ 64) :
    ∃ t, toStrU val base up = some t ∧ Numeral base val t := by
  unfold toStrU
  by_cases h : val = 0
  · subst h; exact ⟨_, rfl, numeral_zero h2⟩
  · rw [if_neg h]; exact extract_numeral up h2 h36 64 val (by decide) hv

/-- `ToString` on a `natural`: a text which denotes it, with no zero in front, of the least length. -/
theorem c57_toString_natural {base val : Nat} (up : Bool) (h2 : 2 ≤ base) (h36 : base ≤ 36) (hv : val < 2 ^ 64) :
    ∃ t, toStrU val base up = some t ∧ Spec.value base t = some val ∧ (0 < val → t.head? ≠ some 48) ∧
      val < base ^ t.length ∧ (0 < val → base ^ (t.length - 1) ≤ val) := by
  obtain ⟨t, e, h⟩ := toStrU_numeral up h2 h36 hv
  exact ⟨t, e, by unfold Spec.value; rw [if_neg h.ne, h.value], h.lead, h.upper, h.lower⟩

/-! ## Parsing -/

theorem digitOf_of_letter {c d : Nat} (h : Spec.letter c = some d) : digitOf c = some d ∧ digitOf' c = some d ∧ c % 256 ≠ 43 ∧ c % 256 ≠ 45 := by
  unfold Spec.letter at h
  unfold digitOf digitOf'
  split at h
  · have e : c % 256 = c := Nat.mod_eq_of_lt (by omega)
    simp only [e]
    rw [if_pos (by omega)]
    exact ⟨h, h, by omega, by omega⟩
  · split at h
    · have e : c % 256 = c := Nat.mod_eq_of_lt (by omega)
      simp only [e]
      rw [if_neg (by omega), if_pos (by omega)]
      simp only [Option.some.injEq] at h ⊢
      exact ⟨by omega, by omega, by omega, by omega⟩
    · split at h
      · have e : c % 256 = c := Nat.mod_eq_of_lt (by omega)
        simp only [e]
        rw [if_neg (by omega), if_neg (by omega), if_pos (by omega)]
        simp only [Option.some.injEq] at h ⊢
        exact ⟨by omega, by omega, by omega, by omega⟩
      · exact absurd h (by simp)

/-- What may follow a number: nothing, or a character which `digitOf` does not take. -/
def Stops (base : Nat) (rest : List Nat) : Prop := ∀ x l d, rest = x :: l → digitOf x = some d → base ≤ d

theorem parseLoop_stop {base : Nat} {rest : List Nat} (h : Stops base rest) (n : Nat) (ok : Bool) : parseLoop base n ok rest = (n, ok, rest) := by
  cases rest with
  | nil => rfl
  | cons x l =>
    rw [parseLoop]
    cases e : digitOf x with
    | none => rfl
    | some d => simp only; rw [if_pos (h x l d rfl e)]

theorem parseLoop_value {base : Nat} {rest : List Nat} (h : Stops base rest) : ∀ (t : List Nat) (acc n : Nat) (ok : Bool),
    Spec.valueFrom base acc t = some n → parseLoop base (acc % 2 ^ 64) ok (t ++ rest) = (n % 2 ^ 64, ok || !t.isEmpty, rest) := by
  intro t
  induction t with
  | nil =>
    intro acc n ok hv
    have : acc = n := by simpa [Spec.valueFrom] using hv
    subst this
    rw [List.nil_append, parseLoop_stop h]
    simp
  | cons c l ih =>
    intro acc n ok hv
    rw [Spec.valueFrom] at hv
    cases hc : Spec.letter c with
    | none => rw [hc] at hv; exact absurd hv (by simp)
    | some d =>
      rw [hc] at hv
      simp only at hv
      by_cases hd : d < base
      · rw [if_pos hd] at hv
        rw [List.cons_append, parseLoop, (digitOf_of_letter hc).1]
        simp only
        rw [if_neg (by omega)]
        have e : (acc % 2 ^ 64 * base + d) % 2 ^ 64 = (acc * base + d) % 2 ^ 64 := by
          rw [Nat.add_mod, Nat.mod_mul_mod, ← Nat.add_mod]
        rw [e, ih _ _ true hv]
        simp
      · rw [if_neg hd] at hv; exact absurd hv (by simp)

theorem parseU_value {base n : Nat} {t rest : List Nat} (h : Stops base rest) (hv : Spec.value base t = some n) :
    parseU (t ++ rest) base = (some (n % 2 ^ 64), rest) := by
  unfold Spec.value at hv
  split at hv
  · exact absurd hv (by simp)
  · rename_i hne
    unfold parseU
    have := parseLoop_value h t 0 n false hv
    rw [Nat.zero_mod] at this
    simp only [this]
    have : t.isEmpty = false := by cases t with
      | nil => exact absurd rfl hne
      | cons => rfl
    simp [this]

theorem parseLoop_ok {base : Nat} : ∀ (l : List Nat) (n : Nat), (parseLoop base n true l).2.1 = true := by
  intro l
  induction l with
  | nil => intro n; rfl
  | cons x l ih =>
    intro n
    rw [parseLoop]
    cases digitOf x with
    | none => rfl
    | some a =>
      simp only
      split
      · rfl
      · exact ih _

/-- C93, `natural`: a text which denotes a number is taken completely and gives this number modulo
2^64, so the number itself below 2^64; when the text begins with no digit, the result is `false` and
nothing is taken.  Missing: a report of numbers above 2^64. -/
theorem c93_parse_natural_partial {base : Nat} {t rest : List Nat} :
    (∀ n, Stops base rest → Spec.value base t = some n → n < 2 ^ 64 → parseU (t ++ rest) base = (some n, rest)) ∧
      (∀ n, Stops base rest → Spec.value base t = some n → parseU (t ++ rest) base = (some (n % 2 ^ 64), rest)) ∧
      (parseU rest base = (none, rest) ↔ Stops base rest) := by
  refine ⟨?_, fun n h hv => parseU_value h hv, ?_⟩
  · intro n h hv hn
    rw [parseU_value h hv, Nat.mod_eq_of_lt hn]
  · constructor
    · intro h x l d e hd
      subst e
      unfold parseU at h
      rw [parseLoop, hd] at h
      simp only at h
      split at h
      · assumption
      · exfalso
        have := parseLoop_ok (base := base) l ((0 * base + d) % 2 ^ 64)
        rw [if_pos this] at h
        exact absurd (congrArg Prod.fst h) (by simp)
    · intro h
      unfold parseU
      rw [parseLoop_stop h]
      rfl

/-- C93 does not hold: 2^64 in decimal notation is accepted and gives 0. -/
theorem c93_parse_overflow_violated : ∃ t, Spec.value 10 t = some (2 ^ 64) ∧ parseU t 10 = (some 0, []) :=
  ⟨"18446744073709551616".toList.map Char.toNat, by decide +kernel, by decide +kernel⟩

/-- C93 does not hold for wide text: characters which are no digits are taken as digits, because of the
conversion to `char`; here U+0131. -/
theorem c93_parse_wide_violated : ∃ c, c > 255 ∧ Spec.value 10 [c] = none ∧ parseU [c] 10 = (some 1, []) :=
  ⟨0x131, by decide, by decide, by decide⟩

theorem toInt_of_lt {n : Nat} (h : n < 2 ^ 63) : toInt n = n := by unfold toInt; rw [if_pos h]

theorem parseUI_value {base n : Nat} {t rest : List Nat} (h : Stops base rest) (hv : Spec.value base t = some n) :
    parseUI (t ++ rest) base = (some (toInt (n % 2 ^ 64)), rest) := by
  unfold parseUI
  rw [parseU_value h hv]
  rfl

theorem value_head {base n c : Nat} {l : List Nat} (hv : Spec.value base (c :: l) = some n) : c % 256 ≠ 43 ∧ c % 256 ≠ 45 := by
  unfold Spec.value at hv
  rw [if_neg (by simp), Spec.valueFrom] at hv
  cases hc : Spec.letter c with
  | none => rw [hc] at hv; exact absurd hv (by simp)
  | some d => exact (digitOf_of_letter hc).2.2

theorem value_ne {base n : Nat} {t : List Nat} (hv : Spec.value base t = some n) : ∃ c l, t = c :: l := by
  cases t with
  | nil => exact absurd hv (by simp [Spec.value])
  | cons c l => exact ⟨c, l, rfl⟩

/-- The cases of a number with a sign. -/
theorem valueS_cases {base : Nat} {t : List Nat} {v : Int} (h : Spec.valueS base t = some v) :
    (∃ l n, t = 43 :: l ∧ Spec.value base l = some n ∧ v = n) ∨ (∃ l n, t = 45 :: l ∧ Spec.value base l = some n ∧ v = -(n : Int)) ∨
      ∃ n, Spec.value base t = some n ∧ v = n := by
  unfold Spec.valueS at h
  split at h
  · rename_i l
    cases e : Spec.value base l with
    | none => rw [e] at h; exact absurd h (by simp)
    | some n => rw [e] at h; exact .inl ⟨l, n, rfl, e, (Option.some.inj h).symm⟩
  · rename_i l
    cases e : Spec.value base l with
    | none => rw [e] at h; exact absurd h (by simp)
    | some n => rw [e] at h; exact .inr (.inl ⟨l, n, rfl, e, (Option.some.inj h).symm⟩)
  · cases e : Spec.value base t with
    | none => rw [e] at h; exact absurd h (by simp)
    | some n => rw [e] at h; exact .inr (.inr ⟨n, rfl, (Option.some.inj h).symm⟩)

/-- C93, `integer`: a text with an optional sign which denotes a number above -2^63 and below 2^63 gives
this number.  Missing: -2^63, and a report of other numbers. -/
theorem c93_parse_integer_partial {base : Nat} {t rest : List Nat} {v : Int} (h : Stops base rest) (hv : Spec.valueS base t = some v)
    (hl : -2 ^ 63 < v) (hu : v < 2 ^ 63) : parseS (t ++ rest) base = .ok (some v, rest) := by
  rcases valueS_cases hv with ⟨l, n, rfl, e, rfl⟩ | ⟨l, n, rfl, e, rfl⟩ | ⟨n, e, rfl⟩
  · have hn : n < 2 ^ 63 := by omega
    show Except.ok (parseUI (l ++ rest) base) = _
    rw [parseUI_value h e, Nat.mod_eq_of_lt (by omega), toInt_of_lt hn]
  · have hn : n < 2 ^ 63 := by omega
    have hp := parseUI_value h e
    rw [Nat.mod_eq_of_lt (by omega), toInt_of_lt hn] at hp
    unfold parseS
    simp only [List.cons_append, Nat.reduceMod, Nat.reduceEqDiff, if_false, if_true, hp]
    rw [if_neg (by omega)]
  · have hn : n < 2 ^ 63 := by omega
    obtain ⟨c, l, rfl⟩ := value_ne e
    have hh := value_head e
    have hp := parseUI_value h e
    rw [Nat.mod_eq_of_lt (by omega), toInt_of_lt hn] at hp
    unfold parseS
    simp only [List.cons_append] at hp ⊢
    rw [if_neg hh.1, if_neg hh.2, hp]

/-- C93 does not hold: the text of -2^63, the least `integer`, leads to undefined behaviour. -/
theorem c93_parse_minimum_violated : ∃ t, Spec.valueS 10 t = some (-2 ^ 63) ∧ (parseS t 10).toOption = none :=
  ⟨"-9223372036854775808".toList.map Char.toNat, by decide +kernel, by decide +kernel⟩

/-! ## C57: round trips -/

/-- C57, `natural`: `ToString` and `parseUnsignedNumber`, in every base from 2 to 36 and with both kinds of
letters; whatever follows the number, unless it is a digit, is left. -/
theorem c57_natural_round_trip {base val : Nat} (up : Bool) (rest : List Nat) (h2 : 2 ≤ base) (h36 : base ≤ 36) (hv : val < 2 ^ 64) (h : Stops base rest) :
    ∃ t, toStrU val base up = some t ∧ parseU (t ++ rest) base = (some val, rest) := by
  obtain ⟨t, e, hval, _⟩ := c57_toString_natural up h2 h36 hv
  exact ⟨t, e, c93_parse_natural_partial.1 _ h hval hv⟩

theorem toStrS_value {base : Nat} {val : Int} (up : Bool) (h2 : 2 ≤ base) (h36 : base ≤ 36) (hl : -2 ^ 63 < val) (hu : val < 2 ^ 63) :
    ∃ t, toStrS val base up = some t ∧ Spec.valueS base t = some val := by
  unfold toStrS
  have pos : ∀ {t n}, Numeral base n t → Spec.value base t = some n := by
    intro t n h
    unfold Spec.value; rw [if_neg h.ne, h.value]
  have posS : ∀ {t n}, Numeral base n t → Spec.valueS base t = some (n : Int) := by
    intro t n h
    have hv := pos h
    obtain ⟨c, l, rfl⟩ := value_ne hv
    have hh := value_head hv
    unfold Spec.valueS
    split
    · rename_i e; simp only [List.cons.injEq] at e; exact absurd rfl (e.1 ▸ hh.1)
    · rename_i e; simp only [List.cons.injEq] at e; exact absurd rfl (e.1 ▸ hh.2)
    · rw [hv]; rfl
  by_cases h0 : val = 0
  · subst h0
    exact ⟨_, rfl, posS (numeral_zero h2)⟩
  · rw [if_neg h0]
    by_cases hn : val < 0
    · rw [if_pos hn, if_neg (by omega)]
      obtain ⟨t, e, hN⟩ := extract_numeral up h2 h36 64 (-val).toNat (by decide) (by omega)
      refine ⟨45 :: t, by rw [e]; rfl, ?_⟩
      have e45 : Spec.valueS base (45 :: t) = (Spec.value base t).map fun (n : Nat) => -(n : Int) := rfl
      rw [e45, pos hN]
      show some (-((-val).toNat : Int)) = some val
      congr 1
      omega
    · rw [if_neg hn]
      obtain ⟨t, e, hN⟩ := extract_numeral up h2 h36 64 val.toNat (by decide) (by omega)
      refine ⟨t, e, ?_⟩
      rw [posS hN]
      simp only [Option.some.injEq]
      omega

/-- C57, `integer`: `ToString` and `parseSignedNumber`.  Missing: -2^63. -/
theorem c57_integer_round_trip_partial {base : Nat} {val : Int} (up : Bool) (rest : List Nat) (h2 : 2 ≤ base) (h36 : base ≤ 36)
    (hl : -2 ^ 63 < val) (hu : val < 2 ^ 63) (h : Stops base rest) :
    ∃ t, toStrS val base up = some t ∧ parseS (t ++ rest) base = .ok (some val, rest) := by
  obtain ⟨t, e, hv⟩ := toStrS_value up h2 h36 hl hu
  exact ⟨t, e, c93_parse_integer_partial h hv hl hu⟩

/-- C57 does not hold for the least `integer`, in any base: `-val` overflows. -/
theorem c57_minimum_violated : ∃ val : Int, -2 ^ 63 ≤ val ∧ val < 2 ^ 63 ∧ ∀ base up, toStrS val base up = none :=
  ⟨-2 ^ 63, by decide, by decide, fun _ _ => rfl⟩

example : toStrS (-255) 16 true = some [45, 70, 70] := by decide +kernel
example : parseS ([45, 70, 70] ++ [32, 49]) 16 = .ok (some (-255), [32, 49]) := by rfl
example : Stops 10 [32, 49] := by intro x l d e hd; cases e; exact absurd hd (by rw [show digitOf 32 = none from rfl]; simp)
example : toStrU (2 ^ 64 - 1) 36 false = some ("3w5e11264sgsf".toList.map Char.toNat) := by decide +kernel

/-! ## C92: `numberToString` -/

theorem hexChars_get (x : Nat) (h : x < 36) : hexChars[x]? = some (digitChar true x) := by
  have : ∀ y : Fin 36, hexChars[y.val]? = some (digitChar true y.val) := by decide +kernel
  exact this ⟨x, h⟩

/-- Memory with a text at a position. -/
def over (buf : List Nat) (start : Nat) (t : List Nat) : List Nat := buf.take start ++ t ++ buf.drop (start + t.length)

theorem over_length {buf : List Nat} {start : Nat} {t : List Nat} (h : start + t.length ≤ buf.length) : (over buf start t).length = buf.length := by
  unfold over; simp; omega

theorem over_set {buf : List Nat} {start x : Nat} {t : List Nat} (h : start + t.length < buf.length) :
    (over buf start t).set (start + t.length) x = over buf start (t ++ [x]) := by
  unfold over
  have hl : (buf.take start ++ t).length = start + t.length := by simp; omega
  rw [List.set_append, if_neg (by omega), hl, Nat.sub_self]
  have : buf.drop (start + t.length) = buf[start + t.length] :: buf.drop (start + t.length + 1) := by
    rw [List.drop_eq_getElem_cons h]
  rw [this, List.set_cons_zero]
  simp [Nat.add_assoc]

theorem formatU_pos {base size num fuel start : Nat} {buf : List Nat} (hp : 0 < num) (hs : 0 < size) (hb : 0 < base) :
    formatU (fuel + 1) num buf start size base =
      match formatU fuel (num / base) buf start size base with
      | .error e => .error e
      | .ok (none, buf) => .ok (none, buf)
      | .ok (some c, buf) =>
        match hexChars[num % base]? with
        | none => .error .ub
        | some d =>
          match put buf c d with
          | .error e => .error e
          | .ok buf => .ok (some (c + 1), buf) := by
  rw [formatU, if_neg (by omega), if_neg (by omega), if_neg (by omega)]
  rfl

/-- `formatUnsigned` writes the digits, or beyond the memory: `size` has no influence. -/
theorem formatU_eq {base size : Nat} (h2 : 2 ≤ base) (h36 : base ≤ 36) (hs : 0 < size) (buf : List Nat) (start : Nat) (hst : start ≤ buf.length) :
    ∀ (fuel num : Nat), num < 2 ^ fuel → 0 < num → ∃ t, extract fuel num base true = some t ∧
      formatU (fuel + 1) num buf start size base =
        if start + t.length ≤ buf.length then .ok (some (start + t.length), over buf start t) else .error .ub := by
  intro fuel
  induction fuel with
  | zero => intro num h; omega
  | succ fuel ih =>
    intro num hv hp
    have hm : num % base < 36 := Nat.lt_of_lt_of_le (Nat.mod_lt _ (by omega)) h36
    rw [extract, if_neg (show ¬ base = 0 by omega), formatU_pos hp hs (by omega), hexChars_get _ hm]
    by_cases hb : num ≥ base
    · rw [if_pos hb]
      have hq : num / base < 2 ^ fuel := by
        rw [Nat.div_lt_iff_lt_mul (by omega)]
        rw [Nat.pow_succ] at hv
        exact Nat.lt_of_lt_of_le hv (Nat.mul_le_mul_left _ h2)
      have hqp : 0 < num / base := Nat.div_pos hb (by omega)
      obtain ⟨t, e, ef⟩ := ih _ hq hqp
      refine ⟨_, by rw [e]; rfl, ?_⟩
      rw [ef]
      simp only [List.length_append, List.length_singleton]
      by_cases hfit : start + t.length ≤ buf.length
      · rw [if_pos hfit]
        simp only [put, over_length hfit]
        by_cases hfit' : start + t.length < buf.length
        · rw [if_pos hfit', if_pos (by omega), over_set hfit']
          simp only [Nat.add_assoc]
        · rw [if_neg hfit', if_neg (by omega)]
      · rw [if_neg hfit, if_neg (by omega)]
    · rw [if_neg hb]
      refine ⟨_, rfl, ?_⟩
      have e0 : num / base = 0 := Nat.div_eq_of_lt (by omega)
      have ef : formatU (fuel + 1) (num / base) buf start size base = .ok (some start, buf) := by
        rw [e0, formatU, if_pos rfl]
      rw [ef]
      simp only [put, List.length_singleton]
      have e1 : over buf start [] = buf := by simp [over]
      by_cases hfit : start < buf.length
      · rw [if_pos hfit, if_pos (by omega)]
        simp only
        have := over_set (x := digitChar true (num % base)) (t := []) (buf := buf) (start := start) (by simpa using hfit)
        rw [e1] at this
        simp only [List.length_nil, Nat.add_zero, List.nil_append] at this
        rw [this]
      · rw [if_neg hfit, if_neg (by omega)]

theorem text_over {buf : List Nat} {start : Nat} {t s : List Nat} (h : start ≤ buf.length) : text (over buf start (t ++ s)) start (start + t.length) = t := by
  unfold text over
  have hl : (buf.take start).length = start := by simp; omega
  rw [List.append_assoc, List.drop_append, hl, Nat.sub_self, List.drop_of_length_le (by omega), List.nil_append, List.drop_zero, Nat.add_sub_cancel_left,
    List.append_assoc, List.take_left']
  rfl

/-- The digits and the zero behind them. -/
theorem digitsText_eq {base num size start : Nat} {buf : List Nat} (h2 : 2 ≤ base) (h36 : base ≤ 36) (hs : 2 ≤ size) (hst : start ≤ buf.length)
    (hv : num < 2 ^ 64) (hp : 0 < num) : ∃ t, extract 64 num base true = some t ∧
      digitsText num buf start size base = if start + t.length < buf.length then .ok (some t, over buf start (t ++ [0])) else .error .ub := by
  obtain ⟨t, e, ef⟩ := formatU_eq h2 h36 (show 0 < size - 1 by omega) buf start hst 64 num hv hp
  refine ⟨t, e, ?_⟩
  unfold digitsText
  rw [ef]
  by_cases hfit : start + t.length < buf.length
  · rw [if_pos (by omega), if_pos hfit]
    simp only [put, over_length (Nat.le_of_lt hfit), if_pos hfit, over_set hfit]
    rw [text_over hst]
  · by_cases hfit' : start + t.length ≤ buf.length
    · rw [if_pos hfit', if_neg hfit]
      simp only [put, over_length hfit', if_neg hfit]
    · rw [if_neg hfit', if_neg hfit]

theorem zeroText_eq {buf : List Nat} {start : Nat} : zeroText buf start =
    if start + 1 < buf.length then .ok (some [48], over buf start ([48] ++ [0])) else .error .ub := by
  unfold zeroText put
  by_cases h : start + 1 < buf.length
  · rw [if_pos (show start < buf.length by omega), if_pos h]
    simp only [List.length_set, if_pos h]
    have h1 := over_set (x := 48) (t := []) (buf := buf) (start := start) (by simp; omega)
    have h2 := over_set (x := 0) (t := [48]) (buf := buf) (start := start) (by simpa using h)
    have e1 : over buf start [] = buf := by simp [over]
    rw [e1] at h1
    simp only [List.length_nil, Nat.add_zero, List.nil_append] at h1
    rw [h1]
    simp only [List.length_singleton] at h2
    rw [h2]
  · rw [if_neg h]
    by_cases h' : start < buf.length
    · rw [if_pos h']; simp only [List.length_set, if_neg h]
    · rw [if_neg h']

/-- C92, `unsigned long`: exactly when the text and the zero fit into the memory behind the pointer, the result
is the text which denotes the number, and only this part of the memory is changed.  Missing: `size`, the
size of the memory according to the caller, is only tested against 2. -/
theorem c92_unsigned_partial {base num size start : Nat} {buf : List Nat} (h2 : 2 ≤ base) (h36 : base ≤ 36) (hs : 2 ≤ size) (hst : start ≤ buf.length)
    (hv : num < 2 ^ 64) : ∃ t, toStrU num base true = some t ∧ Spec.value base t = some num ∧
      numToStrU num buf start size base = if start + t.length < buf.length then .ok (some t, over buf start (t ++ [0])) else .error .ub := by
  obtain ⟨t, e, hval, _⟩ := c57_toString_natural true h2 h36 hv
  refine ⟨t, e, hval, ?_⟩
  unfold numToStrU
  unfold toStrU at e
  rw [if_neg (by omega)]
  by_cases h0 : num = 0
  · rw [if_pos h0] at e ⊢
    rw [← Option.some.inj e, zeroText_eq]
    simp only [List.length_singleton]
  · rw [if_neg h0] at e ⊢
    obtain ⟨t', e', ed⟩ := digitsText_eq (start := start) (buf := buf) h2 h36 hs hst hv (by omega)
    rw [e] at e'
    cases e'
    exact ed

/-- 64 digits are enough. -/
theorem extract_length {base : Nat} {up : Bool} : ∀ (fuel val : Nat) (t : List Nat), extract fuel val base up = some t → t.length ≤ fuel := by
  intro fuel
  induction fuel with
  | zero => intro val t h; exact absurd h (by simp [extract])
  | succ fuel ih =>
    intro val t h
    rw [extract] at h
    split at h
    · exact absurd h (by simp)
    · split at h
      · cases e : extract fuel (val / base) base up with
        | none => rw [e] at h; exact absurd h (by simp)
        | some t' =>
          rw [e] at h
          have := ih _ _ e
          rw [← Option.some.inj h]
          simp; omega
      · rw [← Option.some.inj h]; simp

theorem numToStrS0_eq {base num size start : Nat} {buf : List Nat} (h2 : 2 ≤ base) (h36 : base ≤ 36) (hs : 3 ≤ size) (hst : start ≤ buf.length)
    (hv : num < 2 ^ 64) : ∃ t, toStrU num base true = some t ∧
      numToStrS0 num buf start size base = if start + t.length < buf.length then .ok (some t, over buf start (t ++ [0])) else .error .ub := by
  obtain ⟨t, e, _, h⟩ := c92_unsigned_partial (size := size) h2 h36 (by omega) hst hv
  refine ⟨t, e, ?_⟩
  rw [← h]
  unfold numToStrS0 numToStrU
  rw [if_neg (show ¬ size < 3 by omega), if_neg (show ¬ size < 2 by omega)]

/-- C92, `long`: with 66 characters or more the result is the text which `ToString` gives, too; only memory which
belongs to the caller is changed.  This covers all calls in the library, which have 100 characters.
Missing: -2^63, smaller sizes. -/
theorem c92_signed_partial {base size start : Nat} {num : Int} {buf : List Nat} (h2 : 2 ≤ base) (h36 : base ≤ 36) (hs : 66 ≤ size)
    (hst : start + size ≤ buf.length) (hl : -2 ^ 63 < num) (hu : num < 2 ^ 63) : ∃ t, toStrS num base true = some t ∧ Spec.valueS base t = some num ∧
      numToStrS num buf start size base = .ok (some t, over buf start (t ++ [0])) := by
  obtain ⟨t, e, hval⟩ := toStrS_value true h2 h36 hl hu
  refine ⟨t, e, hval, ?_⟩
  have len : ∀ {n t}, toStrU n base true = some t → t.length ≤ 64 := by
    intro n t h
    unfold toStrU at h
    split at h
    · rw [← Option.some.inj h]; simp
    · exact extract_length _ _ _ h
  unfold numToStrS
  unfold toStrS at e
  by_cases hn : num < 0
  · rw [if_pos hn, if_neg (by omega)]
    rw [if_neg (by omega), if_pos hn, if_neg (by omega)] at e
    have hset : put buf start 45 = .ok (over buf start [45]) := by
      unfold put
      rw [if_pos (by omega)]
      have h1 := over_set (x := 45) (t := []) (buf := buf) (start := start) (by simp; omega)
      have e1 : over buf start [] = buf := by simp [over]
      rw [e1] at h1
      simp only [List.length_nil, Nat.add_zero, List.nil_append] at h1
      rw [h1]
    rw [hset]
    simp only
    rw [if_neg (by omega)]
    have hlen : (over buf start [45]).length = buf.length := over_length (by simp; omega)
    obtain ⟨t', e', h'⟩ := numToStrS0_eq (num := (-num).toNat) (size := size - 1) (start := start + 1) (buf := over buf start [45]) h2 h36 (by omega) (by omega) (by omega)
    have e'' := e'
    unfold toStrU at e''
    rw [if_neg (by omega)] at e''
    rw [e''] at e
    have et : t = 45 :: t' := (Option.some.inj e).symm
    have := len e'
    rw [h', if_pos (by omega)]
    simp only
    have eo : over (over buf start [45]) (start + 1) (t' ++ [0]) = over buf start (t ++ [0]) := by
      rw [et]
      unfold over
      have hl1 : (buf.take start ++ [45]).length = start + 1 := by simp; omega
      have t1 : (buf.take start ++ [45] ++ buf.drop (start + [45].length)).take (start + 1) = buf.take start ++ [45] := by
        rw [List.take_append_of_le_length (by omega), List.take_of_length_le (by omega)]
      have d1 : (buf.take start ++ [45] ++ buf.drop (start + [45].length)).drop (start + 1 + (t' ++ [0]).length) = buf.drop (start + (45 :: t' ++ [0]).length) := by
        rw [List.drop_append, List.drop_of_length_le (by omega), List.nil_append, hl1, List.drop_drop]
        congr 1
        simp
        omega
      rw [t1, d1]
      simp
    rw [eo, show 1 + t'.length = t.length by rw [et, List.length_cons]; omega, text_over (by omega)]
  · rw [if_neg hn]
    obtain ⟨t', e', h'⟩ := numToStrS0_eq (num := num.toNat) (size := size) (start := start) (buf := buf) h2 h36 (by omega) (by omega) (by omega)
    have := len e'
    rw [h', if_pos (by omega)]
    have ett : t' = t := by
      unfold toStrU at e'
      by_cases h0 : num = 0
      · subst h0
        simp at e e'
        rw [← e, ← e']
      · rw [if_neg h0, if_neg hn] at e
        rw [if_neg (by omega)] at e'
        rw [e] at e'
        exact (Option.some.inj e').symm
    rw [ett]

/-- C92 does not hold: with 4 characters, and 4 according to `size`, the fifth digit of 12345 is written behind
the memory. -/
theorem c92_overrun_violated : ∃ num buf base, num < 2 ^ 64 ∧ (numToStrU num buf 0 buf.length base).toOption = none :=
  ⟨12345, [0, 0, 0, 0], 10, by decide, by decide +kernel⟩

example : (numToStrS (-12345) (List.replicate 100 1) 0 100 10).toOption.map (·.1) = some (some [45, 49, 50, 51, 52, 53]) := by decide +kernel

/-! ## textParser.cpp -/

theorem strLoop_value {base : Nat} (next : Nat → Nat → Except Err Nat) (f : Nat → Except Err Nat) (hf : ∀ s q r, f s = .ok r → q < base → next r q = f (s * base + q))
    (hok : ∀ n, f n = .error .ub ∨ ∃ r, f n = .ok r) (hmono : ∀ s q, f s = .error .ub → f (s * base + q) = .error .ub) :
    ∀ (t : List Nat) (acc n r : Nat), Spec.valueFrom base acc t = some n → f acc = .ok r → strLoop next base r t = f n := by
  have mono : ∀ (t : List Nat) (acc n : Nat), Spec.valueFrom base acc t = some n → f acc = .error .ub → f n = .error .ub := by
    intro t
    induction t with
    | nil => intro acc n h hu; simp only [Spec.valueFrom, Option.some.injEq] at h; rw [← h]; exact hu
    | cons c l ih =>
      intro acc n h hu
      rw [Spec.valueFrom] at h
      cases hc : Spec.letter c with
      | none => rw [hc] at h; exact absurd h (by simp)
      | some d =>
        rw [hc] at h
        simp only at h
        split at h
        · exact ih _ _ h (hmono _ _ hu)
        · exact absurd h (by simp)
  intro t
  induction t with
  | nil =>
    intro acc n r h hr
    simp only [Spec.valueFrom, Option.some.injEq] at h
    rw [← h, hr]; rfl
  | cons c l ih =>
    intro acc n r h hr
    rw [Spec.valueFrom] at h
    cases hc : Spec.letter c with
    | none => rw [hc] at h; exact absurd h (by simp)
    | some d =>
      rw [hc] at h
      simp only at h
      by_cases hd : d < base
      · rw [if_pos hd] at h
        rw [strLoop, (digitOf_of_letter hc).2.1]
        simp only
        rw [if_neg (by omega), hf acc d r hr hd]
        rcases hok (acc * base + d) with hu | ⟨r', hr'⟩
        · rw [hu]; exact (mono _ _ _ h hu).symm
        · rw [hr']; exact ih _ _ _ h hr'
      · rw [if_neg hd] at h; exact absurd h (by simp)

theorem strToNum_plain {next : Nat → Nat → Except Err Nat} {base n : Nat} {t : List Nat} (h : Spec.value base t = some n) :
    strToNum next base t = strLoop next base 0 t ∧ Spec.valueFrom base 0 t = some n := by
  obtain ⟨c, l, rfl⟩ := value_ne h
  have hh := value_head h
  constructor
  · rw [strToNum, if_neg (by intro e; exact hh.1 (by rw [e]))]
  · unfold Spec.value at h
    rw [if_neg (by simp)] at h
    exact h

theorem strToU_value {base n : Nat} {t : List Nat} (h : Spec.value base t = some n) : strToU t base = .ok (n % 2 ^ 64) := by
  unfold strToU
  obtain ⟨e, hv⟩ := strToNum_plain (next := nextU base) h
  rw [e]
  refine strLoop_value (nextU base) (fun n => .ok (n % 2 ^ 64)) ?_ (fun n => .inr ⟨_, rfl⟩) (fun s q h => absurd h (by simp)) t 0 n 0 hv rfl
  intro s q r hr _
  have : s % 2 ^ 64 = r := by simpa using hr
  unfold nextU
  rw [← this, Nat.add_mod, Nat.mod_mul_mod, ← Nat.add_mod]

theorem strToSig_value {base n : Nat} {t : List Nat} (hb : 0 < base) (h : Spec.value base t = some n) :
    strToNum (nextS base) base t = if n < 2 ^ 63 then .ok n else .error .ub := by
  obtain ⟨e, hv⟩ := strToNum_plain (next := nextS base) h
  rw [e]
  refine strLoop_value (nextS base) (fun n => if n < 2 ^ 63 then .ok n else .error .ub) ?_ ?_ ?_ t 0 n 0 hv rfl
  · intro s q r hr _
    split at hr
    · have : s = r := by simpa using hr
      rw [this]; rfl
    · exact absurd hr (by simp)
  · intro n
    by_cases hn : n < 2 ^ 63
    · exact .inr ⟨n, if_pos hn⟩
    · exact .inl (if_neg hn)
  · intro s q h
    split at h
    · exact absurd h (by simp)
    · rename_i hs
      have := Nat.le_mul_of_pos_right s hb
      exact if_neg (by omega)

/-- C93, the conversions of textParser.cpp: a text which denotes a number in range gives this number.  Missing: -2^63, a
report of numbers out of range, and the refusal of texts with two signs. -/
theorem c93_string_partial {base : Nat} {t : List Nat} (hb : 0 < base) :
    (∀ n, Spec.value base t = some n → n < 2 ^ 64 → strToU t base = .ok n) ∧
      (∀ v, Spec.valueS base t = some v → -2 ^ 63 < v → v < 2 ^ 63 → strToS t base = .ok v) := by
  constructor
  · intro n h hn
    rw [strToU_value h, Nat.mod_eq_of_lt hn]
  · intro v h hl hu
    rcases valueS_cases h with ⟨l, n, rfl, e, rfl⟩ | ⟨l, n, rfl, e, rfl⟩ | ⟨n, e, rfl⟩
    · show (strToNum (nextS base) base l).map Int.ofNat = _
      rw [strToSig_value hb e, if_pos (by omega)]; rfl
    · show (strToNum (nextS base) base l).map (fun (n : Nat) => -(n : Int)) = _
      rw [strToSig_value hb e, if_pos (by omega)]; rfl
    · obtain ⟨c, l, rfl⟩ := value_ne e
      have hh := value_head e
      have h1 : c ≠ 43 := by intro h; exact hh.1 (by rw [h])
      have h2 : c ≠ 45 := by intro h; exact hh.2 (by rw [h])
      unfold strToS
      simp only
      rw [if_neg h1, if_neg h2, strToSig_value hb e, if_pos (by omega)]; rfl

/-- What the conversions of textParser.cpp accept: after signs in front, only digits. -/
theorem strLoop_accepts {base : Nat} {next : Nat → Nat → Except Err Nat} : ∀ (t : List Nat) (s acc : Nat) (r : Nat), strLoop next base s t = .ok r →
    (Spec.valueFrom base acc t).isSome = true := by
  intro t
  induction t with
  | nil => intro s acc r _; rfl
  | cons c l ih =>
    intro s acc r h
    rw [strLoop] at h
    have hd : digitOf' c = Spec.letter c := by
      unfold digitOf' Spec.letter
      by_cases h1 : 48 ≤ c ∧ c < 58
      · rw [if_pos (by omega), if_pos h1]
      · rw [if_neg (by omega), if_neg h1]
        by_cases h2 : 65 ≤ c ∧ c < 91
        · rw [if_pos (by omega), if_pos h2]; congr 1; omega
        · rw [if_neg (by omega), if_neg h2]
          by_cases h3 : 97 ≤ c ∧ c < 123
          · rw [if_pos (by omega), if_pos h3]; congr 1; omega
          · rw [if_neg (by omega), if_neg h3]
    rw [hd] at h
    rw [Spec.valueFrom]
    cases hc : Spec.letter c with
    | none => rw [hc] at h; exact absurd h (by simp)
    | some d =>
      rw [hc] at h
      simp only at h ⊢
      split at h
      · exact absurd h (by simp)
      · rw [if_pos (by omega)]
        cases hn : next s d with
        | error e => rw [hn] at h; exact absurd h (by simp)
        | ok s' => rw [hn] at h; exact ih _ _ _ h

/-- C93, the conversions of textParser.cpp: what is accepted denotes a number, when plus signs in front are left
out. -/
theorem c93_string_accepts_partial {base : Nat} {next : Nat → Nat → Except Err Nat} : ∀ (t : List Nat) (r : Nat), strToNum next base t = .ok r →
    ∃ k l, t = List.replicate k 43 ++ l ∧ (Spec.value base l).isSome = true := by
  intro t
  induction t with
  | nil => intro r h; exact absurd h (by simp [strToNum])
  | cons c l ih =>
    intro r h
    rw [strToNum] at h
    split at h
    · rename_i hc
      obtain ⟨k, l', e, hv⟩ := ih r h
      exact ⟨k + 1, l', by rw [e, hc, List.replicate_succ]; rfl, hv⟩
    · refine ⟨0, c :: l, rfl, ?_⟩
      unfold Spec.value
      rw [if_neg (by simp)]
      exact strLoop_accepts _ _ 0 _ h

/-- C93 does not hold for these either: "-+5" is accepted, 2^64 gives 0, and -2^63 is undefined. -/
theorem c93_string_violated : (∃ t, Spec.valueS 10 t = none ∧ strToS t 10 = .ok (-5)) ∧
    (∃ t, Spec.value 10 t = some (2 ^ 64) ∧ strToU t 10 = .ok 0) ∧ ∃ t, Spec.valueS 10 t = some (-2 ^ 63) ∧ strToS t 10 = .error .ub :=
  ⟨⟨[45, 43, 53], by decide, rfl⟩, ⟨"18446744073709551616".toList.map Char.toNat, by decide +kernel, rfl⟩,
    ⟨"-9223372036854775808".toList.map Char.toNat, by decide +kernel, rfl⟩⟩

/-- C57, `numberToString` and the conversions of textParser.cpp. -/
theorem c57_format_round_trip_partial {base : Nat} (h2 : 2 ≤ base) (h36 : base ≤ 36) (buf : List Nat) (hb : buf.length = 100) :
    (∀ num, num < 2 ^ 64 → ∃ t b, numToStrU num buf 0 100 base = .ok (some t, b) ∧ strToU t base = .ok num) ∧
      (∀ num : Int, -2 ^ 63 < num → num < 2 ^ 63 → ∃ t b, numToStrS num buf 0 100 base = .ok (some t, b) ∧ strToS t base = .ok num) := by
  constructor
  · intro num hv
    obtain ⟨t, e, hval, h⟩ := c92_unsigned_partial (size := 100) (start := 0) (buf := buf) h2 h36 (by decide) (by omega) hv
    have : t.length ≤ 64 := by
      unfold toStrU at e
      split at e
      · rw [← Option.some.inj e]; simp
      · exact extract_length _ _ _ e
    rw [if_pos (by omega)] at h
    exact ⟨t, _, h, (c93_string_partial (by omega)).1 num hval hv⟩
  · intro num hl hu
    obtain ⟨t, _, hval, h⟩ := c92_signed_partial (size := 100) (start := 0) (buf := buf) h2 h36 (by decide) (by omega) hl hu
    exact ⟨t, _, h, (c93_string_partial (by omega)).2 num hval hl hu⟩

end LS.NumText

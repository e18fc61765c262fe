import Verif.Rational
/-! # Properties C51, C52, C53 (and C66): gcd and rational arithmetic -/

namespace LS.Rat64

/-! ## Specification -/

/-- `q` is the number `n/d` (with `d > 0`) in lowest terms. -/
structure IsFrac (q : Q) (n : Int) (d : Nat) : Prop where
  pos : 0 < q.d
  value : q.n * d = n * q.d
  lowest : Nat.gcd q.n.natAbs q.d = 1

/-- The number fits the signed word. -/
def Fits (x : Int) : Prop := -9223372036854775808 ≤ x ∧ x < 9223372036854775808

/-! ## gcd -/

theorem odd_coprime {u : Nat} (k : Nat) (h : u % 2 = 1) : Nat.Coprime (2 ^ k) u := by
  apply Nat.Coprime.pow_left
  rw [Nat.Coprime, Nat.gcd_rec, h]; rfl

theorem gcd_odd_right {u : Nat} (w k : Nat) (h : u % 2 = 1) : Nat.gcd u (w * 2 ^ k) = Nat.gcd u w := by
  rw [Nat.mul_comm]; exact Nat.Coprime.gcd_mul_left_cancel_right w (odd_coprime k h)

theorem gcd_odd_left {u : Nat} (w k : Nat) (h : u % 2 = 1) : Nat.gcd (w * 2 ^ k) u = Nat.gcd w u := by
  rw [Nat.gcd_comm, gcd_odd_right w k h, Nat.gcd_comm]

theorem strip_spec (f : Nat) : ∀ u, 0 < u → u < f →
    ∃ w k, strip f u = some w ∧ w % 2 = 1 ∧ u = w * 2 ^ k := by
  induction f with
  | zero => intro u _ h; omega
  | succ f ih =>
    intro u h0 h
    by_cases he : u &&& 1 = 0
    · have he' : u % 2 = 0 := by rwa [and_1] at he
      obtain ⟨w, k, h1, h2, h3⟩ := ih (u >>> 1) (by rw [Nat.shiftRight_eq_div_pow]; omega)
        (by rw [Nat.shiftRight_eq_div_pow]; omega)
      refine ⟨w, k + 1, by simp only [strip, if_pos he, h1], h2, ?_⟩
      rw [Nat.pow_succ, ← Nat.mul_assoc, ← h3, Nat.shiftRight_eq_div_pow]
      omega
    · refine ⟨u, 0, by simp only [strip, if_neg he], ?_, by simp⟩
      rw [and_1] at he; omega

theorem common_spec (f : Nat) : ∀ u v s, 0 < u → 0 < v → u < f →
    ∃ u' v' k, common f u v s = some (u', v', s + k) ∧ u = u' * 2 ^ k ∧ v = v' * 2 ^ k ∧
      (u' % 2 = 1 ∨ v' % 2 = 1) := by
  induction f with
  | zero => intro u v s _ _ h; omega
  | succ f ih =>
    intro u v s h0 h0v h
    have hor := @Nat.or_mod_two_eq_one u v
    by_cases he : (u ||| v) &&& 1 = 0
    · have he' : (u ||| v) % 2 = 0 := by rwa [and_1] at he
      obtain ⟨u', v', k, h1, h2, h3, h4⟩ := ih (u >>> 1) (v >>> 1) (s + 1)
        (by rw [Nat.shiftRight_eq_div_pow]; omega) (by rw [Nat.shiftRight_eq_div_pow]; omega)
        (by rw [Nat.shiftRight_eq_div_pow]; omega)
      refine ⟨u', v', k + 1, ?_, ?_, ?_, h4⟩
      · simp only [common, if_pos he, h1, Nat.add_assoc, Nat.add_comm 1]
      · rw [Nat.pow_succ, ← Nat.mul_assoc, ← h2, Nat.shiftRight_eq_div_pow]; omega
      · rw [Nat.pow_succ, ← Nat.mul_assoc, ← h3, Nat.shiftRight_eq_div_pow]; omega
    · refine ⟨u, v, 0, by simp only [common, if_neg he, Nat.add_zero], by simp, by simp, ?_⟩
      rw [and_1] at he; omega

theorem gcd_step {u v : Nat} (hu : u % 2 = 1) (hv : v % 2 = 1) (h : u < v) :
    Nat.gcd u ((v - u) >>> 1) = Nat.gcd u v := by
  have e : v - u = ((v - u) >>> 1) * 2 ^ 1 := by rw [Nat.shiftRight_eq_div_pow]; omega
  rw [← gcd_odd_right ((v - u) >>> 1) 1 hu, ← e, Nat.gcd_sub_self_right (by omega)]

theorem loop_spec (f : Nat) : ∀ u v, u % 2 = 1 → 0 < v → u + v < f →
    loop f u v = some (Nat.gcd u v) := by
  induction f with
  | zero => intro u v _ _ h; omega
  | succ f ih =>
    intro u v hu hv h
    obtain ⟨w, k, h1, h2, h3⟩ := strip_spec (v + 1) v hv (by omega)
    have hw : w ≤ v := by rw [h3]; exact Nat.le_mul_of_pos_right _ (Nat.two_pow_pos k)
    have hg : Nat.gcd u v = Nat.gcd u w := by rw [h3, gcd_odd_right w k hu]
    rw [hg]
    simp only [loop, h1]
    by_cases hlt : u < w
    · have hne : (w - u) >>> 1 ≠ 0 := by rw [Nat.shiftRight_eq_div_pow]; omega
      have hle : (w - u) >>> 1 < w := by rw [Nat.shiftRight_eq_div_pow]; omega
      rw [if_pos hlt, if_pos hne, ih u _ hu (by omega) (by omega), gcd_step hu h2 hlt]
    · rw [if_neg hlt]
      by_cases he : w = u
      · subst he
        simp
      · have hne : (u - w) >>> 1 ≠ 0 := by rw [Nat.shiftRight_eq_div_pow]; omega
        have hle : (u - w) >>> 1 < u := by rw [Nat.shiftRight_eq_div_pow]; omega
        rw [if_pos hne, ih w _ h2 (by omega) (by omega), gcd_step h2 hu (by omega), Nat.gcd_comm]

/-- C51: `gcd` terminates and returns the greatest common divisor of all 64-bit words. -/
theorem C51_gcd_correct (u v : Nat) (hu : u < 2 ^ 64) (hv : v < 2 ^ 64) :
    gcd u v = some (Nat.gcd u v) := by
  unfold gcd
  by_cases h0 : u = 0 ∨ v = 0
  · rw [if_pos h0]
    rcases h0 with rfl | rfl <;> simp
  · rw [if_neg h0]
    obtain ⟨u', v', k, h1, h2, h3, h4⟩ := common_spec (u + 1) u v 0 (by omega) (by omega) (by omega)
    have hu' : 0 < u' := by
      rcases Nat.eq_zero_or_pos u' with h | h
      · rw [h] at h2; omega
      · exact h
    have hv' : 0 < v' := by
      rcases Nat.eq_zero_or_pos v' with h | h
      · rw [h] at h3; omega
      · exact h
    obtain ⟨w, j, g1, g2, g3⟩ := strip_spec (u' + 1) u' hu' (by omega)
    simp only [h1, g1, loop_spec (w + v' + 1) w v' g2 hv' (by omega)]
    have e : Nat.gcd w v' = Nat.gcd u' v' := by
      rcases h4 with h | h
      · have : j = 0 := by
          cases j with
          | zero => rfl
          | succ j => rw [g3, Nat.pow_succ, ← Nat.mul_assoc] at h; omega
        rw [this] at g3; rw [g3]; simp
      · rw [g3, gcd_odd_left w j h]
    have e2 : Nat.gcd u v = Nat.gcd u' v' * 2 ^ k := by rw [h2, h3, Nat.gcd_mul_right]
    have hlt : Nat.gcd u v ≤ u := Nat.gcd_le_left v (by omega)
    rw [Nat.zero_add, Nat.shiftLeft_eq, e, ← e2, Nat.mod_eq_of_lt (by omega)]

example : gcd 48 180 = some 12 := C51_gcd_correct 48 180 (by decide) (by decide)
example : gcd 48 180 = some 12 := by decide
example : gcd 0 7 = some 7 ∧ gcd 0 0 = some 0 := by decide

/-! ## Words -/

theorem toU_of_nonneg {n : Int} (h0 : 0 ≤ n) (h : n < 18446744073709551616) : toU n = n.toNat := by
  unfold toU; omega

theorem toU_lt (n : Int) : toU n < 18446744073709551616 := by unfold toU; omega

theorem toU_neg {n : Int} (h0 : n < 0) (h : -9223372036854775808 ≤ n) :
    toU n = 18446744073709551616 - n.natAbs := by unfold toU; omega

theorem toI_small {u : Nat} (h : u < 9223372036854775808) : toI u = u := by
  unfold toI; split <;> omega

/-- Conversion back and forth keeps a signed word. -/
theorem toI_mod {u : Nat} {x : Int} (hx : Fits x) (h : (u : Int) % 18446744073709551616 = x % 18446744073709551616) :
    toI u = x := by
  unfold toI
  obtain ⟨h1, h2⟩ := hx
  split <;> omega

theorem toU_mod (n : Int) : ((toU n : Nat) : Int) % 18446744073709551616 = n % 18446744073709551616 := by
  unfold toU; omega

theorem chk_fits {x : Int} (h : Fits x) : chk x = some x := by
  unfold Fits at h; rw [chk, if_pos h]

/-! ## Normalization -/

theorem qgcd_nonneg {q : Q} (h0 : 0 ≤ q.n) (hn : Fits q.n) (hd : q.d < 2 ^ 64) :
    q.gcd = some (Nat.gcd q.n.natAbs q.d) := by
  have := hn.2
  have e : toU q.n = q.n.natAbs := by rw [toU_of_nonneg h0 (by omega)]; omega
  rw [Q.gcd, if_neg (by omega), e, C51_gcd_correct _ _ (by omega) hd]

theorem qgcd_neg {q : Q} (h0 : q.n < 0) (hn : -9223372036854775808 < q.n) (hd : q.d < 2 ^ 64) :
    q.gcd = some (Nat.gcd q.n.natAbs q.d) := by
  have e : toU (-q.n) = q.n.natAbs := by rw [toU_of_nonneg (by omega) (by omega)]; omega
  rw [Q.gcd, if_pos h0, chk_fits ⟨by omega, by omega⟩]
  simp only [Option.bind_some]
  rw [e, C51_gcd_correct _ _ (by omega) hd]

theorem qgcd_fits {q : Q} (hn : -9223372036854775808 < q.n) (hn2 : q.n < 9223372036854775808)
    (hd : q.d < 2 ^ 64) : q.gcd = some (Nat.gcd q.n.natAbs q.d) := by
  by_cases h0 : q.n < 0
  · exact qgcd_neg h0 hn hd
  · exact qgcd_nonneg (by omega) ⟨by omega, hn2⟩ hd

/-- For a non-negative numerator one division brings the lowest terms. -/
theorem norm_nonneg {q : Q} (f : Nat) (h0 : 0 ≤ q.n) (hn : Fits q.n) (hd : q.d < 2 ^ 64) (hd0 : 0 < q.d) :
    ∃ r, normLoop (f + 2) q = some r ∧ IsFrac r q.n q.d := by
  have hg := qgcd_nonneg h0 hn hd
  have hgp : 0 < Nat.gcd q.n.natAbs q.d := Nat.gcd_pos_of_pos_right _ hd0
  by_cases h1 : Nat.gcd q.n.natAbs q.d > 1
  · -- divide once
    have := hn.2
    have e : toU q.n = q.n.natAbs := by rw [toU_of_nonneg h0 (by omega)]; omega
    have hdiv : q.n.natAbs / Nat.gcd q.n.natAbs q.d ≤ q.n.natAbs := Nat.div_le_self _ _
    have e2 : toI (toU q.n / Nat.gcd q.n.natAbs q.d) =
        ((q.n.natAbs / Nat.gcd q.n.natAbs q.d : Nat) : Int) := by
      rw [e, toI_small (by omega)]
    generalize hm : Nat.gcd q.n.natAbs q.d = m at *
    have hdv1 : q.n.natAbs / m * m = q.n.natAbs := Nat.div_mul_cancel (hm ▸ Nat.gcd_dvd_left _ _)
    have hdv2 : q.d / m * m = q.d := Nat.div_mul_cancel (hm ▸ Nat.gcd_dvd_right _ _)
    have hcop : Nat.gcd (q.n.natAbs / m) (q.d / m) = 1 := by
      have := Nat.coprime_div_gcd_div_gcd (m := q.n.natAbs) (n := q.d) (by omega)
      rwa [hm] at this
    have hdle : q.d / m ≤ q.d := Nat.div_le_self _ _
    have hd1 : 0 < q.d / m := Nat.div_pos (by
      exact Nat.le_of_dvd hd0 (hm ▸ Nat.gcd_dvd_right _ _)) (by omega)
    generalize q.n.natAbs / m = t at *
    generalize ht' : q.d / m = t' at *
    have hg2 : Q.gcd { n := toI (toU q.n / m), d := t' } = some 1 := by
      rw [e2, qgcd_nonneg (by simp only; omega) ⟨by simp only; omega, by simp only; omega⟩ (by simp only; omega)]
      simp only [Int.natAbs_natCast]; rw [hcop]
    refine ⟨{ n := toI (toU q.n / m), d := t' }, ?_, hd1, ?_, ?_⟩
    · simp only [normLoop, hg, if_pos h1]; rw [ht', hg2]; simp
    · simp only [e2]
      have a : ((q.n.natAbs : Nat) : Int) = q.n := by omega
      conv => rhs; rw [← a, ← hdv1]
      conv => lhs; rw [← hdv2]
      push_cast
      ac_rfl
    · simp only [e2, Int.natAbs_natCast]; exact hcop
  · refine ⟨q, ?_, hd0, rfl, by omega⟩
    simp only [normLoop, hg, if_neg h1]

theorem norm_coprime {q : Q} (hn : -9223372036854775808 < q.n) (hn2 : q.n < 9223372036854775808)
    (hd : q.d < 2 ^ 64) (hd0 : 0 < q.d) (h : Nat.gcd q.n.natAbs q.d = 1) :
    norm q = some q ∧ IsFrac q q.n q.d := by
  refine ⟨?_, hd0, rfl, h⟩
  simp only [norm, normLoop, qgcd_fits hn hn2 hd, h]; simp

/-- Normalization of a negative number with a common factor always gives a wrong number: one that
is not negative. -/
theorem norm_negative {q : Q} (h0 : q.n < 0) (hn : -9223372036854775808 < q.n) (hd : q.d < 2 ^ 64)
    (hd0 : 0 < q.d) (h1 : Nat.gcd q.n.natAbs q.d > 1) :
    ∃ r, norm q = some r ∧ 0 ≤ r.n ∧ 0 < r.d := by
  have hg := qgcd_neg h0 hn hd
  have hlt := toU_lt q.n
  generalize hm : Nat.gcd q.n.natAbs q.d = m at *
  have hdiv : toU q.n / m < 9223372036854775808 := by
    have : toU q.n / m ≤ toU q.n / 2 := Nat.div_le_div_left h1 (by omega)
    omega
  have hd1 : 0 < q.d / m := Nat.div_pos (by
      exact Nat.le_of_dvd hd0 (hm ▸ Nat.gcd_dvd_right _ _)) (by omega)
  have hdle : q.d / m ≤ q.d := Nat.div_le_self _ _
  generalize ht : toU q.n / m = t at *
  generalize ht' : q.d / m = t' at *
  obtain ⟨r, r1, r2⟩ := norm_nonneg (q := { n := toI t, d := t' }) 0
    (by simp only [toI_small hdiv]; omega) ⟨by simp only [toI_small hdiv]; omega, by simp only [toI_small hdiv]; omega⟩
    (by simp only; omega) hd1
  refine ⟨r, ?_, ?_, r2.pos⟩
  · rw [norm, normLoop]; simp only [hg, if_pos h1]; rw [ht, ht']; exact r1
  · have hv := r2.value
    simp only [toI_small hdiv] at hv
    rcases Int.lt_or_le r.n 0 with hneg | hnn
    · have h2 : r.n * (t' : Int) < 0 := Int.mul_neg_of_neg_of_pos hneg (by omega)
      have h3 : 0 ≤ (t : Int) * (r.d : Int) := Int.mul_nonneg (by omega) (by omega)
      omega
    · exact hnn

/-- Normalization never loops more than three times (only the least integer is undefined). -/
theorem norm_total {q : Q} (hn : -9223372036854775808 < q.n) (hn2 : q.n < 9223372036854775808)
    (hd : q.d < 2 ^ 64) (hd0 : 0 < q.d) : ∃ r, norm q = some r := by
  by_cases h0 : q.n < 0
  · by_cases h1 : Nat.gcd q.n.natAbs q.d > 1
    · obtain ⟨r, h, -⟩ := norm_negative h0 hn hd hd0 h1; exact ⟨r, h⟩
    · have := Nat.gcd_pos_of_pos_right q.n.natAbs hd0
      exact ⟨q, (norm_coprime hn hn2 hd hd0 (by omega)).1⟩
  · obtain ⟨r, h, -⟩ := norm_nonneg (q := q) 1 (by omega) ⟨by omega, hn2⟩ hd hd0; exact ⟨r, h⟩

/-- The fraction `n/d` is not negative or already in lowest terms. -/
def Easy (n : Int) (d : Nat) : Prop := 0 ≤ n ∨ Nat.gcd n.natAbs d = 1

theorem norm_easy {n : Int} {d : Nat} (hn : -9223372036854775808 < n) (hn2 : n < 9223372036854775808)
    (hd : d < 2 ^ 64) (hd0 : 0 < d) (h : Easy n d) : ∃ r, norm { n, d } = some r ∧ IsFrac r n d := by
  rcases h with h | h
  · exact norm_nonneg (q := { n, d }) 1 h ⟨by simp only; omega, hn2⟩ hd hd0
  · exact ⟨_, norm_coprime (q := { n, d }) hn hn2 hd hd0 h⟩

theorem norm_hard {n : Int} {d : Nat} (hn : -9223372036854775808 < n)
    (hd : d < 2 ^ 64) (hd0 : 0 < d) (h : ¬ Easy n d) : ∃ r, norm { n, d } = some r ∧ ¬ IsFrac r n d := by
  have h' : n < 0 ∧ Nat.gcd n.natAbs d ≠ 1 := by
    constructor
    · rcases Int.lt_or_le n 0 with h1 | h1
      · exact h1
      · exact absurd (Or.inl h1) h
    · exact fun h1 => h (Or.inr h1)
  obtain ⟨h1, h2⟩ := h'
  have := Nat.gcd_pos_of_pos_right n.natAbs hd0
  obtain ⟨r, r1, r2, r3⟩ := norm_negative (q := { n, d }) h1 hn hd hd0 (by simp only; omega)
  refine ⟨r, r1, fun hf => ?_⟩
  have hv := hf.value
  have h2 : n * (r.d : Int) < 0 := Int.mul_neg_of_neg_of_pos h1 (by omega)
  have h3 : 0 ≤ r.n * (d : Int) := Int.mul_nonneg r2 (by omega)
  omega

/-! ## Property theorems: arithmetic -/

/-- The sum's numerator as the code computes it. -/
theorem add_raw {a b : Q} (hs : Fits (a.n * b.d + b.n * a.d)) (hdd : a.d * b.d < 2 ^ 64) :
    add a b = norm { n := a.n * b.d + b.n * a.d, d := a.d * b.d } := by
  have e : toI (toU a.n * b.d + toU b.n * a.d) = a.n * b.d + b.n * a.d := by
    apply toI_mod hs
    push_cast
    rw [Int.add_emod, Int.mul_emod (toU a.n), toU_mod, Int.mul_emod (toU b.n), toU_mod, ← Int.mul_emod,
      ← Int.mul_emod, ← Int.add_emod]
  rw [add, e, Nat.mod_eq_of_lt (by omega)]

theorem sub_raw {a b : Q} (hs : Fits (a.n * b.d - b.n * a.d)) (hdd : a.d * b.d < 2 ^ 64) :
    sub a b = norm { n := a.n * b.d - b.n * a.d, d := a.d * b.d } := by
  have e1 : ((toU a.n * b.d : Nat) : Int) % 18446744073709551616 = a.n * b.d % 18446744073709551616 := by
    push_cast
    rw [Int.mul_emod (toU a.n), toU_mod, ← Int.mul_emod]
  have e2 : ((toU b.n * a.d : Nat) : Int) % 18446744073709551616 = b.n * a.d % 18446744073709551616 := by
    push_cast
    rw [Int.mul_emod (toU b.n), toU_mod, ← Int.mul_emod]
  have e : toI (toU a.n * b.d % 18446744073709551616 +
              (18446744073709551616 - toU b.n * a.d % 18446744073709551616)) = a.n * b.d - b.n * a.d := by
    apply toI_mod hs
    generalize toU a.n * b.d = x at *
    generalize toU b.n * a.d = y at *
    generalize a.n * (b.d : Int) = x' at *
    generalize b.n * (a.d : Int) = y' at *
    omega
  rw [sub, e, Nat.mod_eq_of_lt (by omega)]

theorem mul_raw {a b : Q} (hs : Fits (a.n * b.n)) (hdd : a.d * b.d < 2 ^ 64) :
    mul a b = norm { n := a.n * b.n, d := a.d * b.d } := by
  rw [mul, chk_fits hs, Option.bind_some, Nat.mod_eq_of_lt (by omega)]

/-- C52 (part that holds): if nothing overflows and the plain result is not negative or needs no
reduction, sum, difference and product are exact and in lowest terms.  Missing: negative results
with a common factor, which are always wrong (`C52_negative_violated`). -/
theorem C52_arith_partial (a b : Q) (hdd : a.d * b.d < 2 ^ 64) (ha : 0 < a.d) (hb : 0 < b.d) :
    (∀ s, s = a.n * b.d + b.n * a.d → s ≠ -9223372036854775808 → Fits s → Easy s (a.d * b.d) →
      ∃ r, add a b = some r ∧ IsFrac r s (a.d * b.d)) ∧
    (∀ s, s = a.n * b.d - b.n * a.d → s ≠ -9223372036854775808 → Fits s → Easy s (a.d * b.d) →
      ∃ r, sub a b = some r ∧ IsFrac r s (a.d * b.d)) ∧
    (∀ s, s = a.n * b.n → s ≠ -9223372036854775808 → Fits s → Easy s (a.d * b.d) →
      ∃ r, mul a b = some r ∧ IsFrac r s (a.d * b.d)) := by
  have hp := Nat.mul_pos ha hb
  refine ⟨?_, ?_, ?_⟩
  · rintro s rfl hm hf he
    rw [add_raw hf hdd]; exact norm_easy (by have := hf.1; omega) hf.2 hdd hp he
  · rintro s rfl hm hf he
    rw [sub_raw hf hdd]; exact norm_easy (by have := hf.1; omega) hf.2 hdd hp he
  · rintro s rfl hm hf he
    rw [mul_raw hf hdd]; exact norm_easy (by have := hf.1; omega) hf.2 hdd hp he

/-- C52 is false for the code: *every* negative result with a common factor is wrong. -/
theorem C52_negative_violated (a b : Q) (hdd : a.d * b.d < 2 ^ 64) (ha : 0 < a.d) (hb : 0 < b.d) :
    (∀ s, s = a.n * b.d + b.n * a.d → s ≠ -9223372036854775808 → Fits s → ¬ Easy s (a.d * b.d) →
      ∃ r, add a b = some r ∧ ¬ IsFrac r s (a.d * b.d)) ∧
    (∀ s, s = a.n * b.d - b.n * a.d → s ≠ -9223372036854775808 → Fits s → ¬ Easy s (a.d * b.d) →
      ∃ r, sub a b = some r ∧ ¬ IsFrac r s (a.d * b.d)) ∧
    (∀ s, s = a.n * b.n → s ≠ -9223372036854775808 → Fits s → ¬ Easy s (a.d * b.d) →
      ∃ r, mul a b = some r ∧ ¬ IsFrac r s (a.d * b.d)) := by
  have hp := Nat.mul_pos ha hb
  refine ⟨?_, ?_, ?_⟩
  · rintro s rfl hm hf he
    rw [add_raw hf hdd]; exact norm_hard (by have := hf.1; omega) hdd hp he
  · rintro s rfl hm hf he
    rw [sub_raw hf hdd]; exact norm_hard (by have := hf.1; omega) hdd hp he
  · rintro s rfl hm hf he
    rw [mul_raw hf hdd]; exact norm_hard (by have := hf.1; omega) hdd hp he

/-- The concrete case: `-1/4 + -1/4` is computed as `2305843009213693951 / 2`. -/
theorem C52_quarter_violated :
    add { n := -1, d := 4 } { n := -1, d := 4 } = some { n := 2305843009213693951, d := 2 } := by
  decide +kernel

/-- C52, comparison: without overflow, `lessThan` is the order of the fractions. -/
theorem C52_less_correct (a b : Q) (ha : a.d < 2 ^ 63) (hb : b.d < 2 ^ 63)
    (h1 : Fits (a.n * b.d)) (h2 : Fits (b.n * a.d)) (h3 : Fits (a.n * b.d - b.n * a.d)) :
    lessThan a b = some (decide (a.n * b.d < b.n * a.d)) := by
  rw [lessThan, toI_small (by omega), toI_small (by omega), chk_fits h1, Option.bind_some, chk_fits h2,
    Option.bind_some, chk_fits h3, Option.map_some]
  congr 1
  apply decide_eq_decide.2
  omega

/-- Division by a positive number: exact under the same conditions. -/
theorem C52_div_partial (a b : Q) (ha : 0 < a.d) (hb0 : 0 < b.n) (hb1 : b.n < 9223372036854775808)
    (hb : b.d < 2 ^ 63) (hf : Fits (a.n * b.d)) (hne : a.n * b.d ≠ -9223372036854775808)
    (hdd : a.d * b.n.toNat < 2 ^ 64) (he : Easy (a.n * b.d) (a.d * b.n.toNat)) :
    ∃ r, div a b = some r ∧ IsFrac r (a.n * b.d) (a.d * b.n.toNat) := by
  have hi : inv b = some { n := b.d, d := b.n.toNat } := by
    rw [inv, if_neg (by omega), toI_small (by omega), toU_of_nonneg (by omega) (by omega)]
  rw [div, hi, Option.bind_some]
  have := mul_raw (a := a) (b := { n := b.d, d := b.n.toNat }) hf hdd
  rw [this]
  exact norm_easy (Int.lt_iff_le_and_ne.2 ⟨hf.1, Ne.symm hne⟩) hf.2 hdd (Nat.mul_pos ha (by simp only; omega)) he

example : add { n := 1, d := 6 } { n := 1, d := 3 } = some { n := 1, d := 2 } := by decide +kernel
example : sub { n := 1, d := 6 } { n := 1, d := 9 } = some { n := 1, d := 18 } := by decide +kernel
example : mul { n := -2, d := 3 } { n := 5, d := 7 } = some { n := -10, d := 21 } := by decide +kernel
example : lessThan { n := -2, d := 3 } { n := 1, d := 7 } = some true := by decide

/-! ## Rounding -/

/-- C66 (part that holds): for non-negative numbers `floor` and `ceil` are the integer bounds. -/
theorem C66_floor_ceil_partial (a : Q) (h0 : 0 ≤ a.n) (hn : a.n < 9223372036854775807)
    (hd : 0 < a.d) :
    (∃ f, floor a = some f ∧ f * a.d ≤ a.n ∧ a.n < (f + 1) * a.d) ∧
    (∃ c, ceil a = some c ∧ a.n ≤ c * a.d ∧ (c - 1) * a.d < a.n) := by
  obtain ⟨n, d⟩ := a
  simp only at *
  obtain ⟨m, rfl⟩ : ∃ m : Nat, n = m := ⟨n.toNat, by omega⟩
  have e : toU (m : Int) = m := by rw [toU_of_nonneg (by omega) (by omega)]; omega
  have hq := Nat.div_add_mod m d
  have hr := Nat.mod_lt m hd
  have hqle : m / d ≤ m := Nat.div_le_self _ _
  have hrle : m % d ≤ m := Nat.mod_le _ _
  simp only [floor, ceil, e, Nat.ne_of_gt hd, if_false]
  rw [toI_small (u := m % d) (by omega), toI_small (u := m / d) (by omega)]
  generalize m / d = q at *
  generalize m % d = r at *
  have hq' : (d : Int) * q + r = m := by exact_mod_cast hq
  constructor
  · rw [if_neg (by omega)]
    refine ⟨q, rfl, ?_, ?_⟩
    · rw [Int.mul_comm]; omega
    · rw [Int.add_mul, Int.mul_comm]; omega
  · by_cases h : (r : Int) > 0
    · rw [if_pos h, chk_fits ⟨by omega, by omega⟩]
      refine ⟨q + 1, rfl, ?_, ?_⟩
      · rw [Int.add_mul, Int.mul_comm]; omega
      · rw [Int.add_sub_cancel, Int.mul_comm]; omega
    · rw [if_neg h]
      refine ⟨q, rfl, ?_, ?_⟩
      · rw [Int.mul_comm]; omega
      · rw [Int.sub_mul, Int.mul_comm]; omega

/-- C66 is false for negative numbers: the floor of `-1/2` is computed as `2^63 - 1`. -/
theorem C66_floor_violated :
    floor { n := -1, d := 2 } = some 9223372036854775807 ∧
    ceil { n := -3, d := 2 } = some 9223372036854775807 := by decide +kernel

example : floor { n := 11, d := 4 } = some 2 ∧ ceil { n := 11, d := 4 } = some 3 := by decide

/-! ## Power -/

/-- What the loop of `powerNumber` hands back: the last square. -/
theorem powLoop_spec (f : Nat) : ∀ (acc cur : Int) (expo : Nat) (r : Int),
    powLoop mulS f acc cur expo = some r → ∃ k, r = cur ^ (2 ^ k) ∧ expo < 2 ^ k := by
  induction f with
  | zero =>
    intro acc cur expo r h
    simp only [powLoop] at h
    split at h
    · cases h
    · cases h; exact ⟨0, by rw [Nat.pow_zero, Int.pow_succ, Int.pow_zero, Int.one_mul], by omega⟩
  | succ f ih =>
    intro acc cur expo r h
    simp only [powLoop] at h
    split at h
    · split at h
      · next acc' cur' _ h2 =>
        obtain ⟨k, h3, h4⟩ := ih _ _ _ _ h
        have h5 : cur' = cur * cur := by
          simp only [mulS, chk] at h2
          split at h2
          · exact (Option.some.inj h2).symm
          · cases h2
        refine ⟨k + 1, ?_, ?_⟩
        · rw [h3, h5, show cur * cur = cur ^ 2 by rw [Int.pow_succ, Int.pow_succ]; simp,
            ← Int.pow_mul, Nat.pow_succ, Nat.mul_comm]
        · rw [Nat.shiftRight_eq_div_pow] at h4
          rw [Nat.pow_succ]; omega
      · cases h
    · cases h; exact ⟨0, by rw [Nat.pow_zero, Int.pow_succ, Int.pow_zero, Int.one_mul], by omega⟩

/-- C53 is false for the code: `powerNumber` never returns the power when the base is not
`-1`, `0` or `1`. -/
theorem C53_powerNumber_violated (n : Int) (e : Nat) (hn : 2 ≤ n.natAbs) (r : Int)
    (h : powS n e = some r) : r ≠ n ^ e := by
  obtain ⟨k, h1, h2⟩ := powLoop_spec _ _ _ _ _ h
  intro h3
  have h4 : n.natAbs ^ (2 ^ k) = n.natAbs ^ e := by
    rw [← Int.natAbs_pow, ← Int.natAbs_pow, ← h1, h3]
  have := Nat.pow_lt_pow_right (a := n.natAbs) hn h2
  omega

/-- C53 for whole rationals: no integer base above one and no positive exponent gives the power. -/
theorem C53_power_violated (n : Int) (hn : 2 ≤ n) (hn1 : n < 9223372036854775808) (e : Int)
    (he : 0 < e) (he1 : e < 9223372036854775808) (r : Q) (h : power { n, d := 1 } e = some r) :
    r.n ≠ n ^ e.toNat * r.d := by
  simp only [power, if_neg (show ¬ e = 0 by omega), if_neg (show ¬ e < 0 by omega), powPos] at h
  rw [toU_of_nonneg (by omega) (by omega)] at h
  split at h
  · next m d h1 h2 =>
    have hd : d = 1 := by
      have : ∀ (f acc expo : Nat) (r : Nat), powLoop mulU f acc 1 expo = some r → r = 1 := by
        intro f
        induction f with
        | zero => intro acc expo r h; simp only [powLoop] at h; split at h <;> cases h; rfl
        | succ f ih =>
          intro acc expo r h
          simp only [powLoop] at h
          split at h
          · split at h
            · next _ c _ hc =>
              have : c = 1 := by simpa [mulU] using hc.symm
              subst this; exact ih _ _ _ h
            · cases h
          · cases h; rfl
      exact this _ _ _ _ h2
    subst hd
    have hmf : ∀ (f : Nat) (acc cur : Int) (expo : Nat) (r : Int), Fits cur →
        powLoop mulS f acc cur expo = some r → Fits r := by
      intro f
      induction f with
      | zero => intro acc cur expo r hc h; simp only [powLoop] at h; split at h <;> cases h; exact hc
      | succ f ih =>
        intro acc cur expo r hc h
        simp only [powLoop] at h
        split at h
        · split at h
          · next _ c _ hc' =>
            refine ih _ _ _ _ ?_ h
            simp only [mulS, chk] at hc'
            split at hc'
            · next hh => cases hc'; exact hh
            · cases hc'
          · cases h
        · cases h; exact hc
    have hm := hmf _ _ _ _ _ ⟨by omega, hn1⟩ h1
    have hne := C53_powerNumber_violated n e.toNat (by omega) m h1
    -- a denominator of one is already normal
    have hmpos : 0 < m := by
      obtain ⟨k, hk, -⟩ := powLoop_spec _ _ _ _ _ h1
      rw [hk]; exact Int.pow_pos (by omega)
    have := (norm_coprime (q := { n := m, d := 1 }) (by simp only; omega) hm.2 (by simp) (by simp)
      (by simp)).1
    rw [this] at h
    cases h
    simpa using hne
  · cases h

/-- The concrete case: `2 ^ 1` is computed as `4`, `2 ^ 3` as `16`. -/
example : power { n := 2, d := 1 } 1 = some { n := 4, d := 1 } ∧
    power { n := 2, d := 1 } 3 = some { n := 16, d := 1 } := by decide +kernel

/-- C53 (part that holds): the zeroth power, and all powers of 0 and 1.  Missing: every other base
(`C53_power_violated`). -/
theorem C53_power_partial (a : Q) (e : Nat) (he : e < 9223372036854775808) :
    power a 0 = some { n := 1, d := 1 } ∧
    power { n := 1, d := 1 } e = some { n := 1, d := 1 } ∧
    (0 < e → power { n := 0, d := 1 } e = some { n := 0, d := 1 }) := by
  have hU : ∀ (f acc expo : Nat), expo ≤ f → powLoop mulU f acc 1 expo = some 1 := by
    intro f
    induction f with
    | zero => intro acc expo h; simp [powLoop]; omega
    | succ f ih =>
      intro acc expo h
      simp only [powLoop]
      split
      · have : expo >>> 1 ≤ f := by rw [Nat.shiftRight_eq_div_pow]; omega
        split
        · next a' c h1 h2 =>
          have : c = 1 := by simpa [mulU] using h2.symm
          subst this; exact ih _ _ (by assumption)
        · next hh => exfalso; split at hh <;> simp [mulU] at hh
      · rfl
  have hS : ∀ (f : Nat) (acc cur : Int) (expo : Nat), expo ≤ f → (cur = 1 ∨ cur = 0) →
      (acc = 1 ∨ acc = 0) → powLoop mulS f acc cur expo = some cur := by
    intro f
    induction f with
    | zero => intro acc cur expo h _ _; simp [powLoop]; omega
    | succ f ih =>
      intro acc cur expo h hc ha
      have hle : expo >>> 1 ≤ f ∨ expo = 0 := by rw [Nat.shiftRight_eq_div_pow]; omega
      simp only [powLoop]
      split
      · have h2 : mulS cur cur = some cur := by rcases hc with rfl | rfl <;> decide
        have h3 : ∃ a', (if expo &&& 1 = 1 then mulS acc cur else some acc) = some a' ∧ (a' = 1 ∨ a' = 0) := by
          split
          · rcases hc with rfl | rfl <;> rcases ha with rfl | rfl <;> exact ⟨_, rfl, by decide⟩
          · exact ⟨acc, rfl, ha⟩
        obtain ⟨a', h3, h4⟩ := h3
        rw [h3, h2]
        exact ih _ _ _ (by omega) hc h4
      · rfl
  have eU : toU (e : Int) = e := by rw [toU_of_nonneg (by omega) (by omega)]; omega
  refine ⟨by simp [power], ?_, ?_⟩
  · by_cases h0 : e = 0
    · subst h0; decide
    · simp only [power, if_neg (show ¬ (e : Int) = 0 by omega), if_neg (show ¬ (e : Int) < 0 by omega), powPos,
        eU, powS, powU, hU e 1 e (Nat.le_refl _), hS e 1 1 e (Nat.le_refl _) (Or.inl rfl) (Or.inl rfl)]
      decide
  · intro h0
    simp only [power, if_neg (show ¬ (e : Int) = 0 by omega), if_neg (show ¬ (e : Int) < 0 by omega), powPos,
        eU, powS, powU, hU e 1 e (Nat.le_refl _), hS e 1 0 e (Nat.le_refl _) (Or.inr rfl) (Or.inl rfl)]
    decide

end LS.Rat64

import Verif.UrlEncode
import Verif.Base16Props
/-! # Property C08: URL encoding -/

namespace LS.UrlEncode
open LS.Base64 (cell)

/-! ## Specification -/

/-- Letters, digits, `_` and `-`. -/
def Unreserved (c : Nat) : Prop :=
  ('A'.toNat ≤ c ∧ c ≤ 'Z'.toNat) ∨ ('a'.toNat ≤ c ∧ c ≤ 'z'.toNat) ∨
  ('0'.toNat ≤ c ∧ c ≤ '9'.toNat) ∨ c = '_'.toNat ∨ c = '-'.toNat

instance (c : Nat) : Decidable (Unreserved c) := by unfold Unreserved; infer_instance

/-- An upper-case hexadecimal digit. -/
def HexDigit (c : Nat) : Prop := ('0'.toNat ≤ c ∧ c ≤ '9'.toNat) ∨ ('A'.toNat ≤ c ∧ c ≤ 'F'.toNat)

/-- Text made of unreserved characters and `%XX` triplets. -/
inductive Safe : List Nat → Prop
  | nil : Safe []
  | plain {c l} : Unreserved c → Safe l → Safe (c :: l)
  | triplet {h l r} : HexDigit h → HexDigit l → Safe r → Safe ('%'.toNat :: h :: l :: r)

/-- RFC 3986 style percent encoding. -/
def percent (bs : List Nat) : List Nat :=
  bs.flatMap fun b =>
    if Unreserved b then [b]
    else ['%'.toNat, Base16.hexUpper.getD (b / 16) 0, Base16.hexUpper.getD (b % 16) 0]

theorem keep_iff (c : Nat) : keep c = true ↔ Unreserved c := by
  simp only [keep, Unreserved, Char.toNat, Bool.or_eq_true, Bool.and_eq_true, decide_eq_true_eq,
    beq_iff_eq]
  simp only [or_assoc]
  exact Iff.rfl

theorem hexDigit_getD (i : Nat) (h : i < 16) : HexDigit (Base16.hexUpper.getD i 0) := by
  revert i; simp only [HexDigit]; decide

/-! ## Helper lemmas -/

/-- States the encoder can be in between writes. -/
def eidle (m r : Option Nat) (x y z : Option Nat) : Enc :=
  { buff := [x, y, z], maxread := m, readpos := r }

theorem enc_step {m r x y z : Option Nat} {b k : Nat} (hb : b < 256) :
    ∃ m' r' x' y' z', enc.writeToIter (k + 3) (eidle m r x y z) b =
      some (if Unreserved b then [b]
        else ['%'.toNat, Base16.hexUpper.getD (b / 16) 0, Base16.hexUpper.getD (b % 16) 0],
        eidle m' r' x' y' z') := by
  by_cases hu : Unreserved b
  · have hk := (keep_iff b).2 hu
    rw [if_pos hu]
    refine ⟨some 1, some 0, some b, y, z, ?_⟩
    refine enc.writeToIter_of (s1 := ⟨[some b, y, z], some 1, some 0, true, false, false⟩) rfl ?_
      (enc.drain_step rfl rfl (enc.drain_idle rfl))
    simp only [enc, Enc.write, hk]
    rfl
  · have hk : ¬ keep b = true := fun h => hu ((keep_iff b).1 h)
    rw [if_neg hu]
    have h1 : Base16.hexUpper[b >>> 4]? = some (Base16.hexUpper.getD (b / 16) 0) := by
      rw [Nat.shiftRight_eq_div_pow]; exact Base16.lookup rfl (by omega)
    have h2 : Base16.hexUpper[b &&& 15]? = some (Base16.hexUpper.getD (b % 16) 0) := by
      rw [and_15]; exact Base16.lookup rfl (by omega)
    generalize Base16.hexUpper.getD (b / 16) 0 = c0 at *
    generalize Base16.hexUpper.getD (b % 16) 0 = c1 at *
    have hw : Base16.Enc.default.write b =
        some ⟨Base16.hexUpper, [some c0, some c1], 0, true, false, false⟩ := by
      simp only [Base16.Enc.write, Base16.Enc.default, Base16.Enc.new, h1, h2]
    have g1 : Base16.Enc.getNext ⟨Base16.hexUpper, [some c0, some c1], 0, true, false, false⟩ =
        some (c0, ⟨Base16.hexUpper, [some c0, some c1], 1, true, false, false⟩) := by
      simp [Base16.Enc.getNext, cell]
    have g2 : Base16.Enc.getNext ⟨Base16.hexUpper, [some c0, some c1], 1, true, false, false⟩ =
        some (c1, ⟨Base16.hexUpper, [some c0, some c1], 0, false, true, false⟩) := by
      simp [Base16.Enc.getNext, cell]
    refine ⟨some 3, some 0, some 37, some c0, some c1, ?_⟩
    refine enc.writeToIter_of
      (s1 := ⟨[some 37, some c0, some c1], some 3, some 0, true, false, false⟩) rfl ?_
      (enc.drain_step rfl rfl (enc.drain_step rfl rfl (enc.drain_step rfl rfl (enc.drain_idle rfl))))
    simp only [enc, Enc.write, if_neg hk, hw, g1, g2]
    rfl

theorem enc_run (k : Nat) (bs : List Nat) : ∀ (m r x y z : Option Nat), Bytes bs →
    enc.run (k + 3) (eidle m r x y z) bs = some (percent bs) := by
  induction bs with
  | nil => intro m r x y z _; rfl
  | cons b bs ih =>
    intro m r x y z hb
    rw [Bytes_cons] at hb
    obtain ⟨m', r', x', y', z', h⟩ :=
      enc_step (k := k) (m := m) (r := r) (x := x) (y := y) (z := z) hb.1
    rw [enc.run_cons h, ih _ _ _ _ _ hb.2]
    rfl

/-- States of the decoder between complete items. -/
def didle (x y z : Option Nat) : Dec := { buff := [x, y, z] }

theorem dec_plain {x y z : Option Nat} {b k : Nat} (hb : b ≠ 43) (hb' : b ≠ 37) :
    dec.writeToIter (k + 1) (didle x y z) b = some ([b], didle (some b) y z) := by
  refine dec.writeToIter_of (s1 := ⟨[some b, y, z], 0, true, false, false⟩) rfl ?_
    (dec.drain_step rfl rfl (dec.drain_idle rfl))
  simp only [dec, Dec.write, didle, if_neg hb, if_neg hb']
  rfl

theorem dec_percent {x y z : Option Nat} {k : Nat} :
    dec.writeToIter (k + 1) (didle x y z) 37 = some ([], ⟨[some 37, y, z], 1, false, true, false⟩) := rfl

theorem dec_h1 {x y z : Option Nat} {h k : Nat} :
    dec.writeToIter (k + 1) ⟨[x, y, z], 1, false, true, false⟩ h =
      some ([], ⟨[x, some h, z], 2, false, true, false⟩) := rfl

theorem dec_h2 {x z : Option Nat} {i j k : Nat} (hi : i < 16) (hj : j < 16) :
    dec.writeToIter (k + 1) ⟨[x, some (Base16.hexUpper.getD i 0), z], 2, false, true, false⟩
      (Base16.hexUpper.getD j 0) =
      some ([i * 16 + j], didle (some (i * 16 + j)) (some (Base16.hexUpper.getD i 0))
        (some (Base16.hexUpper.getD j 0))) := by
  have ti := Base16.table_default i hi
  have tj := Base16.table_default j hj
  generalize Base16.hexUpper.getD i 0 = c0 at *
  generalize Base16.hexUpper.getD j 0 = c1 at *
  have e : (i <<< 4) &&& 255 = i * 16 := by rw [and_255, Nat.shiftLeft_eq]; omega
  have e2 : i * 16 ||| j = i * 16 + j := or_add (k := 4) i rfl (by omega)
  have w1 : Base16.Dec.default.write c0 =
      some ⟨Base16.Dec.default.table, some (i * 16), 1, false, true, false⟩ := by
    simp only [Base16.Dec.write, ti, e]; rfl
  have w2 : Base16.Dec.write ⟨Base16.Dec.default.table, some (i * 16), 1, false, true, false⟩ c1 =
      some ⟨Base16.Dec.default.table, some (i * 16 + j), 0, true, false, false⟩ := by
    simp only [Base16.Dec.write, tj, e2]; rfl
  refine dec.writeToIter_of (s1 := ⟨[some (i * 16 + j), some c0, some c1], 0, true, false, false⟩)
    rfl ?_ (dec.drain_step rfl rfl (dec.drain_idle rfl))
  simp [dec, Dec.write, cell, w1, w2, Base16.Dec.getNext]

theorem dec_run (k : Nat) (bs : List Nat) : ∀ (x y z : Option Nat), Bytes bs →
    dec.run (k + 1) (didle x y z) (percent bs) = some bs := by
  induction bs with
  | nil => intro x y z _; rfl
  | cons b bs ih =>
    intro x y z hb
    rw [Bytes_cons] at hb
    by_cases hk : Unreserved b
    · have e : percent (b :: bs) = b :: percent bs := by
        simp only [percent, List.flatMap_cons, if_pos hk]; rfl
      have h1 : b ≠ 43 := by rintro rfl; revert hk; decide
      have h2 : b ≠ 37 := by rintro rfl; revert hk; decide
      rw [e, dec.run_cons (dec_plain h1 h2), ih _ _ _ hb.2]
      rfl
    · have e : percent (b :: bs) = 37 :: Base16.hexUpper.getD (b / 16) 0 ::
          Base16.hexUpper.getD (b % 16) 0 :: percent bs := by
        simp only [percent, List.flatMap_cons, if_neg hk]; rfl
      have e2 : b / 16 * 16 + b % 16 = b := by omega
      rw [e, dec.run_cons dec_percent, dec.run_cons dec_h1,
        dec.run_cons (dec_h2 (by omega) (by omega)), ih _ _ _ hb.2, e2]
      rfl

theorem percent_safe {bs : List Nat} (hb : Bytes bs) : Safe (percent bs) := by
  induction bs with
  | nil => exact Safe.nil
  | cons b bs ih =>
    rw [Bytes_cons] at hb
    by_cases hk : Unreserved b
    · have e : percent (b :: bs) = b :: percent bs := by
        simp only [percent, List.flatMap_cons, if_pos hk]; rfl
      rw [e]; exact Safe.plain hk (ih hb.2)
    · have e : percent (b :: bs) = 37 :: Base16.hexUpper.getD (b / 16) 0 ::
          Base16.hexUpper.getD (b % 16) 0 :: percent bs := by
        simp only [percent, List.flatMap_cons, if_neg hk]; rfl
      rw [e]
      exact Safe.triplet (hexDigit_getD _ (by omega)) (hexDigit_getD _ (by omega)) (ih hb.2)

/-! ## Property theorem -/

/-- C08: for every byte string the encoder's text consists of unreserved characters and `%XX`
triplets only, and the decoder turns it back into the same bytes. -/
theorem C08_urlencode {bs : List Nat} (hb : Bytes bs) {fuel : Nat} (hf : 3 ≤ fuel) :
    ∃ text, enc.run fuel {} bs = some text ∧ Safe text ∧ dec.run fuel {} text = some bs := by
  obtain ⟨k, rfl⟩ : ∃ k, fuel = k + 3 := ⟨fuel - 3, by omega⟩
  exact ⟨_, enc_run k bs none none none none none hb, percent_safe hb,
    dec_run (k + 2) bs none none none hb⟩

/-- Unreserved bytes are passed through unchanged and nothing else is. -/
theorem C08_passthrough {b : Nat} (hb : b < 256) {fuel : Nat} (hf : 3 ≤ fuel) :
    enc.run fuel {} [b] = some [b] ↔ Unreserved b := by
  obtain ⟨k, rfl⟩ : ∃ k, fuel = k + 3 := ⟨fuel - 3, by omega⟩
  rw [show enc.run (k + 3) {} [b] = _ from
    enc_run k [b] none none none none none (by simp [hb])]
  by_cases hk : Unreserved b <;> simp [percent, hk]

/-- C08: `+` in a URL decodes to a space, in every context between complete items. -/
theorem C08_plus_is_space {bs cs : List Nat} (hb : Bytes bs) (hc : Bytes cs) {fuel : Nat}
    (hf : 1 ≤ fuel) :
    dec.run fuel {} (percent bs ++ 43 :: percent cs) = some (bs ++ 32 :: cs) := by
  obtain ⟨k, rfl⟩ : ∃ k, fuel = k + 1 := ⟨fuel - 1, by omega⟩
  suffices h : ∀ (x y z : Option Nat),
      dec.run (k + 1) (didle x y z) (percent bs ++ 43 :: percent cs) = some (bs ++ 32 :: cs) from
    h none none none
  induction bs with
  | nil =>
    intro x y z
    have : dec.writeToIter (k + 1) (didle x y z) 43 = some ([32], didle (some 32) y z) := by
      exact dec.writeToIter_of (s1 := ⟨[some 32, y, z], 0, true, false, false⟩) rfl rfl
        (dec.drain_step rfl rfl (dec.drain_idle rfl))
    simp only [percent, List.flatMap_nil, List.nil_append]
    rw [dec.run_cons this]
    have := dec_run k cs (some 32) y z hc
    simp only [percent] at this
    rw [this]; rfl
  | cons b bs ih =>
    intro x y z
    rw [Bytes_cons] at hb
    by_cases hk : Unreserved b
    · have e : percent (b :: bs) = b :: percent bs := by
        simp only [percent, List.flatMap_cons, if_pos hk]; rfl
      have h1 : b ≠ 43 := by rintro rfl; revert hk; decide
      have h2 : b ≠ 37 := by rintro rfl; revert hk; decide
      rw [e, List.cons_append, dec.run_cons (dec_plain h1 h2), ih hb.2]
      rfl
    · have e : percent (b :: bs) = 37 :: Base16.hexUpper.getD (b / 16) 0 ::
          Base16.hexUpper.getD (b % 16) 0 :: percent bs := by
        simp only [percent, List.flatMap_cons, if_neg hk]; rfl
      have e2 : b / 16 * 16 + b % 16 = b := by omega
      rw [e, List.cons_append, List.cons_append, List.cons_append, dec.run_cons dec_percent,
        dec.run_cons dec_h1, dec.run_cons (dec_h2 (by omega) (by omega)), ih hb.2, e2]
      rfl

/-! Concrete cases: "a b/é" -/
example : enc.run 3 {} [97, 32, 98, 47, 0xC3, 0xA9] =
    some [97, 37, 50, 48, 98, 37, 50, 70, 37, 67, 51, 37, 65, 57] := by decide +kernel
example : Bytes [97, 32, 98, 47, 0xC3, 0xA9] := by decide
example : dec.run 3 {} [97, 43, 98] = some [97, 32, 98] := by decide +kernel

end LS.UrlEncode

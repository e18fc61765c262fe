import Verif.StrToD
import Mathlib.Algebra.Order.Field.Power
import Mathlib.Data.Rat.Cast.Order
import Mathlib.Tactic.FieldSimp
import Mathlib.Tactic.Ring
import Mathlib.Tactic.Linarith
import Mathlib.Tactic.NormNum
import Mathlib.Tactic.Positivity
/-
C139: the text of a decimal number becomes its value.
-/
namespace LS.StrToD

/-! ### The specification: what a number looks like and what it is worth -/

/-- A number written in the text: white space, sign, digits of the whole part,
digits behind the point, the letter, sign and digits of the exponent. -/
structure Num where
  ws : List Nat
  sg : List Nat
  i : List Nat
  f : Option (List Nat)
  ex : Option (Nat × List Nat × List Nat)

def Num.fr (n : Num) : List Nat := n.f.getD []
def Num.frText (n : Num) : List Nat := match n.f with | none => [] | some f => 46 :: f
def Num.exText (n : Num) : List Nat := match n.ex with | none => [] | some (c, s, d) => c :: (s ++ d)
def Num.text (n : Num) : List Nat := n.ws ++ (n.sg ++ (n.i ++ (n.frText ++ n.exText)))

def Sign (s : List Nat) : Prop := s = [] ∨ s = [43] ∨ s = [45]
def Digits (d : List Nat) : Prop := ∀ c ∈ d, 48 ≤ c ∧ c ≤ 57

/-- Decimal digits as a natural number. -/
def dec (d : List Nat) : Nat := d.foldl (fun a c => a * 10 + (c - 48)) 0

/-- What follows does not continue the number. -/
def Num.Stops (n : Num) (rest : List Nat) : Prop :=
  match rest with
  | [] => True
  | c :: _ =>
    ¬ (48 ≤ c ∧ c ≤ 57) ∧
    match n.ex with
    | none => c ≠ 69 ∧ c ≠ 101 ∧ (n.f = none → c ≠ 46)
    | some (_, s, d) => s = [] → d = [] → c ≠ 43 ∧ c ≠ 45

/-- A number, its exponent may lack digits. -/
structure Num.Loose (n : Num) : Prop where
  ws : ∀ c ∈ n.ws, c = 32 ∨ (9 ≤ c ∧ c ≤ 13)
  sg : Sign n.sg
  i : Digits n.i
  f : Digits n.fr
  some : n.i ++ n.fr ≠ []
  ex : ∀ c s d, n.ex = .some (c, s, d) → (c = 69 ∨ c = 101) ∧ Sign s ∧ Digits d

/-- A number; the exponent has digits. -/
def Num.Strict (n : Num) : Prop := n.Loose ∧ ∀ c s d, n.ex = some (c, s, d) → d ≠ []

def Num.neg (n : Num) : Bool := n.sg == [45]
/-- The exponent as written. -/
def Num.e (n : Num) : Int :=
  match n.ex with
  | none => 0
  | some (_, s, d) => if s = [45] then -(dec d : Int) else dec d

/-- The value of the number. -/
def Num.value (n : Num) : ℚ :=
  (if n.neg then -1 else 1) * ((dec n.i : ℚ) + (dec n.fr : ℚ) / 10 ^ n.fr.length) * 10 ^ n.e

/-- All digits of the mantissa. -/
def Num.mant (n : Num) : List Nat := n.i ++ n.fr

/-- What the program's result is worth. -/
def Val.value : Val → Option ℚ
  | .num neg f e => some ((if neg then -1 else 1) * (f : ℚ) * 10 ^ e)
  | .zero _ => some 0
  | _ => none

/-- Digits that do not fit. -/
def Num.drop (n : Num) : Nat := n.mant.length - 18
/-- The exponent of the integer in the result. -/
def Num.E (n : Num) : Int := n.e - n.fr.length + n.drop

/-! ### Lemmas -/

theorem isDigit_iff (c : Nat) : isDigit c = true ↔ 48 ≤ c ∧ c ≤ 57 := by
  simp [isDigit]

theorem isSpace_iff (c : Nat) : isSpace c = true ↔ c = 32 ∨ (9 ≤ c ∧ c ≤ 13) := by
  simp [isSpace]

theorem skipWs_app (ws r : List Nat) (h : ∀ c ∈ ws, c = 32 ∨ (9 ≤ c ∧ c ≤ 13)) (hr : isSpace (at0 r) = false) :
    skipWs (ws ++ r) = r := by
  induction ws with
  | nil =>
    cases r with
    | nil => rfl
    | cons c r => simp only [at0] at hr; simp [skipWs, hr]
  | cons c ws ih =>
    have hc := (isSpace_iff c).2 (h c (by simp))
    simp only [List.cons_append, skipWs, hc, if_true]
    exact ih (fun x hx => h x (by simp [hx]))

theorem scanMant_app (ds r : List Nat) (h : Digits ds) (m : Nat) (d : Option Nat) :
    scanMant m d (ds ++ r) = scanMant (m + ds.length) d r := by
  induction ds generalizing m with
  | nil => rfl
  | cons c ds ih =>
    have hc := (isDigit_iff c).2 (h c (by simp))
    simp only [List.cons_append, scanMant, hc, if_true]
    rw [ih (fun x hx => h x (by simp [hx]))]
    simp only [List.length_cons]
    congr 1; omega

/-- Neither a digit nor the first point. -/
def MStop (d : Option Nat) (r : List Nat) : Prop := ¬ (48 ≤ at0 r ∧ at0 r ≤ 57) ∧ (at0 r = 46 → d ≠ none)

theorem scanMant_stop (m : Nat) (d : Option Nat) (r : List Nat) (h : MStop d r) : scanMant m d r = (m, d, r) := by
  cases r with
  | nil => rfl
  | cons c r =>
    have h1 : isDigit c = false := by
      cases hh : isDigit c with
      | false => rfl
      | true => exact absurd ((isDigit_iff c).1 hh) h.1
    have h2 : ¬ (c = 46 ∧ d = none) := fun hh => h.2 hh.1 hh.2
    simp [scanMant, h1, h2]

theorem suck_acc (n : Nat) (a : Int) (p : List Nat) :
    suck n a p = (a * 10 ^ n + (suck n 0 p).1, (suck n 0 p).2) := by
  induction n generalizing a p with
  | zero => simp [suck]
  | succ n ih =>
    simp only [suck]
    split
    · rw [ih, ih (10 * 0 + _)]
      simp only [Prod.mk.injEq, and_true]
      ring
    · rw [ih, ih (10 * 0 + _)]
      simp only [Prod.mk.injEq, and_true]
      ring

theorem suck_add (m n : Nat) (a : Int) (p : List Nat) :
    suck (m + n) a p = suck n (suck m a p).1 (suck m a p).2 := by
  induction m generalizing a p with
  | zero => simp [suck]
  | succ m ih =>
    rw [show m + 1 + n = (m + n) + 1 by omega]
    simp only [suck]
    split
    · exact ih _ _
    · exact ih _ _

def foldD (a : Nat) (d : List Nat) : Nat := d.foldl (fun a c => a * 10 + (c - 48)) a

theorem foldD_eq (a : Nat) (d : List Nat) : foldD a d = a * 10 ^ d.length + dec d := by
  induction d generalizing a with
  | nil => simp [foldD, dec]
  | cons c d ih =>
    have h1 : foldD a (c :: d) = foldD (a * 10 + (c - 48)) d := rfl
    have h2 : dec (c :: d) = foldD (0 * 10 + (c - 48)) d := rfl
    rw [h1, h2, ih, ih, List.length_cons, pow_succ]
    ring

theorem foldD_app (a : Nat) (x y : List Nat) : foldD a (x ++ y) = foldD (foldD a x) y := by
  simp [foldD, List.foldl_append]

theorem dec_app (x y : List Nat) : dec (x ++ y) = dec x * 10 ^ y.length + dec y := by
  have : dec (x ++ y) = foldD (dec x) y := foldD_app 0 x y
  rw [this, foldD_eq]

theorem dec_lt (y : List Nat) (h : Digits y) : dec y < 10 ^ y.length := by
  induction y with
  | nil => simp [dec]
  | cons c y ih =>
    have h1 : dec (c :: y) = foldD (0 * 10 + (c - 48)) y := rfl
    have hc := h c (by simp)
    have := ih (fun x hx => h x (by simp [hx]))
    rw [h1, foldD_eq, List.length_cons, pow_succ]
    have : (0 * 10 + (c - 48)) ≤ 9 := by omega
    have : (0 * 10 + (c - 48)) * 10 ^ y.length ≤ 9 * 10 ^ y.length := Nat.mul_le_mul_right _ this
    omega

theorem suck_cons (k : Nat) (a : Int) (c : Nat) (r : List Nat) (hc : c ≠ 46) :
    suck (k + 1) a (c :: r) = suck k (10 * a + ((c : Int) - 48)) r := by
  show (if c = 46 then _ else _) = _
  exact if_neg hc

theorem skipSign_ne (p : List Nat) (h : at0 p ≠ 45 ∧ at0 p ≠ 43) : skipSign p = p := by
  unfold skipSign
  exact if_neg (by omega)

theorem skipSign_minus (r : List Nat) : skipSign (45 :: r) = r := rfl
theorem skipSign_plus (r : List Nat) : skipSign (43 :: r) = r := rfl

theorem suck_digits (ds : List Nat) (h : Digits ds) (k : Nat) (a : Nat) (r : List Nat) :
    suck (ds.length + k) a (ds ++ r) = suck k (foldD a ds : Nat) r := by
  induction ds generalizing a with
  | nil => simp [foldD]
  | cons c ds ih =>
    have hc := h c (by simp)
    rw [show (c :: ds).length + k = (ds.length + k) + 1 by simp; omega]
    have h46 : c ≠ 46 := by omega
    rw [List.cons_append, suck_cons _ _ _ _ h46]
    have e : (10 * (a : Int) + ((c : Int) - 48)) = ((a * 10 + (c - 48) : Nat) : Int) := by
      push_cast [hc.1]; ring
    rw [e, ih (fun x hx => h x (by simp [hx]))]
    rfl

theorem at0_cons (c : Nat) (r : List Nat) : at0 (c :: r) = c := rfl

theorem adv_cons (c : Nat) (r : List Nat) : adv (c :: r) = r := rfl

theorem suck_point (k : Nat) (a : Int) (c : Nat) (r : List Nat) (hc : c ≠ 46) :
    suck (k + 1) a (46 :: c :: r) = suck (k + 1) a (c :: r) := by
  simp [suck, at0, adv, hc]

theorem suck_take (ds : List Nat) (h : Digits ds) (k : Nat) (hk : k ≤ ds.length) (a : Nat) (r : List Nat) :
    (suck k a (ds ++ r)).1 = (foldD a (ds.take k) : Nat) := by
  have e : ds ++ r = ds.take k ++ (ds.drop k ++ r) := by rw [← List.append_assoc, List.take_append_drop]
  have h1 : Digits (ds.take k) := fun x hx => h x (List.mem_of_mem_take hx)
  have := suck_digits (ds.take k) h1 0 a (ds.drop k ++ r)
  rw [List.length_take, Nat.min_eq_left hk, Nat.add_zero] at this
  rw [e, this]
  rfl

/-- The digits of the mantissa, with the point anywhere between them. -/
theorem suck_mant (n : Num) (h : n.Loose) (k : Nat) (hk : k ≤ n.mant.length) (r : List Nat) :
    (suck k 0 (n.i ++ (n.frText ++ r))).1 = (dec (n.mant.take k) : Nat) := by
  have hm : n.mant.length = n.i.length + n.fr.length := by simp [Num.mant]
  by_cases hki : k ≤ n.i.length
  · rw [show (0 : Int) = ((0 : Nat) : Int) from rfl, suck_take n.i h.i k hki]
    simp only [Num.mant, List.take_append_of_le_length hki]
    rfl
  · obtain ⟨j, rfl⟩ : ∃ j, k = n.i.length + (j + 1) := ⟨k - n.i.length - 1, by omega⟩
    rw [show (0 : Int) = ((0 : Nat) : Int) from rfl, suck_digits n.i h.i]
    have hf : ∃ c f, n.f = some (c :: f) := by
      cases hh : n.f with
      | none => simp [Num.fr, hh] at hm; omega
      | some f =>
        cases f with
        | nil => simp [Num.fr, hh] at hm; omega
        | cons c f => exact ⟨c, f, rfl⟩
    obtain ⟨c, f, hf⟩ := hf
    have hfr : n.fr = c :: f := by simp [Num.fr, hf]
    have hd : Digits (c :: f) := hfr ▸ h.f
    have hc := hd c (by simp)
    have e : n.frText ++ r = 46 :: c :: (f ++ r) := by simp [Num.frText, hf]
    rw [e, suck_point _ _ _ _ (by omega)]
    have := suck_take (c :: f) hd (j + 1) (by rw [hm, hfr] at hk; omega) (foldD 0 n.i) r
    rw [List.cons_append] at this
    rw [this]
    have e2 : n.mant.take (n.i.length + (j + 1)) = n.i ++ (c :: f).take (j + 1) := by
      simp [Num.mant, hfr, List.take_append]
    rw [e2, ← foldD_app]
    rfl

theorem dec_take (d : List Nat) (h : Digits d) (k : Nat) :
    dec (d.take k) = dec d / 10 ^ (d.length - k) := by
  have e : dec d = dec (d.take k) * 10 ^ (d.length - k) + dec (d.drop k) := by
    conv => lhs; rw [← List.take_append_drop k d]
    rw [dec_app, List.length_drop]
  have hl : dec (d.drop k) < 10 ^ (d.length - k) := by
    have := dec_lt (d.drop k) (fun x hx => h x (List.mem_of_mem_drop hx))
    rwa [List.length_drop] at this
  rw [e, Nat.mul_comm, Nat.mul_add_div (by positivity), Nat.div_eq_of_lt hl, Nat.add_zero]

theorem foldD_ge (a : Nat) (d : List Nat) : a ≤ foldD a d := by
  rw [foldD_eq]
  have : 1 ≤ 10 ^ d.length := Nat.one_le_pow _ _ (by decide)
  nlinarith

theorem scanExp_app (ds r : List Nat) (h : Digits ds) (e : Nat) (hr : ¬ (48 ≤ at0 r ∧ at0 r ≤ 57)) (he : e ≤ intMax) :
    scanExp e (ds ++ r) = if foldD e ds > intMax then .error .ub else .ok (foldD e ds, r) := by
  induction ds generalizing e with
  | nil =>
    have : ¬ foldD e [] > intMax := by simp only [foldD, List.foldl_nil]; omega
    rw [if_neg this]
    cases r with
    | nil => rfl
    | cons c r =>
      have h1 : isDigit c = false := by
        cases hh : isDigit c with
        | false => rfl
        | true => exact absurd ((isDigit_iff c).1 hh) hr
      simp [scanExp, h1, foldD]
  | cons c ds ih =>
    have hc := (isDigit_iff c).2 (h c (by simp))
    have e1 : foldD e (c :: ds) = foldD (e * 10 + (c - 48)) ds := rfl
    simp only [List.cons_append, scanExp, hc, if_true]
    rw [e1]
    have hge := foldD_ge (e * 10 + (c - 48)) ds
    split
    · rw [if_pos (by omega)]
    · exact ih (fun x hx => h x (by simp [hx])) _ (by omega)

/-- The written exponent without its sign. -/
def Num.expAbs (n : Num) : Nat := match n.ex with | none => 0 | some (_, _, d) => dec d
def Num.expNeg (n : Num) : Bool := match n.ex with | none => false | some (_, s, _) => s == [45]

theorem stops_at0 (n : Num) (rest : List Nat) (h : n.Stops rest) : ¬ (48 ≤ at0 rest ∧ at0 rest ≤ 57) := by
  cases rest with
  | nil => simp [at0]
  | cons c r => exact h.1

theorem expPart_app (n : Num) (h : n.Loose) (rest : List Nat) (hs : n.Stops rest) :
    expPart (n.exText ++ rest) =
      if n.expAbs > intMax then .error .ub else .ok (n.expNeg, n.expAbs, rest) := by
  have hd := stops_at0 n rest hs
  cases hx : n.ex with
  | none =>
    have : ¬ (at0 rest = 69 ∨ at0 rest = 101) := by
      cases rest with
      | nil => simp [at0]
      | cons c r =>
        have := hs.2
        simp only [hx] at this
        simp only [at0]; omega
    simp [Num.exText, Num.expAbs, Num.expNeg, hx, expPart, this]
  | some t =>
    obtain ⟨c, s, d⟩ := t
    obtain ⟨hc, hsg, hdd⟩ := h.ex c s d hx
    have e0 : n.exText ++ rest = c :: (s ++ (d ++ rest)) := by simp [Num.exText, hx]
    have e1 : n.expAbs = foldD 0 d := by simp [Num.expAbs, hx, dec, foldD]
    have e2 : n.expNeg = (s == [45]) := by simp [Num.expNeg, hx]
    rw [e0, e1, e2]
    unfold expPart
    rw [if_pos (by simpa [at0] using hc)]
    simp only [adv_cons]
    have key := scanExp_app d rest hdd 0 hd (Nat.zero_le _)
    rcases hsg with hsg | hsg | hsg
    · subst hsg
      have hn : at0 (d ++ rest) ≠ 45 ∧ at0 (d ++ rest) ≠ 43 := by
        cases d with
        | nil =>
          cases rest with
          | nil => simp [at0]
          | cons c' r =>
            have := hs.2
            simp [hx] at this
            simp only [List.nil_append, at0]; omega
        | cons x d =>
          have := hdd x (by simp)
          simp only [List.cons_append, at0]; omega
      have hb : (at0 (d ++ rest) == 45) = false := by simp [hn.1]
      simp only [List.nil_append]
      rw [skipSign_ne _ hn, key, hb]
      by_cases ho : foldD 0 d > intMax
      · simp only [if_pos ho]
      · simp only [if_neg ho]; rfl
    · subst hsg
      simp only [List.cons_append, List.nil_append, skipSign_plus, at0_cons]
      rw [key]
      by_cases ho : foldD 0 d > intMax
      · simp only [if_pos ho]
      · simp only [if_neg ho]; rfl
    · subst hsg
      simp only [List.cons_append, List.nil_append, skipSign_minus, at0_cons]
      rw [key]
      by_cases ho : foldD 0 d > intMax
      · simp only [if_pos ho]
      · simp only [if_neg ho]; rfl

theorem first_mant (n : Num) (h : n.Loose) (r : List Nat) :
    (48 ≤ at0 (n.i ++ (n.frText ++ r)) ∧ at0 (n.i ++ (n.frText ++ r)) ≤ 57) ∨ at0 (n.i ++ (n.frText ++ r)) = 46 := by
  cases hi : n.i with
  | cons c i =>
    have := h.i c (by simp [hi])
    left; simpa [at0] using this
  | nil =>
    cases hf : n.f with
    | none => exact absurd (by simp [hi, Num.fr, hf]) h.some
    | some f => right; simp [Num.frText, hf, at0]

theorem mstop (n : Num) (h : n.Loose) (rest : List Nat) (hs : n.Stops rest) (d : Option Nat)
    (hd : n.f ≠ none → d ≠ none) : MStop d (n.exText ++ rest) := by
  cases hx : n.ex with
  | none =>
    simp only [Num.exText, hx, List.nil_append]
    refine ⟨stops_at0 n rest hs, ?_⟩
    intro h46
    cases rest with
    | nil => simp [at0] at h46
    | cons c r =>
      have := hs.2
      simp only [hx] at this
      apply hd
      intro hf
      exact this.2.2 hf h46
  | some t =>
    obtain ⟨c, s, d'⟩ := t
    obtain ⟨hc, _, _⟩ := h.ex c s d' hx
    simp only [Num.exText, hx, List.cons_append]
    exact ⟨by simp only [at0]; omega, by simp only [at0]; omega⟩

theorem scanMant_num (n : Num) (h : n.Loose) (rest : List Nat) (hs : n.Stops rest) :
    scanMant 0 none (n.i ++ (n.frText ++ (n.exText ++ rest))) =
      match n.f with
      | none => (n.i.length, none, n.exText ++ rest)
      | some f => (n.i.length + 1 + f.length, some n.i.length, n.exText ++ rest) := by
  rw [scanMant_app _ _ h.i]
  cases hf : n.f with
  | none =>
    simp only [Num.frText, hf, List.nil_append, Nat.zero_add]
    exact scanMant_stop _ _ _ (mstop n h rest hs none (by simp [hf]))
  | some f =>
    have hd : Digits f := by have := h.f; simpa [Num.fr, hf] using this
    have : isDigit 46 = false := by decide
    simp only [Num.frText, hf, List.cons_append, Nat.zero_add, scanMant, this, Bool.false_eq_true, if_false, and_self, if_true]
    rw [scanMant_app _ _ hd]
    exact scanMant_stop _ _ _ (mstop n h rest hs _ (by simp))

/-- What `strtod` returns for a number followed by something. -/
theorem strtod_num (n : Num) (h : n.Loose) (rest : List Nat) (hs : n.Stops rest) :
    strtod (n.text ++ rest) =
      if n.expAbs > intMax then .error .ub
      else match scale n.neg (dec n.mant / 10 ^ n.drop : Nat) n.E with
        | .error e => .error e
        | .ok v => .ok (v, n.text.length) := by
  have et : n.text ++ rest = n.ws ++ (n.sg ++ (n.i ++ (n.frText ++ (n.exText ++ rest)))) := by
    simp [Num.text, List.append_assoc]
  have hfm := first_mant n h (n.exText ++ rest)
  have hsp : isSpace (at0 (n.sg ++ (n.i ++ (n.frText ++ (n.exText ++ rest))))) = false := by
    cases hh : isSpace (at0 (n.sg ++ (n.i ++ (n.frText ++ (n.exText ++ rest))))) with
    | false => rfl
    | true =>
      have := (isSpace_iff _).1 hh
      rcases h.sg with e | e | e
      · rw [e, List.nil_append] at this; omega
      · rw [e] at this; simp [at0] at this
      · rw [e] at this; simp [at0] at this
  have hsk : skipWs (n.text ++ rest) = n.sg ++ (n.i ++ (n.frText ++ (n.exText ++ rest))) := by
    rw [et]; exact skipWs_app _ _ h.ws hsp
  have hneg : (at0 (n.sg ++ (n.i ++ (n.frText ++ (n.exText ++ rest)))) == 45) = n.neg := by
    rcases h.sg with e | e | e
    · have : at0 (n.i ++ (n.frText ++ (n.exText ++ rest))) ≠ 45 := by omega
      simp [Num.neg, e, this]
    · simp [Num.neg, e, at0]
    · simp [Num.neg, e, at0]
  have hp : skipSign (n.sg ++ (n.i ++ (n.frText ++ (n.exText ++ rest)))) = n.i ++ (n.frText ++ (n.exText ++ rest)) := by
    rcases h.sg with e | e | e
    · rw [e, List.nil_append]; exact skipSign_ne _ (by omega)
    · rw [e]; rfl
    · rw [e]; rfl
  have hlen : n.mant.length = n.i.length + n.fr.length := by simp [Num.mant]
  have hpos : 0 < n.mant.length := by
    have : n.mant ≠ [] := h.some
    exact List.length_pos_iff.2 this
  have hdig : Digits n.mant := by
    intro c hc
    rcases List.mem_append.1 hc with hc | hc
    · exact h.i c hc
    · exact h.f c hc
  have hsc : ∃ m d, scanMant 0 none (n.i ++ (n.frText ++ (n.exText ++ rest))) = (m, d, n.exText ++ rest) ∧
      point m d = (n.i.length, n.mant.length) := by
    rw [scanMant_num n h rest hs]
    cases hf : n.f with
    | none => refine ⟨_, _, rfl, ?_⟩; simp [point, hlen, Num.fr, hf]
    | some f => refine ⟨_, _, rfl, ?_⟩; simp only [point, hlen, Num.fr, hf, Option.getD_some, Prod.mk.injEq, true_and]; omega
  obtain ⟨m, d, hs1, hs2⟩ := hsc
  unfold strtod
  simp only [hsk, hneg, hp, hs1, hs2]
  have hcut : cut n.i.length n.mant.length = ((n.drop : Int) - n.fr.length, n.mant.length - n.drop) := by
    unfold cut Num.drop
    split
    · refine Prod.ext ?_ ?_
      · simp only []; omega
      · simp only []; omega
    · refine Prod.ext ?_ ?_
      · simp only []; omega
      · simp only []; omega
  simp only [hcut]
  have hk : n.mant.length - n.drop ≤ n.mant.length ∧ 0 < n.mant.length - n.drop ∧ n.mant.length - n.drop ≤ 18 := by
    unfold Num.drop; omega
  generalize hkk : n.mant.length - n.drop = k at hk
  rw [if_neg (by omega)]
  have hfrac : 1000000000 * (suck (k - 9) 0 (n.i ++ (n.frText ++ (n.exText ++ rest)))).1 +
      (suck (min k 9) 0 (suck (k - 9) 0 (n.i ++ (n.frText ++ (n.exText ++ rest)))).2).1 =
      ((dec n.mant / 10 ^ n.drop : Nat) : Int) := by
    have e := suck_mant n h k hk.1 (n.exText ++ rest)
    rw [dec_take n.mant hdig k] at e
    have ek : n.mant.length - k = n.drop := by unfold Num.drop at *; omega
    rw [ek] at e
    rw [← e]
    by_cases h9 : 9 ≤ k
    · have e2 : k = (k - 9) + 9 := by omega
      conv => rhs; rw [e2]
      rw [suck_add, suck_acc 9, Nat.min_eq_right h9]
      simp only []; ring
    · rw [Nat.min_eq_left (by omega), show k - 9 = 0 by omega]
      simp [suck]
  rw [hfrac, expPart_app n h rest hs]
  by_cases ho : n.expAbs > intMax
  · simp [ho]
  · simp only [if_neg ho]
    have hE : (if n.expNeg = true then (n.drop : Int) - n.fr.length - n.expAbs else (n.drop : Int) - n.fr.length + n.expAbs) = n.E := by
      unfold Num.E Num.e Num.expNeg Num.expAbs
      cases n.ex with
      | none => simp; omega
      | some t =>
        obtain ⟨c, s, d⟩ := t
        by_cases hs : s = [45]
        · simp [hs]; omega
        · simp [hs]; omega
    rw [hE]
    have : (n.text ++ rest).length - rest.length = n.text.length := by simp
    rw [this]
    cases scale n.neg (dec n.mant / 10 ^ n.drop : Nat) n.E <;> rfl

/-! ### Every text is a number followed by something, or has none at its start -/

theorem skipWs_split (t : List Nat) :
    ∃ ws, t = ws ++ skipWs t ∧ (∀ c ∈ ws, c = 32 ∨ (9 ≤ c ∧ c ≤ 13)) := by
  induction t with
  | nil => exact ⟨[], rfl, by simp⟩
  | cons c r ih =>
    unfold skipWs
    split
    · rename_i hc
      obtain ⟨ws, e, hw⟩ := ih
      refine ⟨c :: ws, by rw [List.cons_append, ← e], ?_⟩
      intro x hx
      rcases List.mem_cons.1 hx with rfl | hx
      · exact (isSpace_iff x).1 hc
      · exact hw x hx
    · exact ⟨[], rfl, by simp⟩

theorem digits_split (r : List Nat) : ∃ d s, r = d ++ s ∧ Digits d ∧ ¬ (48 ≤ at0 s ∧ at0 s ≤ 57) := by
  induction r with
  | nil => exact ⟨[], [], rfl, by simp [Digits], by simp [at0]⟩
  | cons c r ih =>
    by_cases hc : 48 ≤ c ∧ c ≤ 57
    · obtain ⟨d, s, e, hd, hs⟩ := ih
      refine ⟨c :: d, s, by rw [e]; rfl, ?_, hs⟩
      intro x hx
      rcases List.mem_cons.1 hx with rfl | hx
      · exact hc
      · exact hd x hx
    · exact ⟨[], c :: r, rfl, by simp [Digits], hc⟩

theorem sign_split (p : List Nat) :
    ∃ sg, Sign sg ∧ p = sg ++ skipSign p ∧
      (sg = [] → at0 p ≠ 43 ∧ at0 p ≠ 45) := by
  cases p with
  | nil => exact ⟨[], .inl rfl, rfl, by simp [at0]⟩
  | cons c r =>
    by_cases h : c = 45
    · subst h; exact ⟨[45], .inr (.inr rfl), rfl, by simp⟩
    · by_cases h' : c = 43
      · subst h'; exact ⟨[43], .inr (.inl rfl), rfl, by simp⟩
      · exact ⟨[], .inl rfl, (skipSign_ne (c :: r) ⟨h, h'⟩).symm, by simp [at0, h, h']⟩

/-- The whole part and the digits behind the point. -/
theorem mant_split (p : List Nat) :
    ∃ i f s, p = i ++ ((match f with | none => [] | some f => 46 :: f) ++ s) ∧ Digits i ∧ Digits (f.getD []) ∧
      ¬ (48 ≤ at0 s ∧ at0 s ≤ 57) ∧ (f = none → at0 s ≠ 46) := by
  obtain ⟨i, s, e, hi, hs⟩ := digits_split p
  by_cases h : at0 s = 46
  · cases s with
    | nil => simp [at0] at h
    | cons c s =>
      simp only [at0] at h
      subst h
      obtain ⟨f, s', e', hf, hs'⟩ := digits_split s
      exact ⟨i, some f, s', by rw [e, e']; simp, hi, hf, hs', by simp⟩
  · exact ⟨i, none, s, by simp [e], hi, by simp [Digits], hs, fun _ => h⟩

theorem exp_split (s : List Nat) (h : ¬ (48 ≤ at0 s ∧ at0 s ≤ 57)) (f : Option (List Nat)) (hf : f = none → at0 s ≠ 46)
    (ws sg i : List Nat) :
    ∃ ex rest, s = (match ex with | none => [] | some (c, s, d) => c :: (s ++ d)) ++ rest ∧
      (∀ c s d, ex = some (c, s, d) → (c = 69 ∨ c = 101) ∧ Sign s ∧ Digits d) ∧
      (⟨ws, sg, i, f, ex⟩ : Num).Stops rest := by
  by_cases he : at0 s = 69 ∨ at0 s = 101
  · cases s with
    | nil => simp [at0] at he
    | cons c s =>
      simp only [at0] at he
      obtain ⟨sg', hsg, e, hne⟩ := sign_split s
      obtain ⟨d, r, e2, hd, hr⟩ := digits_split (skipSign s)
      refine ⟨some (c, sg', d), r, by rw [e, e2]; simp, ?_, ?_⟩
      · intro c' s' d' h'
        cases h'
        exact ⟨he, hsg, hd⟩
      · cases r with
        | nil => trivial
        | cons x r =>
          refine ⟨hr, ?_⟩
          intro h1 h2
          subst h1; subst h2
          have := hne rfl
          rw [e, e2] at this
          exact this
  · refine ⟨none, s, by simp, by simp, ?_⟩
    cases s with
    | nil => trivial
    | cons c s =>
      simp only [at0] at he h hf
      refine ⟨h, ?_, ?_, hf⟩
      · intro hc; exact he (.inl hc)
      · intro hc; exact he (.inr hc)

theorem strtod_split (t : List Nat) :
    (∃ (n : Num) (rest : List Nat), n.Loose ∧ n.Stops rest ∧ t = n.text ++ rest) ∨ (∃ b, strtod t = .ok (.num b 0 0, 0)) := by
  obtain ⟨ws, e1, hws⟩ := skipWs_split t
  obtain ⟨sg, hsg, e2, -⟩ := sign_split (skipWs t)
  obtain ⟨i, f, s, e3, hi, hf, hs, hs46⟩ := mant_split (skipSign (skipWs t))
  obtain ⟨ex, rest, e4, hex, hst⟩ := exp_split s hs f hs46 ws sg i
  by_cases h0 : i ++ f.getD [] = []
  · right
    obtain ⟨hi0, hf0⟩ := List.append_eq_nil_iff.1 h0
    subst hi0
    refine ⟨at0 (skipWs t) == 45, ?_⟩
    unfold strtod
    simp only []
    rw [e3]
    cases f with
    | none =>
      simp only [List.nil_append]
      rw [scanMant_stop 0 none s ⟨hs, fun h => absurd h (hs46 rfl)⟩]
      simp [point, cut]
    | some f =>
      simp only [Option.getD_some] at hf0
      subst hf0
      have h1 : isDigit 46 = false := by decide
      simp only [List.nil_append, List.cons_append, scanMant, h1, Bool.false_eq_true, if_false, and_self, if_true]
      rw [scanMant_stop 1 (some 0) s ⟨hs, by simp⟩]
      simp [point, cut]
  · left
    refine ⟨⟨ws, sg, i, f, ex⟩, rest, ⟨hws, hsg, hi, hf, h0, hex⟩, hst, ?_⟩
    rw [e1, e2, e3, e4]
    simp only [Num.text, Num.frText, Num.exText, List.append_assoc]

/-! ### Results -/

/-- Written exponent that fits `int`, and the scaled one that is a finite power
of ten. -/
def Num.InRange (n : Num) : Prop := n.expAbs < 2 ^ 31 ∧ n.E.natAbs ≤ 308

/-- C139: a number at the start of a text is read to its end and becomes its
first 18 digits and the matching exponent. -/
theorem C139_result_partial (n : Num) (h : n.Loose) (rest : List Nat) (hs : n.Stops rest) (hr : n.InRange) :
    strtod (n.text ++ rest) =
      .ok (.num n.neg (dec n.mant / 10 ^ (n.mant.length - 18) : Nat) (n.e - n.fr.length + (n.mant.length - 18 : Nat)), n.text.length) := by
  rw [strtod_num n h rest hs]
  have h1 : ¬ n.expAbs > intMax := by have := hr.1; unfold intMax; omega
  have h2 := hr.2
  rw [if_neg h1]
  unfold scale
  rw [if_neg (by omega), if_neg (by omega), if_neg (by omega), if_neg (by omega)]
  rfl

theorem value_eq (n : Num) :
    n.value = (if n.neg then -1 else 1) * (dec n.mant : ℚ) * 10 ^ (n.e - n.fr.length) := by
  unfold Num.value Num.mant
  rw [dec_app, zpow_sub₀ (by norm_num : (10 : ℚ) ≠ 0), zpow_natCast]
  push_cast
  have : (10 : ℚ) ^ n.fr.length ≠ 0 := by positivity
  field_simp

/-- C139: with at most 18 digits the result is the value of the number. -/
theorem C139_exact_partial (n : Num) (h : n.Loose) (rest : List Nat) (hs : n.Stops rest) (hr : n.InRange)
    (h18 : n.mant.length ≤ 18) :
    ∃ v, strtod (n.text ++ rest) = .ok (v, n.text.length) ∧ v.value = some n.value := by
  refine ⟨_, C139_result_partial n h rest hs hr, ?_⟩
  have h0 : n.mant.length - 18 = 0 := by omega
  rw [h0, value_eq]
  simp [Val.value]

/-- C139: with more digits the result is short of the value by less than one
unit of the 18th digit; when the first digit is not zero, this is less than
10^-17 of the value. -/
theorem C139_close_partial (n : Num) (h : n.Loose) (rest : List Nat) (hs : n.Stops rest) (hr : n.InRange)
    (h18 : 18 ≤ n.mant.length) :
    ∃ v x, strtod (n.text ++ rest) = .ok (v, n.text.length) ∧ v.value = some x ∧
      |x| ≤ |n.value| ∧ |n.value| < |x| + 10 ^ n.E ∧
      (at0 n.mant ≠ 48 → |n.value| < |x| * (1 + 1 / 10 ^ 17)) := by
  refine ⟨_, _, C139_result_partial n h rest hs hr, rfl, ?_⟩
  rw [value_eq]
  have hE : n.e - n.fr.length + (n.mant.length - 18 : Nat) = n.E := rfl
  have hE2 : (10 : ℚ) ^ n.E = 10 ^ (n.e - n.fr.length) * 10 ^ (n.mant.length - 18) := by
    rw [← hE, zpow_add₀ (by norm_num : (10 : ℚ) ≠ 0), zpow_natCast]
  rw [hE, hE2]
  generalize hk : n.mant.length - 18 = k
  have hp : (0 : ℚ) < 10 ^ (n.e - n.fr.length) := by positivity
  generalize (10 : ℚ) ^ (n.e - n.fr.length) = P at hp
  have hq : (0 : ℚ) < 10 ^ k := by positivity
  have hd := Nat.div_add_mod (dec n.mant) (10 ^ k)
  have hm := Nat.mod_lt (dec n.mant) (show 10 ^ k > 0 by positivity)
  have hF : at0 n.mant ≠ 48 → 10 ^ 17 ≤ dec n.mant / 10 ^ k := by
    intro hh
    have hdig : Digits n.mant := by
      intro c hc
      rcases List.mem_append.1 hc with hc | hc
      · exact h.i c hc
      · exact h.f c hc
    cases hmm : n.mant with
    | nil => rw [hmm] at h18; simp at h18
    | cons c r =>
      rw [hmm] at hh h18 hk
      have hc := hdig c (by simp [hmm])
      rw [at0_cons] at hh
      have e1 : dec (c :: r) = foldD (0 * 10 + (c - 48)) r := rfl
      rw [Nat.le_div_iff_mul_le (by positivity), ← pow_add, e1, foldD_eq]
      simp only [List.length_cons] at hk
      have : 17 + k = r.length := by simp only [List.length_cons] at h18; omega
      rw [this]
      have : 1 * 10 ^ r.length ≤ (0 * 10 + (c - 48)) * 10 ^ r.length := Nat.mul_le_mul_right _ (by omega)
      omega
  generalize dec n.mant / 10 ^ k = F at hd hF
  generalize dec n.mant % 10 ^ k = R at hd hm
  rw [← hd]
  have hs1 : |(if n.neg then (-1 : ℚ) else 1)| = 1 := by cases n.neg <;> simp
  have hR : (R : ℚ) < 10 ^ k := by exact_mod_cast hm
  have hR0 : (0 : ℚ) ≤ R := by positivity
  have hF0 : (0 : ℚ) ≤ F := by positivity
  push_cast
  have a1 : ∀ x y : ℚ, 0 ≤ x → 0 < y → |(if n.neg then (-1 : ℚ) else 1) * x * y| = 1 * x * y := by
    intro x y hx hy
    rw [abs_mul, abs_mul, hs1, abs_of_nonneg hx, abs_of_pos hy]
  rw [a1 _ _ hF0 (mul_pos hp hq), a1 _ _ (by positivity) hp]
  refine ⟨by nlinarith, by nlinarith, ?_⟩
  intro hh
  have h17 : (10 : ℚ) ^ 17 ≤ F := by exact_mod_cast hF hh
  have h4 : (10 : ℚ) ^ k ≤ 10 ^ k * (F / 10 ^ 17) := by
    have : (1 : ℚ) ≤ F / 10 ^ 17 := by rw [le_div_iff₀ (by positivity)]; linarith
    nlinarith
  have h5 : P * R < P * (10 ^ k * (F / 10 ^ 17)) := mul_lt_mul_of_pos_left (lt_of_lt_of_le hR h4) hp
  have e : 1 * (F : ℚ) * (P * 10 ^ k) * (1 + 1 / 10 ^ 17) = P * (10 ^ k * F) + P * (10 ^ k * (F / 10 ^ 17)) := by ring
  rw [e]
  have e2 : 1 * ((10 : ℚ) ^ k * F + R) * P = P * (10 ^ k * F) + P * R := by ring
  rw [e2]
  linarith

/-- C139: an exponent out of the range is an exception, not a wrong value. -/
theorem C139_range (n : Num) (h : n.Loose) (rest : List Nat) (hs : n.Stops rest) (h1 : n.expAbs < 2 ^ 30)
    (h2 : n.E.natAbs < 2 ^ 31) (h3 : 511 < n.E.natAbs) : strtod (n.text ++ rest) = .error .range := by
  rw [strtod_num n h rest hs]
  have h1 : ¬ n.expAbs > intMax := by unfold intMax; omega
  rw [if_neg h1]
  unfold scale
  rw [if_neg (by omega), if_neg (by omega), if_pos (by omega)]

/-- C139: a text that is a number is converted. -/
theorem C139_accepts (n : Num) (h : n.Strict) (hr : n.InRange) :
    toFloat n.text = .ok (.num n.neg (dec n.mant / 10 ^ (n.mant.length - 18) : Nat) (n.e - n.fr.length + (n.mant.length - 18 : Nat))) := by
  have e := C139_result_partial n h.1 [] trivial hr
  rw [List.append_nil] at e
  unfold toFloat
  rw [e]
  simp

/-- C139: a text that is converted is a number, except for the empty one and for
exponents without digits. -/
theorem C139_refuses_partial (t : List Nat) (ht : t ≠ []) (v : Val) (hv : toFloat t = .ok v) :
    ∃ n : Num, n.Loose ∧ t = n.text := by
  unfold toFloat at hv
  rcases strtod_split t with ⟨n, rest, hl, hs, e⟩ | ⟨b, e⟩
  · rw [e, strtod_num n hl rest hs] at hv
    by_cases h1 : n.expAbs > intMax
    · simp [h1] at hv
    · simp only [if_neg h1] at hv
      cases hsc : scale n.neg (dec n.mant / 10 ^ n.drop : Nat) n.E with
      | error x => simp only [hsc] at hv; cases hv
      | ok x =>
        simp only [hsc] at hv
        by_cases hlt : n.text.length < (n.text ++ rest).length
        · simp only [if_pos hlt] at hv; cases hv
        · refine ⟨n, hl, ?_⟩
          have : rest = [] := by
            rw [List.length_append] at hlt
            exact List.length_eq_zero_iff.1 (by omega)
          rw [e, this, List.append_nil]
  · rw [e] at hv
    have : 0 < t.length := List.length_pos_iff.2 ht
    simp [this] at hv

/-- A number ends with a digit or the point. -/
theorem strict_last (n : Num) (h : n.Strict) : ∃ c x, n.text = x ++ [c] ∧ (c = 46 ∨ (48 ≤ c ∧ c ≤ 57)) := by
  have key : ∀ (a d : List Nat), Digits d → d ≠ [] → ∃ c x, a ++ d = x ++ [c] ∧ (c = 46 ∨ (48 ≤ c ∧ c ≤ 57)) := by
    intro a d hd hne
    refine ⟨d.getLast hne, a ++ d.dropLast, ?_, .inr (hd _ (List.getLast_mem hne))⟩
    rw [List.append_assoc, List.dropLast_append_getLast hne]
  cases hx : n.ex with
  | some t =>
    obtain ⟨c, s, d⟩ := t
    have e : n.text = (n.ws ++ n.sg ++ n.i ++ n.frText ++ c :: s) ++ d := by
      simp [Num.text, Num.exText, hx, List.append_assoc]
    rw [e]
    exact key _ d (h.1.ex c s d hx).2.2 (h.2 c s d hx)
  | none =>
    cases hf : n.f with
    | none =>
      have e : n.text = (n.ws ++ n.sg) ++ n.i := by simp [Num.text, Num.exText, Num.frText, hx, hf]
      have hi : n.i ≠ [] := by have := h.1.some; simpa [Num.fr, hf] using this
      rw [e]
      exact key _ _ h.1.i hi
    | some f =>
      have hd : Digits f := by have := h.1.f; simpa [Num.fr, hf] using this
      by_cases hne : f = []
      · refine ⟨46, n.ws ++ n.sg ++ n.i, ?_, .inl rfl⟩
        simp [Num.text, Num.exText, Num.frText, hx, hf, hne, List.append_assoc]
      · have e : n.text = (n.ws ++ n.sg ++ n.i ++ [46]) ++ f := by
          simp [Num.text, Num.exText, Num.frText, hx, hf, List.append_assoc]
        rw [e]
        exact key _ _ hd hne

/-- "1e" -/
def t1e : List Nat := [49, 101]

/-- C139 violated: the empty text and "1e" are converted though they are not
numbers. -/
theorem C139_refuses_violated :
    toFloat [] = .ok (.num false 0 0) ∧ toFloat t1e = .ok (.num false 1 0) ∧
    (∀ n : Num, n.Strict → n.text ≠ [] ∧ n.text ≠ t1e) := by
  refine ⟨rfl, rfl, ?_⟩
  intro n h
  obtain ⟨c, x, e, hc⟩ := strict_last n h
  rw [e]
  refine ⟨by simp, ?_⟩
  intro h'
  have : (x ++ [c]).getLast? = t1e.getLast? := by rw [h']
  simp [t1e] at this
  omega

/-- 0.0000000000000000001 -/
def tiny : Num := ⟨[], [], [48], some (List.replicate 18 48 ++ [49]), none⟩
/-- 0e400 -/
def zero400 : Num := ⟨[], [], [48], none, some (101, [], [52, 48, 48])⟩
/-- 0e600 -/
def zero600 : Num := ⟨[], [], [48], none, some (101, [], [54, 48, 48])⟩
/-- 123456789012345678e-320 -/
def small : Num := ⟨[], [], [49, 50, 51, 52, 53, 54, 55, 56, 57, 48, 49, 50, 51, 52, 53, 54, 55, 56], none, some (101, [45], [51, 50, 48])⟩
/-- 0e9999999999 -/
def huge : Num := ⟨[], [], [48], none, some (101, [], List.replicate 10 57)⟩

theorem sample_strict (n : Num) (h1 : n.ws = []) (h2 : n.sg = []) (h3 : ∀ c ∈ n.i, 48 ≤ c ∧ c ≤ 57) (h4 : ∀ c ∈ n.fr, 48 ≤ c ∧ c ≤ 57)
    (h5 : n.i ≠ []) (h6 : ∀ c s d, n.ex = some (c, s, d) → ((c = 69 ∨ c = 101) ∧ Sign s ∧ Digits d) ∧ d ≠ []) : n.Strict := by
  refine ⟨⟨by simp [h1], .inl h2, h3, h4, by simp [h5], fun c s d h => (h6 c s d h).1⟩, fun c s d h => (h6 c s d h).2⟩

theorem small_value : (10 : ℚ) ^ (-303 : Int) < small.value := by
  have e : dec small.mant = 123456789012345678 := by decide
  have e1 : small.e - small.fr.length = -320 := by decide
  have e2 : small.neg = false := rfl
  rw [value_eq, e, e1, e2]
  have : (10 : ℚ) ^ (-303 : Int) = 10 ^ (17 : Nat) * 10 ^ (-320 : Int) := by
    rw [← zpow_natCast, ← zpow_add₀ (by norm_num : (10 : ℚ) ≠ 0)]; norm_num
  rw [this]
  simp only [Bool.false_eq_true, if_false, one_mul]
  have hp : (0 : ℚ) < 10 ^ (-320 : Int) := by positivity
  exact mul_lt_mul_of_pos_right (by norm_num) hp

/-- C139 violated: zeros in front count as digits, so 0.0000000000000000001 is
zero; zero with a large exponent is not a number, an exception or undefined; a
number above 10^-303 is zero. -/
theorem C139_value_violated :
    (tiny.Strict ∧ tiny.value ≠ 0 ∧ toFloat tiny.text = .ok (.num false 0 (-17))) ∧
    (zero400.Strict ∧ zero400.value = 0 ∧ toFloat zero400.text = .ok .nan) ∧
    (zero600.Strict ∧ zero600.value = 0 ∧ toFloat zero600.text = .error .range) ∧
    (huge.Strict ∧ huge.value = 0 ∧ toFloat huge.text = .error .ub) ∧
    (small.Strict ∧ 10 ^ (-303 : Int) < small.value ∧ toFloat small.text = .ok (.zero false)) := by
  refine ⟨⟨?_, ?_, rfl⟩, ⟨?_, ?_, rfl⟩, ⟨?_, ?_, rfl⟩, ⟨?_, ?_, rfl⟩, ⟨?_, small_value, rfl⟩⟩
  · exact sample_strict _ rfl rfl (by decide) (by decide) (by decide) (fun c s d h => by cases h)
  · have e : dec tiny.mant = 1 := by decide
    rw [value_eq, e]
    have : (0 : ℚ) < 10 ^ (tiny.e - tiny.fr.length) := by positivity
    simp [tiny, Num.neg, zpow_ne_zero]
  · exact sample_strict _ rfl rfl (by decide) (by decide) (by decide) (fun c s d h => by cases h; exact ⟨⟨.inr rfl, .inl rfl, by unfold Digits; decide⟩, by decide⟩)
  · have e : dec zero400.mant = 0 := by decide
    rw [value_eq, e]; simp
  · exact sample_strict _ rfl rfl (by decide) (by decide) (by decide) (fun c s d h => by cases h; exact ⟨⟨.inr rfl, .inl rfl, by unfold Digits; decide⟩, by decide⟩)
  · have e : dec zero600.mant = 0 := by decide
    rw [value_eq, e]; simp
  · exact sample_strict _ rfl rfl (by decide) (by decide) (by decide) (fun c s d h => by cases h; exact ⟨⟨.inr rfl, .inl rfl, by unfold Digits; decide⟩, by decide⟩)
  · have e : dec huge.mant = 0 := by decide
    rw [value_eq, e]; simp
  · exact sample_strict _ rfl rfl (by decide) (by decide) (by decide) (fun c s d h => by cases h; exact ⟨⟨.inr rfl, .inr (.inr rfl), by unfold Digits; decide⟩, by decide⟩)

/-- zero with `k` digits behind the point and e-2147483647 -/
def edge (k : Nat) : Num := ⟨[], [], [48], some (List.replicate k 48), some (101, [45], [50, 49, 52, 55, 52, 56, 51, 54, 52, 55])⟩

/-- C139 violated: the exponent alone fits `int`; with one digit behind the
point its negation does not fit, with two the exponent itself. -/
theorem C139_overflow_violated :
    ((edge 0).Strict ∧ toFloat (edge 0).text = .error .range) ∧
    ((edge 1).Strict ∧ toFloat (edge 1).text = .error .ub) ∧
    ((edge 2).Strict ∧ toFloat (edge 2).text = .error .ub) := by
  have h : ∀ k, (∀ c ∈ List.replicate k 48, 48 ≤ c ∧ c ≤ 57) → (edge k).Strict := by
    intro k hk
    exact sample_strict _ rfl rfl (by simp [edge]) hk (by simp [edge])
      (fun c s d h => by cases h; exact ⟨⟨.inr rfl, .inr (.inr rfl), by unfold Digits; decide⟩, by decide⟩)
  exact ⟨⟨h 0 (by decide), rfl⟩, ⟨h 1 (by decide), rfl⟩, ⟨h 2 (by decide), rfl⟩⟩

/-! ### Examples -/

/-- "  -12.5e-3," -/
example : strtod [32, 32, 45, 49, 50, 46, 53, 101, 45, 51, 44] = .ok (.num true 125 (-4), 10) := rfl
/-- ".5" and "5." -/
example : toFloat [46, 53] = .ok (.num false 5 (-1)) ∧ toFloat [53, 46] = .ok (.num false 5 0) := ⟨rfl, rfl⟩
/-- "12345678901234567899" loses two digits -/
example : toFloat [49, 50, 51, 52, 53, 54, 55, 56, 57, 48, 49, 50, 51, 52, 53, 54, 55, 56, 57, 57] = .ok (.num false 123456789012345678 2) := rfl
/-- "1x", "." and "-" are refused -/
example : toFloat [49, 120] = .error .format ∧ toFloat [46] = .error .format ∧ toFloat [45] = .error .format := ⟨rfl, rfl, rfl⟩
/-- "1e308" has the largest exponent, "1E512" has none -/
example : toFloat [49, 101, 51, 48, 56] = .ok (.num false 1 308) ∧ toFloat [49, 69, 53, 49, 50] = .error .range ∧
    toFloat [49, 69, 53, 49, 49] = .ok (.inf false) := ⟨rfl, rfl, rfl⟩
/-- the hypotheses hold for " -12.5e-3" -/
example : (⟨[32], [45], [49, 50], some [53], some (101, [45], [51])⟩ : Num).InRange := by
  constructor <;> decide

end LS.StrToD

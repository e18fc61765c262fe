import Verif.TextPat

/-!
C143: single constructs of the patterns of `TextParser`, for all texts around them.
-/

namespace LS.TextPat

/-- C143: a single `%` at the end takes whatever is left. -/
theorem C143_last (cf : Conf) (f : Nat) (src : Text) (st : St) :
    run cf (f + 1) .parse [37] src st = ⟨.yes, src, st⟩ := by
  simp [run, parseWith]

example : (scan ⟨[10], []⟩ [97, 37] [97, 98, 99]).src = [98, 99] := by decide +kernel

/-- C143: a field without a range takes at least one character. -/
theorem C143_least (cf : Conf) (f d : Nat) (r : Text) (st : St) (h1 : 48 ≤ d) (h2 : d ≤ 57) :
    run cf (f + 2) .parse (37 :: d :: r) [] st = ⟨.no, [], st⟩ := by
  have e0 : isEsc d = false := by simp [isEsc]; omega
  have e1 : isDigit d = true := by simp [isDigit, h1, h2]
  have n : ∀ x, x < 48 ∨ 57 < x → (d == x) = false := by intro x hx; simp; omega
  simp [run, parseWith, e0, argStep, e1, starLoop, n]

example : (scan ⟨[10], []⟩ [37, 49] []).ans = .no ∧ (scan ⟨[10], []⟩ [37, 49] [97]).ans = .yes := by decide +kernel

/-- C143: the number of a field with two digits is read without an end when a branch is jumped over. -/
theorem C143_digits (f p q : Nat) (r : Text) (h1 : 48 ≤ p ∧ p ≤ 57) (h2 : 48 ≤ q ∧ q ≤ 57) :
    skipPattern (f + 1) (p :: q :: r) = .hang := by
  have e1 : isDigit p = true := by simp [isDigit, h1]
  have e2 : isDigit q = true := by simp [isDigit, h2]
  have n : ∀ x, x < 48 ∨ 57 < x → (p == x) = false := by intro x hx; simp; omega
  have m : ∀ x, x < 48 ∨ 57 < x → (q == x) = false := by intro x hx; simp; omega
  simp [skipPattern, e1, e2, n, m]

example : skipPattern 9 [49, 50, 37] = .hang ∧ skipPattern 9 [49, 37, 50] = .next [50] := by decide +kernel

/-- C143: a sign is taken by `d`, `x` and `o`, not by `u`. -/
theorem C143_signs (max sg d : Nat) (st : St) (hs : sg = 43 ∨ sg = 45) (h1 : 48 ≤ d) (h2 : d ≤ 55) (hm : 2 ≤ max) :
    command 100 max [sg, d] st = (true, [], (st.add sg).add d) ∧ command 120 max [sg, d] st = (true, [], (st.add sg).add d) ∧
    command 111 max [sg, d] st = (true, [], (st.add sg).add d) ∧ command 117 max [sg, d] st = (false, [sg, d], st) := by
  obtain ⟨m, rfl⟩ : ∃ m, max = m + 2 := ⟨max - 2, by omega⟩
  have c10 : checkNumber 10 d = true := by simp [checkNumber]; omega
  have c8 : checkNumber 8 d = true := by simp [checkNumber]; omega
  have c16 : checkNumber 16 d = true := by simp [checkNumber]; omega
  rcases hs with rfl | rfl <;> simp [command, number, digits, c10, c8, c16, takeLoop]

example : command 100 5 [45, 49, 50, 120] ⟨[], []⟩ = (true, [120], ⟨[45, 49, 50], []⟩) := by decide +kernel

/-- C143: a range of a list: between the limits; after `^` it stands for what is above the upper limit. -/
theorem C143_range (p a b : Nat) (l : Text) :
    (inList true p (a :: 45 :: b :: l) = true ↔ (a ≤ p ∧ p ≤ b) ∨ inList true p l = true) ∧
    (inList false p (a :: 45 :: b :: l) = true ↔ (a ≤ p ∧ b < p) ∨ inList false p l = true) := by
  constructor
  · simp only [inList]
    by_cases h : a ≤ p ∧ p ≤ b
    · have h1 : ¬ p < a := by omega
      have h2 : ¬ b < p := by omega
      simp [h1, h2, h]
    · by_cases h1 : p < a
      · simp [h1]; omega
      · have h2 : b < p := by omega
        simp [h1, h2]; intro _ _; omega
  · simp only [inList]
    by_cases h1 : p < a
    · simp [h1]; omega
    · by_cases h2 : b < p
      · simp [h1, h2]; omega
      · simp [h1, h2]

example : inList true 98 [97, 45, 99] = true ∧ inList false 98 [97, 45, 99] = false ∧
    inList false 120 [97, 45, 99] = true := by decide +kernel

/-- C143: the lists of one character: `[a]`, `[^a]`, `[*a]`. -/
theorem C143_lists (cf : Conf) (f : Nat) (s : Step) (a : Nat) (r src : Text) (st : St)
    (h1 : a ≠ 42) (h2 : a ≠ 94) (h3 : a ≠ 92) :
    run cf (f + 1) (.arg s) (91 :: a :: 93 :: r) src st =
      charList (run cf f (.arg ⟨s.beg, s.lo, s.hi, false⟩) r) (fun c => decide (c = a)) false s.lo s.hi src st ∧
    run cf (f + 1) (.arg s) (91 :: 94 :: a :: 93 :: r) src st =
      charList (run cf f (.arg ⟨s.beg, s.lo, s.hi, false⟩) r) (fun c => decide (c ≠ a)) false s.lo s.hi src st ∧
    run cf (f + 1) (.arg s) (91 :: 42 :: a :: 93 :: r) src st =
      charList (run cf f (.arg ⟨s.beg, s.lo, s.hi, false⟩) r) (fun c => decide (c = a)) true s.lo s.hi src st := by
  have e1 : (fun c => inList true c [a] == true) = fun c => decide (c = a) := by
    funext c; by_cases h : c = a <;> simp [inList, h]
  have e2 : (fun c => inList false c [a] == false) = fun c => decide (c ≠ a) := by
    funext c; by_cases h : c = a <;> simp [inList, h]
  refine ⟨?_, ?_, ?_⟩
  · have : listHead (a :: 93 :: r) = some (false, true, [a], r) := by simp [listHead, listRest, h1, h2, h3]
    simp only [run, argStep, this, e1]; rfl
  · have : listHead (94 :: a :: 93 :: r) = some (false, false, [a], r) := by simp [listHead, listRest, h3]
    simp only [run, argStep, this, e2]; rfl
  · have : listHead (42 :: a :: 93 :: r) = some (true, true, [a], r) := by simp [listHead, listRest, h2, h3]
    simp only [run, argStep, this, e1]; rfl

example : (scan ⟨[10], []⟩ ("%[^x]1x".toList.map Char.toNat) ("abx".toList.map Char.toNat)).ans = .yes := by decide +kernel

/-- C143: a character that is not in the list, before there are enough of them: failed at this character. -/
theorem C143_few (k : Text → St → Out) (ok : Nat → Bool) (lo hi p : Nat) (src : Text) (st : St)
    (h : ok p = false) (hl : 0 < lo) : charList k ok false lo hi (p :: src) st = ⟨.no, p :: src, st⟩ := by
  simp [charList, listLoop, h, diff, hl]

example : (scan ⟨[10], []⟩ ("%[x]1y".toList.map Char.toNat) ("yx".toList.map Char.toNat)).ans = .no := by decide +kernel

/-- C143: one digit read by `d`: the field goes on without the star. -/
theorem C143_one (cf : Conf) (f : Nat) (s : Step) (d : Nat) (r : Text) (st : St) (h1 : 48 ≤ d) (h2 : d ≤ 57)
    (hl : s.lo ≤ 1) (hh : 0 < s.hi) :
    run cf (f + 1) (.arg s) (100 :: r) [d] st = run cf f (.arg ⟨s.beg, s.lo, s.hi, false⟩) r [] (st.add d) := by
  rcases s with ⟨b, lo, hi, star⟩
  obtain ⟨m, rfl⟩ : ∃ m, hi = m + 1 := ⟨hi - 1, by simp at hh; omega⟩
  have c10 : checkNumber 10 d = true := by simp [checkNumber]; omega
  have n : (d == 43) = false ∧ (d == 45) = false := by constructor <;> (simp; omega)
  have hl' : ¬ 1 < lo := by simp at hl; omega
  have e : command 100 (m + 1) [d] st = (true, [], st.add d) := by
    simp [command, number, digits, c10, takeLoop, n]
  have hlen : (st.add d).data.length - st.data.length = 1 := by simp [St.add]
  simp [run, argStep, isDigit, e, hlen, hl']

example : (scan ⟨[10], []⟩ ("%d1".toList.map Char.toNat) ("7".toList.map Char.toNat)).st = ⟨[55], [(0, 1)]⟩ := by
  decide +kernel

/-- C143: a branch of two characters that fails at the second one: the next branch does not see the first one. -/
theorem C143_eaten (cf : Conf) (f a b c : Nat) (r src : Text) (st : St)
    (ha : a ≠ 37 ∧ a ≠ 8 ∧ a ≠ 9 ∧ a ≠ 10 ∧ a ≠ 32 ∧ a ≠ 95) (hb : b ≠ 37 ∧ b ≠ 8 ∧ b ≠ 9 ∧ b ≠ 10 ∧ b ≠ 32 ∧ b ≠ 95)
    (hc : c ≠ b) :
    run cf (f + 2) .alt (a :: b :: 37 :: 124 :: r) (a :: c :: src) st = run cf (f + 1) .alt r (c :: src) st := by
  obtain ⟨a1, a2, a3, a4, a5, a6⟩ := ha
  obtain ⟨b1, b2, b3, b4, b5, b6⟩ := hb
  have e : run cf (f + 1) .parse (a :: b :: 37 :: 124 :: r) (a :: c :: src) st = ⟨.no, c :: src, st⟩ := by
    simp [run, parseWith, a1, a2, a3, a4, a5, a6, b1, b2, b3, b4, b5, b6, hc]
  have k : skipNext ((a :: b :: 37 :: 124 :: r).length + 1) (a :: b :: 37 :: 124 :: r) = .next r := by
    simp [skipNext, a1, b1]
  rw [run]
  simp only [altStep]
  rw [e, k]
  rfl

example : (scan ⟨[10], []⟩ ("%<ab%|ac%>".toList.map Char.toNat) ("ac".toList.map Char.toNat)).ans = .no ∧
    (scan ⟨[10], []⟩ ("%<ab%|c%>".toList.map Char.toNat) ("ac".toList.map Char.toNat)).ans = .yes := by decide +kernel

/-- C143: the beginning of alternatives. -/
theorem C143_begin (cf : Conf) (f : Nat) (s : Step) (r src : Text) (st : St) :
    run cf (f + 1) (.arg s) (60 :: r) src st = run cf f .alt r src st := by
  simp [run, argStep]

example : (scan ⟨[10], []⟩ ("%<a%|b%>c".toList.map Char.toNat) ("bc".toList.map Char.toNat)).ans = .yes := by decide +kernel

/-- C143: the number of a range with one digit. -/
theorem C143_rangenum (d : Nat) (r : Text) (h1 : 48 ≤ d) (h2 : d ≤ 57) :
    rangeLoop (d :: 41 :: r) ⟨false, none, none⟩ = some (some (d - 48), none, r) ∧
    rangeLoop (44 :: d :: 41 :: r) ⟨false, none, none⟩ = some (none, some (d - 48), r) := by
  have e1 : isDigit d = true := by simp [isDigit, h1, h2]
  have n : (d == 44) = false := by simp; omega
  have e2 : isDigit 41 = false := by decide
  simp [rangeLoop, e1, e2, n]

example : rangeLoop ("12,30)x".toList.map Char.toNat) ⟨false, none, none⟩ = some (some 12, some 30, [120]) := by decide +kernel

/-- C143: behind the number of a field a `%` is taken, anything else that is no digit is left. -/
theorem C143_fieldend (n p : Nat) (r : Text) :
    fieldNum (37 :: r) n = (n, r) ∧ (p ≠ 37 → (p < 48 ∨ 57 < p) → fieldNum (p :: r) n = (n, p :: r)) := by
  refine ⟨by simp [fieldNum, isDigit], fun h1 h2 => ?_⟩
  have e : isDigit p = false := by simp [isDigit]; omega
  simp [fieldNum, e, h1]

example : fieldNum [49, 50, 37, 51] 0 = (12, [51]) := by decide +kernel

/-- C143: the field that is set, and all the others as before; new ones in between are empty. -/
theorem C143_frag (fr : List (Nat × Nat)) (i : Nat) (v : Nat × Nat) :
    (setFrag fr (i + 1) v)[i]? = some v ∧
    (∀ j, j ≠ i → j < fr.length → (setFrag fr (i + 1) v)[j]? = fr[j]?) ∧
    (∀ j, j < i → fr.length ≤ j → (setFrag fr (i + 1) v)[j]? = some (0, 0)) ∧
    (setFrag fr (i + 1) v).length = max fr.length (i + 1) := by
  unfold setFrag
  simp only [Nat.add_sub_cancel]
  by_cases h : fr.length ≤ i
  · rw [if_pos h]
    refine ⟨?_, fun j h1 h2 => ?_, fun j h1 h2 => ?_, ?_⟩
    · rw [List.getElem?_set_self (by simp; omega)]
    · rw [List.getElem?_set_ne (Ne.symm h1), List.getElem?_append_left h2]
    · rw [List.getElem?_set_ne (by omega), List.getElem?_append_right h2, List.getElem?_replicate, if_pos (by omega)]
    · simp; omega
  · rw [if_neg h]
    refine ⟨?_, fun j h1 h2 => ?_, fun j h1 h2 => by omega, ?_⟩
    · rw [List.getElem?_set_self (by omega)]
    · rw [List.getElem?_set_ne (Ne.symm h1)]
    · simp; omega

example : setFrag [(1, 2)] 3 (7, 8) = [(1, 2), (0, 0), (7, 8)] := by decide +kernel

/-- C143: the text of a field is the part of the collected text that its record names. -/
theorem C143_field (x y z : Text) (fr : List (Nat × Nat)) (i : Nat) (h : fr[i]? = some (x.length, y.length)) :
    field ⟨x ++ y ++ z, fr⟩ (i + 1) = some y := by
  simp [field, h]

example : field ⟨[97, 98, 99, 100], [(0, 1), (1, 2)]⟩ 2 = some [98, 99] ∧ field ⟨[97], [(0, 1)]⟩ 2 = none := by decide +kernel

end LS.TextPat

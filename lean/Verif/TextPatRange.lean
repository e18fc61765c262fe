import Verif.TextPat

/-!
C143: the short ranges (textParser.tcc:387-423), the explicit star, and the fields that are read and not
kept (textParser.tcc:222-234).
-/

namespace LS.TextPat

/-- C143: the short ranges: `(*)` any number, `(+)` at least one, `(?)` at most one, `(.)` exactly one, `(,*)` only
opens the upper limit, `(,d)` and `(d)` keep the other limit, and any other single character stands for 0 to 0. -/
theorem C143_short (cf : Conf) (f : Nat) (s : Step) (r src : Text) (st : St) :
    run cf (f + 1) (.arg s) (40 :: 42 :: 41 :: r) src st = run cf f (.arg ⟨s.beg, 0, null, s.star⟩) r src st ∧
    run cf (f + 1) (.arg s) (40 :: 43 :: 41 :: r) src st = run cf f (.arg ⟨s.beg, 1, null, s.star⟩) r src st ∧
    run cf (f + 1) (.arg s) (40 :: 63 :: 41 :: r) src st = run cf f (.arg ⟨s.beg, 0, 1, s.star⟩) r src st ∧
    run cf (f + 1) (.arg s) (40 :: 46 :: 41 :: r) src st = run cf f (.arg ⟨s.beg, 1, 1, s.star⟩) r src st ∧
    run cf (f + 1) (.arg s) (40 :: 44 :: 42 :: 41 :: r) src st =
      run cf f (.arg ⟨s.beg, s.lo, null, s.star⟩) r src st ∧
    (∀ d, 48 ≤ d → d ≤ 57 →
      run cf (f + 1) (.arg s) (40 :: 44 :: d :: 41 :: r) src st =
        run cf f (.arg ⟨s.beg, s.lo, d - 48, s.star⟩) r src st ∧
      run cf (f + 1) (.arg s) (40 :: d :: 41 :: r) src st =
        run cf f (.arg ⟨s.beg, d - 48, s.hi, s.star⟩) r src st) ∧
    (∀ k, k ≠ 41 → k ≠ 42 → k ≠ 43 → k ≠ 44 → k ≠ 46 → k ≠ 63 → (k < 48 ∨ 57 < k) →
      run cf (f + 1) (.arg s) (40 :: k :: 41 :: r) src st = run cf f (.arg ⟨s.beg, 0, 0, s.star⟩) r src st) := by
  refine ⟨?_, ?_, ?_, ?_, ?_, ?_, ?_⟩
  · simp [run, argStep, rangeLoop, isDigit]
  · simp [run, argStep, rangeLoop, isDigit]
  · simp [run, argStep, rangeLoop, isDigit]
  · simp [run, argStep, rangeLoop, isDigit]
  · simp [run, argStep, rangeLoop, isDigit]
  · intro d h1 h2
    have e1 : (d == 44) = false := by simp; omega
    have e6 : isDigit d = true := by simp [isDigit, h1, h2]
    constructor
    · simp only [run, argStep, rangeLoop]; simp [e1, e6]
      simp [isDigit]
    · simp only [run, argStep, rangeLoop]; simp [e1, e6]
      simp [isDigit]
  · intro k h1 h2 h3 h4 h5 h6 h7
    have e6 : isDigit k = false := by
      simp only [isDigit, Bool.and_eq_false_iff, decide_eq_false_iff_not]; omega
    simp [run, argStep, rangeLoop, h1, h2, h3, h4, h5, h6, e6]

example : (scan ⟨[10], []⟩ ("a%(?)[x]1b".toList.map Char.toNat) ("ab".toList.map Char.toNat)).ans = .yes ∧
    (scan ⟨[10], []⟩ ("a%(?)[x]1b".toList.map Char.toNat) ("axxb".toList.map Char.toNat)).ans = .no ∧
    (scan ⟨[10], []⟩ ("a%(*)[x]1b".toList.map Char.toNat) ("axxb".toList.map Char.toNat)).ans = .yes ∧
    (scan ⟨[10], []⟩ ("a%(+)[x]1b".toList.map Char.toNat) ("ab".toList.map Char.toNat)).ans = .no ∧
    (scan ⟨[10], []⟩ ("a%(.)[x]1b".toList.map Char.toNat) ("axb".toList.map Char.toNat)).ans = .yes ∧
    (scan ⟨[10], []⟩ ("a%(3,*)[x]1b".toList.map Char.toNat) ("axxxxb".toList.map Char.toNat)).ans = .yes := by
  decide +kernel

/-- C143: the star may be written or left out in front of the number of a field or of the `%` that drops it: the
rest of the pattern is tried the same way. -/
theorem C143_explicit (cf : Conf) (f : Nat) (s : Step) (hs : s.star = true) (d : Nat)
    (hd : d = 37 ∨ (48 ≤ d ∧ d ≤ 57)) (r src : Text) (st : St) :
    run cf (f + 1) (.arg s) (42 :: d :: r) src st = run cf (f + 1) (.arg s) (d :: r) src st := by
  rcases hd with rfl | ⟨h1, h2⟩
  · simp [run, argStep, hs]
  · have e1 : (d == 91) = false := by simp; omega
    have e2 : (d == 40) = false := by simp; omega
    have e3 : (d == 39) = false := by simp; omega
    have e4 : (d == 113) = false := by simp; omega
    have e5 : (d == 37) = false := by simp; omega
    have e7 : (d == 60) = false := by simp; omega
    have e8 : (d == 124) = false := by simp; omega
    have e9 : (d == 62) = false := by simp; omega
    have e10 : (d == 42) = false := by simp; omega
    have e6 : isDigit d = true := by simp [isDigit, h1, h2]
    simp only [run, argStep, hs, e1, e2, e3, e4, e5, e6, e7, e8, e9, e10]
    simp

example : (scan ⟨[10], []⟩ ("%*1,".toList.map Char.toNat) ("a,".toList.map Char.toNat)).ans = .yes ∧
    (scan ⟨[10], []⟩ ("%1,".toList.map Char.toNat) ("a,".toList.map Char.toNat)).ans = .yes := by
  decide +kernel

/-- C143: a field that ends in `%` or has the number 0 is read and not kept: the rest of the pattern goes on with
the data from before the field and with the fields as they were. -/
theorem C143_dropped (cf : Conf) (f lo hi : Nat) (d w : Text) (fr : List (Nat × Nat)) (r src : Text) :
    run cf (f + 1) (.arg ⟨d.length, lo, hi, false⟩) (37 :: r) src ⟨d ++ w, fr⟩ = run cf f .parse r src ⟨d, fr⟩ ∧
    run cf (f + 1) (.arg ⟨d.length, lo, hi, false⟩) (48 :: 37 :: r) src ⟨d ++ w, fr⟩ =
      run cf f .parse r src ⟨d, fr⟩ := by
  constructor
  · simp [run, argStep]
  · simp [run, argStep, isDigit, fieldNum]

example : (scan ⟨[10], []⟩ ("%[a-z]%,%[0-9]1%;".toList.map Char.toNat) ("abc,12;".toList.map Char.toNat)).st =
    ⟨[49, 50], [(0, 2)]⟩ := by
  decide +kernel

end LS.TextPat

import Verif.StrCmp
import Verif.ArrayTFind
/-!
# Properties of the comparison of strings (C125)
-/

namespace LS.StrCmp
open LS.ArrayT (Cmp Lex Right)

/-! ## `StrCmpCS` -/

/-- The order of the characters, independent of the code: the first difference decides, a prefix is smaller. -/
def LexI (a b : List Int) : Prop := (∃ c s : List Int, s ≠ [] ∧ a = c ∧ b = c ++ s) ∨ ∃ c x s y t, a = c ++ x :: s ∧ b = c ++ y :: t ∧ x < y

theorem LexI.cons {a b : List Int} (x : Int) (h : LexI a b) : LexI (x :: a) (x :: b) := by
  rcases h with ⟨c, s, hs, rfl, rfl⟩ | ⟨c, p, s, q, t, rfl, rfl, hlt⟩
  · exact Or.inl ⟨x :: a, s, hs, rfl, rfl⟩
  · exact Or.inr ⟨x :: c, p, s, q, t, rfl, rfl, hlt⟩

theorem LexI.head {x y : Int} (a b : List Int) (h : x < y) : LexI (x :: a) (y :: b) := Or.inr ⟨[], x, a, y, b, rfl, rfl, h⟩

theorem LexI.nil (y : Int) (b : List Int) : LexI [] (y :: b) := Or.inl ⟨[], y :: b, by simp, rfl, rfl⟩

theorem LexI.uncons {a b : List Int} {x y : Int} (h : LexI (x :: a) (y :: b)) : x < y ∨ (x = y ∧ LexI a b) := by
  rcases h with ⟨c, s, hs, h1, h2⟩ | ⟨c, p, s, q, t, h1, h2, hlt⟩
  · subst h1
    injection h2 with h3 h4
    exact Or.inr ⟨h3.symm, Or.inl ⟨a, s, hs, rfl, h4⟩⟩
  · cases c with
    | nil =>
      injection h1 with h3 h4
      injection h2 with h5 h6
      subst h3 h5
      exact Or.inl hlt
    | cons z c =>
      injection h1 with h3 h4
      injection h2 with h5 h6
      exact Or.inr ⟨h3.trans h5.symm, Or.inr ⟨c, p, s, q, t, h4, h6, hlt⟩⟩

theorem LexI.not_nil {a : List Int} : ¬ LexI a [] := by
  rintro (⟨c, s, hs, h1, h2⟩ | ⟨c, p, s, q, t, h1, h2, hlt⟩)
  · exact hs (List.append_eq_nil_iff.mp h2.symm).2
  · exact absurd h2.symm (by simp)

theorem LexI.asymm : ∀ {a b : List Int}, LexI a b → ¬ LexI b a ∧ a ≠ b
  | _, [], h => absurd h LexI.not_nil
  | [], y :: b, _ => ⟨LexI.not_nil, by simp⟩
  | x :: a, y :: b, h => by
    rcases h.uncons with h1 | ⟨rfl, h1⟩
    · refine ⟨fun h2 => ?_, ?_⟩
      · rcases h2.uncons with h3 | ⟨h3, _⟩ <;> omega
      · intro e
        injection e with e _
        omega
    · obtain ⟨h2, h3⟩ := LexI.asymm h1
      refine ⟨fun h4 => ?_, ?_⟩
      · rcases h4.uncons with h5 | ⟨_, h5⟩
        · omega
        · exact h2 h5
      · intro e
        injection e with _ e
        exact h3 e

theorem csLoop_cons (x y : Int) (a b : List Int) : ∀ n i, csLoop (x :: a) (y :: b) n (i + 1) = csLoop a b n i
  | 0, _ => rfl
  | n + 1, i => by
    unfold csLoop
    rw [csLoop_cons x y a b n (i + 1), List.getD_cons_succ, List.getD_cons_succ]

/-- What `StrCmpCS` gives, by recursion over the strings. -/
theorem strCmpCS_cons (x y : Int) (a b : List Int) : strCmpCS (x :: a) (y :: b) = if x > y then .greater else if x < y then .less else strCmpCS a b := by
  have hm : (if (x :: a).length < (y :: b).length then (x :: a).length else (y :: b).length) = (if a.length < b.length then a.length else b.length) + 1 := by
    simp only [List.length_cons]
    split <;> split <;> omega
  have hc : ∀ n, csLoop (x :: a) (y :: b) (n + 1) 0 = if x > y then some .greater else if x < y then some .less else csLoop a b n 0 := by
    intro n
    rw [csLoop, csLoop_cons, List.getD_cons_zero, List.getD_cons_zero]
  unfold strCmpCS
  rw [hm, hc]
  by_cases h1 : x > y
  · simp only [h1, if_true]
  · by_cases h2 : x < y
    · simp only [h1, h2, if_true, if_false]
    · simp only [h1, h2, if_false, List.length_cons, gt_iff_lt, Nat.add_lt_add_iff_right]

theorem strCmpCS_right : ∀ a b : List Int, (strCmpCS a b = .less ∧ LexI a b) ∨ (strCmpCS a b = .equal ∧ a = b) ∨ (strCmpCS a b = .greater ∧ LexI b a)
  | [], [] => Or.inr (Or.inl ⟨rfl, rfl⟩)
  | [], y :: b => Or.inl ⟨by simp [strCmpCS, csLoop], LexI.nil y b⟩
  | x :: a, [] => Or.inr (Or.inr ⟨by simp [strCmpCS, csLoop], LexI.nil x a⟩)
  | x :: a, y :: b => by
    rw [strCmpCS_cons]
    by_cases h1 : x > y
    · rw [if_pos h1]
      exact Or.inr (Or.inr ⟨rfl, LexI.head b a h1⟩)
    · rw [if_neg h1]
      by_cases h2 : x < y
      · rw [if_pos h2]
        exact Or.inl ⟨rfl, LexI.head a b h2⟩
      · rw [if_neg h2]
        have e : x = y := by omega
        subst e
        rcases strCmpCS_right a b with ⟨h3, h4⟩ | ⟨h3, h4⟩ | ⟨h3, h4⟩
        · exact Or.inl ⟨h3, h4.cons x⟩
        · exact Or.inr (Or.inl ⟨h3, by rw [h4]⟩)
        · exact Or.inr (Or.inr ⟨h3, h4.cons x⟩)

/-- C125: `StrCmpCS` is the lexicographic order. -/
theorem C125_cs (a b : List Int) : (strCmpCS a b = .less ↔ LexI a b) ∧ (strCmpCS a b = .equal ↔ a = b) ∧ (strCmpCS a b = .greater ↔ LexI b a) := by
  rcases strCmpCS_right a b with ⟨h, h2⟩ | ⟨h, h2⟩ | ⟨h, h2⟩
  · rw [h]
    simp [h2, h2.asymm.1, h2.asymm.2]
  · subst h2
    have : ¬ LexI a a := fun h => h.asymm.2 rfl
    rw [h]
    simp [this]
  · rw [h]
    simp [h2, h2.asymm.1, Ne.symm h2.asymm.2]

example : strCmpCS [97, 98] [97, 98, 0] = .less ∧ strCmpCS [97, -61] [97, 98] = .less ∧ strCmpCS [98] [97, 98] = .greater := by decide

/-! ## `StrCmpCI` -/

/-- The small letter of a capital letter, other characters as they are. -/
def small (c : Nat) : Nat := if 'A'.toNat ≤ c ∧ c ≤ 'Z'.toNat then c - 'A'.toNat + 'a'.toNat else c

theorem lower_eq : lower = small := by
  funext c
  have h1 : 'A'.toNat = 65 := rfl
  have h2 : 'Z'.toNat = 90 := rfl
  have h3 : 'a'.toNat = 97 := rfl
  unfold lower small
  rw [h1, h2, h3]
  split <;> omega

/-- What `strncasecmp` sees of a string: small letters; nothing behind the first zero. -/
def seen : List Nat → List Nat
  | [] => []
  | c :: l => if c = 0 then 0 :: List.replicate l.length 0 else lower c :: seen l

theorem casecmp_cons (x y : Nat) (a b : List Nat) : ∀ n i, casecmp (x :: a) (y :: b) n (i + 1) = casecmp a b n i
  | 0, _ => rfl
  | n + 1, i => by
    unfold casecmp
    rw [casecmp_cons x y a b n (i + 1), List.getD_cons_succ, List.getD_cons_succ]

theorem lower_zero (c : Nat) : lower c = 0 ↔ c = 0 := by
  unfold lower
  split <;> omega

theorem lex_replicate : ∀ n m : Nat, n < m → Lex (List.replicate n 0) (List.replicate m 0)
  | _, 0, h => absurd h (by omega)
  | 0, m + 1, _ => .nil
  | n + 1, m + 1, h => .tail (lex_replicate n m (by omega))

theorem seen_length : ∀ a : List Nat, (seen a).length = a.length
  | [] => rfl
  | c :: l => by
    unfold seen
    split
    · simp
    · simp [seen_length l]

/-- The first comparison and the rest. -/
theorem strCmpCI_cons (x y : Nat) (a b : List Nat) : strCmpCI (x :: a) (y :: b) =
    if lower x < lower y then .less else if lower y < lower x then .greater
    else if x = 0 then (if a.length < b.length then .less else if a.length = b.length then .equal else .greater)
    else strCmpCI a b := by
  have hm : min (x :: a).length (y :: b).length = min a.length b.length + 1 := by
    simp only [List.length_cons]
    omega
  have hc : casecmp (x :: a) (y :: b) (min a.length b.length + 1) 0 =
      if lower x ≠ lower y then (lower x : Int) - (lower y : Int) else if x = 0 then 0 else casecmp a b (min a.length b.length) 0 := by
    rw [casecmp, casecmp_cons, List.getD_cons_zero, List.getD_cons_zero]
  unfold strCmpCI
  rw [hm, hc]
  simp only [List.length_cons, Nat.add_right_cancel_iff]
  by_cases h1 : lower x < lower y
  · rw [if_pos (show lower x ≠ lower y by omega), if_pos h1, if_neg (show ¬ ((lower x : Int) - (lower y : Int) = 0) by omega), if_pos (show (lower x : Int) - (lower y : Int) < 0 by omega)]
  · rw [if_neg h1]
    by_cases h2 : lower y < lower x
    · rw [if_pos (show lower x ≠ lower y by omega), if_pos h2, if_neg (show ¬ ((lower x : Int) - (lower y : Int) = 0) by omega), if_neg (show ¬ ((lower x : Int) - (lower y : Int) < 0) by omega)]
    · rw [if_neg h2, if_neg (show ¬ (lower x ≠ lower y) by omega)]
      by_cases h3 : x = 0
      · simp only [h3, if_true]
        rcases Nat.lt_trichotomy a.length b.length with h | h | h
        · rw [if_pos (show min a.length b.length = a.length by omega), if_neg (show ¬ min a.length b.length = b.length by omega), if_pos h]
        · rw [if_pos (show min a.length b.length = a.length by omega), if_pos (show min a.length b.length = b.length by omega), if_neg (by omega), if_pos h]
        · rw [if_neg (show ¬ min a.length b.length = a.length by omega), if_neg (by omega), if_neg (by omega)]
      · simp only [h3, if_false]

/-- C125: `StrCmpCI` is the lexicographic order of what `strncasecmp` sees, so it is an order on every strings. -/
theorem C125_ci_order : ∀ a b : List Nat, Right (seen a) (seen b) (strCmpCI a b)
  | [], [] => Or.inr (Or.inl ⟨rfl, rfl⟩)
  | [], y :: b => by
    refine Or.inl ⟨by simp [strCmpCI, casecmp], ?_⟩
    unfold seen
    split <;> exact .nil
  | x :: a, [] => by
    refine Or.inr (Or.inr ⟨by simp [strCmpCI, casecmp], ?_⟩)
    unfold seen
    split <;> exact .nil
  | x :: a, y :: b => by
    rw [strCmpCI_cons]
    have key : ∀ z l, seen (z :: l) = lower z :: (if z = 0 then List.replicate l.length 0 else seen l) := by
      intro z l
      have e : seen (z :: l) = if z = 0 then 0 :: List.replicate l.length 0 else lower z :: seen l := rfl
      rw [e]
      by_cases hz : z = 0
      · rw [if_pos hz, if_pos hz, (lower_zero z).mpr hz]
      · rw [if_neg hz, if_neg hz]
    rw [key, key]
    by_cases h1 : lower x < lower y
    · rw [if_pos h1]
      exact Or.inl ⟨rfl, .head h1⟩
    · rw [if_neg h1]
      by_cases h2 : lower y < lower x
      · rw [if_pos h2]
        exact Or.inr (Or.inr ⟨rfl, .head h2⟩)
      · rw [if_neg h2]
        have e : lower x = lower y := by omega
        rw [e]
        by_cases h3 : x = 0
        · have h4 : y = 0 := (lower_zero y).mp (e.symm.trans ((lower_zero x).mpr h3))
          rw [if_pos h3, if_pos h3, if_pos h4]
          rcases Nat.lt_trichotomy a.length b.length with h | h | h
          · rw [if_pos h]
            exact Or.inl ⟨rfl, .tail (lex_replicate _ _ h)⟩
          · rw [if_neg (by omega), if_pos h, h]
            exact Or.inr (Or.inl ⟨rfl, rfl⟩)
          · rw [if_neg (by omega), if_neg (by omega)]
            exact Or.inr (Or.inr ⟨rfl, .tail (lex_replicate _ _ h)⟩)
        · have h4 : ¬ y = 0 := fun h => h3 ((lower_zero x).mp (e.trans ((lower_zero y).mpr h)))
          rw [if_neg h3, if_neg h3, if_neg h4]
          rcases C125_ci_order a b with ⟨h5, h6⟩ | ⟨h5, h6⟩ | ⟨h5, h6⟩
          · exact Or.inl ⟨h5, .tail h6⟩
          · exact Or.inr (Or.inl ⟨h5, by rw [h6]⟩)
          · exact Or.inr (Or.inr ⟨h5, .tail h6⟩)

theorem right_iff {l l' : List Nat} {c : Cmp} (h : Right l l' c) : (c = .less ↔ Lex l l') ∧ (c = .equal ↔ l = l') ∧ (c = .greater ↔ Lex l' l) := by
  rcases h with ⟨rfl, h2⟩ | ⟨rfl, h2⟩ | ⟨rfl, h2⟩
  · simp [h2, h2.irrefl, h2.asymm]
  · have hi : ¬ Lex l' l' := fun h => h.irrefl rfl
    simp [h2, hi]
  · simp [h2, h2.irrefl.symm, h2.asymm]

theorem seen_map : ∀ a : List Nat, 0 ∉ a → seen a = a.map lower
  | [], _ => rfl
  | c :: l, h => by
    unfold seen
    rw [if_neg (fun hc => h (by simp [hc])), seen_map l (fun hm => h (List.mem_cons_of_mem _ hm))]
    rfl

/-- C125: of strings without zeros it is the lexicographic order of the small letters; equal are strings that
differ in the size of letters only. -/
theorem C125_ci_partial (a b : List Nat) (ha : 0 ∉ a) (hb : 0 ∉ b) :
    (strCmpCI a b = .less ↔ Lex (a.map small) (b.map small)) ∧ (strCmpCI a b = .equal ↔ a.map small = b.map small) ∧
    (strCmpCI a b = .greater ↔ Lex (b.map small) (a.map small)) := by
  have := right_iff (C125_ci_order a b)
  rwa [seen_map a ha, seen_map b hb, lower_eq] at this

/-- C125: `TestCompare<…, StrCmpCI, cmpResultLess>` is an order as maps need it. -/
theorem C125_ci_weak : (∀ a b, strCmpCI a b = .less → strCmpCI b a = .greater) ∧ (∀ a b, strCmpCI a b = .equal → strCmpCI b a = .equal) ∧
    (∀ a b c, strCmpCI a b = .less → strCmpCI b c = .less → strCmpCI a c = .less) ∧
    (∀ a b c, strCmpCI a b = .equal → strCmpCI a c = strCmpCI b c) := by
  have r := fun a b => right_iff (C125_ci_order a b)
  refine ⟨fun a b h => (r b a).2.2.mpr ((r a b).1.mp h), fun a b h => (r b a).2.1.mpr ((r a b).2.1.mp h).symm, fun a b c h1 h2 => (r a c).1.mpr (((r a b).1.mp h1).trans ((r b c).1.mp h2)), fun a b c h => ?_⟩
  have e := (r a b).2.1.mp h
  have hb := r b c
  rw [← e] at hb
  rcases C125_ci_order a c with ⟨h1, h2⟩ | ⟨h1, h2⟩ | ⟨h1, h2⟩
  · rw [h1, hb.1.mpr h2]
  · rw [h1, hb.2.1.mpr h2]
  · rw [h1, hb.2.2.mpr h2]

example : strCmpCI [72, 111, 83, 116] [104, 79, 115, 84] = .equal ∧ strCmpCI [65, 98] [97, 66, 0] = .less := by decide

/-- C125 fails: strings with a zero: what is behind does not count. -/
theorem C125_ci_violated : strCmpCI [97, 0, 98] [97, 0, 99] = .equal ∧ [97, 0, 98].map small ≠ [97, 0, 99].map small ∧
    strCmpCI [97, 0, 122] [97, 0, 98, 98] = .less := by decide

/-! ## Literals -/

theorem makeCStr_lit (s : List Nat) : makeCStr (s ++ [0]) = s := by
  unfold makeCStr removeZeroChar
  rw [if_pos (by simp), List.length_append]
  simp

/-- What the operators mean. -/
def Means : Op → List Nat → List Nat → Prop
  | .eq, a, b => a = b
  | .ne, a, b => a ≠ b
  | .gt, a, b => Lex b a
  | .lt, a, b => Lex a b
  | .ge, a, b => Lex b a ∨ a = b
  | .le, a, b => Lex a b ∨ a = b
  | .cgt, a, b => Lex (b.map small) (a.map small)
  | .clt, a, b => Lex (a.map small) (b.map small)
  | .cge, a, b => Lex (b.map small) (a.map small) ∨ a.map small = b.map small
  | .cle, a, b => Lex (a.map small) (b.map small) ∨ a.map small = b.map small
  | .ceq, a, b => a.map small = b.map small
  | .cne, a, b => a.map small ≠ b.map small

theorem cmp_right (a b : List Nat) (ha : a.length < 2 ^ 64) (hb : b.length < 2 ^ 64) : ∃ c, cmp a b = .ok c ∧ Right a b c :=
  LS.ArrayT.c87 (a := .flat a) (b := .flat b) ha hb

theorem test_means {l l' : List Nat} {c : Cmp} (h : Right l l' c) :
    (Op.test .eq c = true ↔ l = l') ∧ (Op.test .ne c = true ↔ l ≠ l') ∧ (Op.test .gt c = true ↔ Lex l' l) ∧ (Op.test .lt c = true ↔ Lex l l') ∧
    (Op.test .ge c = true ↔ (Lex l' l ∨ l = l')) ∧ (Op.test .le c = true ↔ (Lex l l' ∨ l = l')) ∧ (Op.test .cne c = true ↔ l ≠ l') := by
  have hi : ¬ Lex l' l' := fun h => h.irrefl rfl
  rcases h with ⟨rfl, h2⟩ | ⟨rfl, h2⟩ | ⟨rfl, h2⟩
  · simp [Op.test, h2, h2.irrefl, h2.asymm]
  · simp [Op.test, h2, hi]
  · simp [Op.test, h2, h2.irrefl.symm, h2.asymm]

/-- C125: the operators of a string and a literal, all but `<=`. -/
theorem C125_ops_partial (op : Op) (c s : List Nat) (hop : op ≠ .le) (hc : c.length < 2 ^ 64) (hs : s.length < 2 ^ 64) (h0 : 0 ∉ c ∧ 0 ∉ s) :
    ∃ r, litOp op c (s ++ [0]) = .ok r ∧ (r = true ↔ Means op c s) := by
  obtain ⟨x, hx, hr⟩ := cmp_right c s hc hs
  have h1 := test_means hr
  have hci := C125_ci_order c s
  rw [seen_map c h0.1, seen_map s h0.2, lower_eq] at hci
  have h2 := test_means hci
  cases op with
  | eq => exact ⟨_, by rw [litOp, makeCStr_lit, hx]; rfl, h1.1⟩
  | ne => exact ⟨_, by rw [litOp, makeCStr_lit, hx]; rfl, h1.2.1⟩
  | gt => exact ⟨_, by rw [litOp, makeCStr_lit, hx]; rfl, h1.2.2.1⟩
  | lt => exact ⟨_, by rw [litOp, makeCStr_lit, hx]; rfl, h1.2.2.2.1⟩
  | ge => exact ⟨_, by rw [litOp, makeCStr_lit, hx]; rfl, h1.2.2.2.2.1⟩
  | le => exact absurd rfl hop
  | cgt => exact ⟨Op.test .cgt (strCmpCI c s), by rw [litOp, makeCStr_lit], h2.2.2.1⟩
  | clt => exact ⟨Op.test .clt (strCmpCI c s), by rw [litOp, makeCStr_lit], h2.2.2.2.1⟩
  | cge => exact ⟨Op.test .cge (strCmpCI c s), by rw [litOp, makeCStr_lit], h2.2.2.2.2.1⟩
  | cle => exact ⟨Op.test .cle (strCmpCI c s), by rw [litOp, makeCStr_lit], h2.2.2.2.2.2.1⟩
  | ceq => exact ⟨Op.test .ceq (strCmpCI c s), by rw [litOp, makeCStr_lit], h2.1⟩
  | cne => exact ⟨Op.test .cne (strCmpCI c s), by rw [litOp, makeCStr_lit], h2.2.2.2.2.2.2⟩

/-- C125 fails: `<=` with a literal answers `>=`; whenever the string and the literal differ, it is wrong. -/
theorem C125_le_violated (c s : List Nat) (hc : c.length < 2 ^ 64) (hs : s.length < 2 ^ 64) (hne : c ≠ s) :
    ∃ r, litOp .le c (s ++ [0]) = .ok r ∧ ¬ (r = true ↔ Means .le c s) := by
  obtain ⟨x, hx, hr⟩ := cmp_right c s hc hs
  refine ⟨_, by rw [litOp, makeCStr_lit, hx]; rfl, ?_⟩
  rcases hr with ⟨rfl, h2⟩ | ⟨rfl, h2⟩ | ⟨rfl, h2⟩
  · simp [Op.test, Means, h2]
  · exact absurd h2 hne
  · simp [Op.test, Means, h2.asymm, hne]

/-- C125 fails: `"a" <= "b"` is false. -/
theorem C125_violated : litOp .le [97] [98, 0] = .ok false ∧ litOp .lt [97] [98, 0] = .ok true := ⟨rfl, rfl⟩

theorem cLen_eq (s t : List Nat) (h0 : 0 ∉ s) : ∀ n k, k + n = s.length + (t.length + 1) → k ≤ s.length → cLen (s ++ 0 :: t) n k = s.length := by
  intro n
  induction n with
  | zero => intro k h1 h2; omega
  | succ n ih =>
    intro k h1 h2
    unfold cLen
    by_cases hk : k < s.length
    · have : (s ++ 0 :: t).getD k 0 ≠ 0 := by
        have e : (s ++ 0 :: t).getD k 0 = s[k] := by simp [List.getD_eq_getElem?_getD, List.getElem?_append_left hk, hk]
        rw [e]
        exact fun h => h0 (h ▸ List.getElem_mem hk)
      rw [if_pos this]
      exact ih (k + 1) (by omega) (by omega)
    · have e : k = s.length := by omega
      subst e
      rw [if_neg (by simp)]

/-- C125: `ConstStrFromCStr` gives what is in front of the first zero. -/
theorem C125_fromC (s t : List Nat) (h0 : 0 ∉ s) : constStrFromCStr (s ++ 0 :: t) = s := by
  unfold constStrFromCStr
  rw [cLen_eq s t h0 _ 0 (by simp) (by omega)]
  simp

example : constStrFromCStr [97, 98, 0, 99, 0] = [97, 98] ∧ constStrFromCStr [97, 98] = [97, 98] := by decide

/-! ## `cStr` -/

theorem cRead_append (s t : List Nat) (h0 : 0 ∉ s) : cRead (s ++ 0 :: t) = some s := by
  induction s with
  | nil => rfl
  | cons c l ih =>
    have hc : c ≠ 0 := fun h => h0 (by simp [h])
    have : cRead (c :: l ++ 0 :: t) = if c = 0 then some [] else (cRead (l ++ 0 :: t)).map (c :: ·) := rfl
    rw [this, if_neg hc, ih (fun h => h0 (List.mem_cons_of_mem _ h))]
    rfl

/-- C125: C functions read from `cStr` the string, whatever is in the memory behind it. -/
theorem C125_cStr (s behind : List Nat) (h0 : 0 ∉ s) (hb : ∀ c ∈ behind, c < 256) : cStrA s behind = some s := by
  unfold cStrA
  by_cases hs : s = []
  · rw [if_pos hs, hs]
    rfl
  · rw [if_neg hs]
    cases behind with
    | nil => exact cRead_append s [] h0
    | cons c l =>
      by_cases hz : zeroBehind 1 (c :: l) = true
      · have hc : c = 0 := by
          have h1 : c % 256 ^ 1 = 0 := by simpa [zeroBehind] using hz
          have h2 := hb c (by simp)
          omega
        rw [if_pos hz, hc]
        exact cRead_append s l h0
      · rw [if_neg hz]
        exact cRead_append s [] h0

/-- C125: wide strings, when the low byte of the character behind is not zero, or all of it is. -/
theorem C125_cStrW_partial (s behind : List Nat) (h0 : 0 ∉ s) (hb : ∀ c l, behind = c :: l → c % 256 = 0 → c = 0) : cStrW s behind = some s := by
  unfold cStrW
  by_cases hs : s = []
  · rw [if_pos hs, hs]
    rfl
  · rw [if_neg hs]
    cases behind with
    | nil => exact cRead_append s [] h0
    | cons c l =>
      by_cases hz : zeroBehind 1 (c :: l) = true
      · have hc : c = 0 := hb c l rfl (by simpa [zeroBehind] using hz)
        rw [if_pos hz, hc]
        exact cRead_append s l h0
      · rw [if_neg hz]
        exact cRead_append s [] h0

/-- C125 fails: `cStr` of the first letter of `aĀb` is all of it: only one byte of the next character is compared. -/
theorem C125_cStrW_violated : cStrW [97] [0x100, 98, 0] = some [97, 0x100, 98] ∧ cStrW [97] [0x100] = none := ⟨rfl, rfl⟩

example : cStrA [97] [98, 0] = some [97] ∧ cStrA [97] [0] = some [97] := ⟨rfl, rfl⟩

end LS.StrCmp

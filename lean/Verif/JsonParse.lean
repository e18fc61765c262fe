/-
The parser of Verif.Json reads the texts of Verif.JsonSpec.
-/
import Verif.JsonSpec

namespace LS.Json

open Spec

/-! ## Strings -/

theorem rawStr_quote (buf l : List Nat) : rawStr buf (34 :: l) = .ok (buf, l) := by
  rw [rawStr.eq_def]; rfl

theorem rawStr_plain {c : Nat} (buf l : List Nat) (h1 : c ≠ 34) (h2 : c ≠ 92) : rawStr buf (c :: l) = rawStr (buf ++ [c]) l := by
  rw [rawStr.eq_def]
  simp only [if_neg h1, if_pos h2]

theorem rawStr_short {x c : Nat} (buf l : List Nat) (h : (x, c) ∈ short) : rawStr buf (92 :: x :: l) = rawStr (buf ++ [c]) l := by
  simp only [short, List.mem_cons, List.not_mem_nil, or_false, Prod.mk.injEq] at h
  rcases h with ⟨rfl, rfl⟩ | ⟨rfl, rfl⟩ | ⟨rfl, rfl⟩ | ⟨rfl, rfl⟩ | ⟨rfl, rfl⟩ | ⟨rfl, rfl⟩ | ⟨rfl, rfl⟩ | ⟨rfl, rfl⟩ <;> (rw [rawStr.eq_def]; rfl)

theorem rawStr_code {z0 z1 z2 z3 : Nat} (buf l : List Nat) :
    rawStr buf (92 :: 117 :: z0 :: z1 :: z2 :: z3 :: l) =
      if isHex z0 && isHex z1 && isHex z2 && isHex z3 then
        match unicode [z0, z1, z2, z3] with
        | .error e => .error e
        | .ok t => rawStr (buf ++ t) l
      else .error .thrown := by
  rw [rawStr.eq_def]; rfl

theorem isHex_of_letter {z d : Nat} (h : NumText.Spec.letter z = some d) (hd : d < 16) : isHex z = true := by
  unfold NumText.Spec.letter at h
  unfold isHex
  split at h
  · simp only [Bool.or_eq_true, Bool.and_eq_true, decide_eq_true_eq]; omega
  · split at h
    · cases h; simp only [Bool.or_eq_true, Bool.and_eq_true, decide_eq_true_eq]; omega
    · split at h
      · cases h; simp only [Bool.or_eq_true, Bool.and_eq_true, decide_eq_true_eq]; omega
      · cases h

theorem valueFrom_hex : ∀ (t : List Nat) (acc n : Nat), NumText.Spec.valueFrom 16 acc t = some n → ∀ z ∈ t, isHex z = true := by
  intro t
  induction t with
  | nil => intro _ _ _ z hz; cases hz
  | cons c t ih =>
    intro acc n h z hz
    rw [NumText.Spec.valueFrom] at h
    cases e : NumText.Spec.letter c with
    | none => rw [e] at h; cases h
    | some d =>
      rw [e] at h
      simp only at h
      split at h
      · rename_i hd
        rcases List.mem_cons.1 hz with rfl | hz
        · exact isHex_of_letter e hd
        · exact ih _ _ h z hz
      · cases h

theorem valueFrom_lt {base : Nat} : ∀ (t : List Nat) (acc n : Nat), NumText.Spec.valueFrom base acc t = some n → acc * base ^ t.length ≤ n ∧ n < (acc + 1) * base ^ t.length := by
  intro t
  induction t with
  | nil => intro acc n h; cases h; simp
  | cons c t ih =>
    intro acc n h
    rw [NumText.Spec.valueFrom] at h
    cases e : NumText.Spec.letter c with
    | none => rw [e] at h; cases h
    | some d =>
      rw [e] at h
      simp only at h
      split at h
      · rename_i hd
        obtain ⟨h1, h2⟩ := ih _ _ h
        have e1 : base ^ (c :: t).length = base * base ^ t.length := by rw [List.length_cons, Nat.pow_succ, Nat.mul_comm]
        rw [e1, ← Nat.mul_assoc, ← Nat.mul_assoc]
        constructor
        · exact Nat.le_trans (Nat.mul_le_mul_right _ (by omega)) h1
        · refine Nat.lt_of_lt_of_le h2 (Nat.mul_le_mul_right _ ?_)
          rw [Nat.add_mul]; omega
      · cases h

theorem value_from {base n : Nat} {t : List Nat} (h : NumText.Spec.value base t = some n) : NumText.Spec.valueFrom base 0 t = some n := by
  unfold NumText.Spec.value at h
  split at h
  · cases h
  · exact h

theorem unicode_eq {z0 z1 z2 z3 c : Nat} (h : NumText.Spec.value 16 [z0, z1, z2, z3] = some c) :
    unicode [z0, z1, z2, z3] = match Utf.enc.run 7 {} [c] with | none => .error .thrown | some t => .ok t := by
  have hc : c < 2 ^ 64 := by
    have := (valueFrom_lt _ _ _ (value_from h)).2
    simp at this; omega
  unfold unicode
  rw [NumText.strToU_value h, Nat.mod_eq_of_lt hc]
  rfl

theorem rawStr_value {z0 z1 z2 z3 c : Nat} (buf l : List Nat) (h : NumText.Spec.value 16 [z0, z1, z2, z3] = some c) (h1 : c ≠ 0x7FF) (h2 : c ≠ 0xFFFF) :
    rawStr buf (92 :: 117 :: z0 :: z1 :: z2 :: z3 :: l) = rawStr (buf ++ Utf.utf8 c) l := by
  have hx := valueFrom_hex _ _ _ (value_from h)
  have hc : c < 0x10000 := by
    have := (valueFrom_lt _ _ _ (value_from h)).2
    simp at this; omega
  rw [rawStr_code, hx z0 (by simp), hx z1 (by simp), hx z2 (by simp), hx z3 (by simp), unicode_eq h]
  rw [Utf.C09_standard_form_partial [c] (by intro d hd; rw [List.mem_singleton.1 hd]; exact ⟨by omega, h1, h2⟩) (Nat.le_refl 7)]
  simp

/-- The domain on which the parser does what RFC 8259 says. -/
def good : Domain := ⟨fun c => c < 0x10000 ∧ c ≠ 0x7FF ∧ c ≠ 0xFFFF, fun v => -2 ^ 63 < v ∧ v < 2 ^ 63⟩

theorem rawStr_chars {t s : List Nat} (h : Chars good t s) : ∀ (buf rest : List Nat), rawStr buf (t ++ 34 :: rest) = .ok (buf ++ s, rest) := by
  induction h with
  | nil => intro buf rest; rw [List.nil_append, rawStr_quote, List.append_nil]
  | plain h1 h2 h3 _ ih => intro buf rest; rw [List.cons_append, rawStr_plain _ _ h2 h3, ih, List.append_assoc]; rfl
  | short hm _ ih => intro buf rest; rw [List.cons_append, List.cons_append, rawStr_short _ _ hm, ih, List.append_assoc]; rfl
  | code hv _ hg _ ih =>
    intro buf rest
    simp only [List.cons_append]
    rw [rawStr_value _ _ hv hg.2.1 hg.2.2, ih, List.append_assoc]
  | pair _ _ _ _ _ _ hg _ _ => exact absurd hg.1 (by omega)

/-! ## Space -/

theorem isspace_ws {c : Nat} (h : c = 32 ∨ c = 9 ∨ c = 10 ∨ c = 13) : isspace c = true := by
  rcases h with rfl | rfl | rfl | rfl <;> rfl

theorem skipSp_ws {w : List Nat} (h : Ws w) {c : Nat} (hc : isspace c = false) (l : List Nat) : skipSp (w ++ c :: l) = .ok (c, l) := by
  induction w with
  | nil => rw [List.nil_append, skipSp, hc]; rfl
  | cons x w ih =>
    rw [List.cons_append, skipSp, isspace_ws (h x (by simp)), if_pos rfl]
    exact ih (fun c hc => h c (by simp [hc]))

theorem dropSp_ws {w : List Nat} (h : Ws w) {c : Nat} (hc : isspace c = false) (l : List Nat) : dropSp (w ++ c :: l) = .ok (c :: l) := by
  induction w with
  | nil => rw [List.nil_append, dropSp, hc]; rfl
  | cons x w ih =>
    rw [List.cons_append, dropSp, isspace_ws (h x (by simp)), if_pos rfl]
    exact ih (fun c hc => h c (by simp [hc]))

theorem delim_ws {close : Nat} {w : List Nat} (h : Ws w) (hs : ∀ c, c = 32 ∨ c = 9 ∨ c = 10 ∨ c = 13 → c ≠ close) (x : List Nat) : delim close (w ++ x) = delim close x := by
  induction w with
  | nil => rfl
  | cons c w ih =>
    have hc := h c (by simp)
    rw [List.cons_append, delim, if_neg (by omega), if_neg (hs c hc), isspace_ws hc, if_pos rfl]
    exact ih (fun c hc => h c (by simp [hc]))

theorem delim_comma (close : Nat) (l : List Nat) : delim close (44 :: l) = .ok (true, l) := rfl

theorem delim_close {close : Nat} (h : close ≠ 44) (l : List Nat) : delim close (close :: l) = .ok (false, l) := by
  rw [delim, if_neg h, if_pos rfl]

theorem parse_ws {w : List Nat} (h : Ws w) (fuel : Nat) (l : List Nat) : parse (fuel + w.length) (w ++ l) = parse fuel l := by
  induction w with
  | nil => rfl
  | cons c w ih =>
    have hc := h c (by simp)
    rw [List.length_cons, ← Nat.add_assoc, List.cons_append, parse]
    rw [if_neg (by omega), if_neg (by omega), if_neg (by omega), if_neg (by omega), if_neg (by omega), if_neg (by omega)]
    rw [if_pos (by rcases hc with rfl | rfl | rfl | rfl <;> rfl)]
    exact ih (fun c hc => h c (by simp [hc]))

/-! ## Numbers -/

/-- The characters behind a number: those at which the parser stops. -/
def stop (c : Nat) : Prop := c = 44 ∨ c = 93 ∨ c = 125 ∨ c = 0 ∨ isspace c = true

theorem numChars_digits {t rest : List Nat} (h : ∀ c ∈ t, 48 ≤ c ∧ c < 58) (hr : ∀ c l, rest = c :: l → stop c) : numChars (t ++ rest) = (t, rest) := by
  induction t with
  | nil =>
    cases rest with
    | nil => rfl
    | cons c l => rw [List.nil_append, numChars]; exact if_pos (hr c l rfl)
  | cons c t ih =>
    have hc := h c (by simp)
    have hs : ¬ (c = 44 ∨ c = 93 ∨ c = 125 ∨ c = 0 ∨ isspace c = true) := by
      unfold isspace
      simp only [Bool.or_eq_true, Bool.and_eq_true, decide_eq_true_eq, beq_iff_eq]
      omega
    rw [List.cons_append, numChars, if_neg hs, ih (fun c hc => h c (by simp [hc]))]

theorem valueFrom_digits : ∀ (t : List Nat) (acc n : Nat), NumText.Spec.valueFrom 10 acc t = some n → ∀ c ∈ t, 48 ≤ c ∧ c < 58 := by
  intro t
  induction t with
  | nil => intro _ _ _ c hc; cases hc
  | cons x t ih =>
    intro acc n h c hc
    rw [NumText.Spec.valueFrom] at h
    cases e : NumText.Spec.letter x with
    | none => rw [e] at h; cases h
    | some d =>
      rw [e] at h
      simp only at h
      split at h
      · rename_i hd
        rcases List.mem_cons.1 hc with rfl | hc
        · unfold NumText.Spec.letter at e
          split at e
          · omega
          · split at e
            · cases e; omega
            · split at e
              · cases e; omega
              · cases e
        · exact ih _ _ h c hc
      · cases h

/-- Without zeros in front a number below 2^63 has at most 19 digits. -/
theorem digits_length {t : List Nat} {n : Nat} (h : Digits t n) (hn : n < 2 ^ 63) : t.length ≤ 19 := by
  obtain ⟨hv, h0⟩ := h
  rcases h0 with rfl | h0
  · decide
  · have hf := value_from hv
    cases t with
    | nil => simp
    | cons c t =>
      have hc := valueFrom_digits _ _ _ hf c (by simp)
      have hc0 : c ≠ 48 := by simpa using h0
      rw [NumText.Spec.valueFrom] at hf
      have e : NumText.Spec.letter c = some (c - 48) := by unfold NumText.Spec.letter; rw [if_pos hc]
      rw [e] at hf
      simp only at hf
      rw [if_pos (by omega)] at hf
      have hl := (valueFrom_lt _ _ _ hf).1
      rw [List.length_cons]
      refine Nat.lt_of_not_le fun hg => ?_
      have h1 : 10 ^ 19 ≤ 10 ^ t.length := Nat.pow_le_pow_right (by decide) hg
      have h2 : 1 * 10 ^ t.length ≤ (0 * 10 + (c - 48)) * 10 ^ t.length := Nat.mul_le_mul_right _ (by omega)
      have h3 : (10 : Nat) ^ 19 = 10000000000000000000 := by decide
      have h4 : (2 : Nat) ^ 63 = 9223372036854775808 := by decide
      omega

theorem any_real {t : List Nat} (h : ∀ c ∈ t, 48 ≤ c ∧ c < 58) : t.any isReal = false := by
  rw [List.any_eq_false]
  intro c hc
  have := h c hc
  unfold isReal
  simp only [Bool.or_eq_true, beq_iff_eq]
  omega

theorem number_value {t : List Nat} {v : Int} (hl : t.length ≤ 22) (hv : NumText.Spec.valueS 10 t = some v) (h1 : -2 ^ 63 < v) (h2 : v < 2 ^ 63) : number false t = .ok (.int v) := by
  unfold number
  have e := NumText.c93_parse_integer_partial (rest := []) (base := 10) (by intro x l d h; cases h) hv h1 h2
  rw [List.append_nil] at e
  rw [e]
  simp [hl]

theorem parse_value {x : Nat} {fuel : Nat} (l : List Nat) (h : 48 ≤ x ∧ x < 58 ∨ x = 45) : parse (fuel + 1) (x :: l) = parseValue x l := by
  rw [parse]
  rw [if_neg (by omega), if_neg (by omega), if_neg (by omega), if_neg (by omega), if_neg (by omega), if_neg (by omega)]
  rw [if_neg (by unfold isBlank; simp only [Bool.or_eq_true, beq_iff_eq]; omega)]

theorem parseValue_digits {x : Nat} {t rest : List Nat} {v : Int} (hx : 48 ≤ x ∧ x < 58 ∨ x = 45) (h : ∀ c ∈ t, 48 ≤ c ∧ c < 58)
    (hr : ∀ c l, rest = c :: l → stop c) (hne : t ++ rest ≠ []) (hl : t.length < 22) (hv : NumText.Spec.valueS 10 (x :: t) = some v)
    (h1 : -2 ^ 63 < v) (h2 : v < 2 ^ 63) : parseValue x (t ++ rest) = .ok (.int v, rest) := by
  have hs : isspace x = false := by
    cases e : isspace x with
    | false => rfl
    | true =>
      unfold isspace at e
      simp only [Bool.or_eq_true, Bool.and_eq_true, decide_eq_true_eq, beq_iff_eq] at e
      omega
  unfold parseValue
  cases e : t ++ rest with
  | nil => exact absurd e hne
  | cons a b =>
    simp only
    rw [← e, hs]
    simp only [Bool.false_eq_true, if_false]
    rw [numChars_digits h hr]
    simp only
    rw [any_real h, number_value (by simp; omega) hv h1 h2]

theorem valueS_pos {t : List Nat} {n : Nat} (h : NumText.Spec.value 10 t = some n) : NumText.Spec.valueS 10 t = some (n : Int) := by
  obtain ⟨c, l, rfl⟩ := NumText.value_ne h
  have hh := NumText.value_head h
  unfold NumText.Spec.valueS
  split
  · rename_i e; simp only [List.cons.injEq] at e; exact absurd rfl (e.1 ▸ hh.1)
  · rename_i e; simp only [List.cons.injEq] at e; exact absurd rfl (e.1 ▸ hh.2)
  · rw [h]; rfl

theorem valueS_neg {t : List Nat} {n : Nat} (h : NumText.Spec.value 10 t = some n) : NumText.Spec.valueS 10 (45 :: t) = some (-(n : Int)) := by
  show (NumText.Spec.value 10 t).map (fun (n : Nat) => -(n : Int)) = _
  rw [h]; rfl

/-! ## Objects -/

theorem lt_irrefl (a : List Nat) : lt a a = false := by
  induction a with
  | nil => rfl
  | cons x a ih => rw [lt, if_neg (by omega), if_neg (by omega), ih]

theorem lt_asymm : ∀ {a b : List Nat}, lt a b = true → lt b a = false := by
  intro a
  induction a with
  | nil => intro b h; cases b with
    | nil => cases h
    | cons => rfl
  | cons x a ih =>
    intro b h
    cases b with
    | nil => cases h
    | cons y b =>
      rw [lt] at h ⊢
      split at h
      · rw [if_neg (by omega), if_pos (by omega)]
      · split at h
        · cases h
        · rw [if_neg (by omega), if_neg (by omega)]; exact ih h

theorem lt_trans : ∀ {a b c : List Nat}, lt a b = true → lt b c = true → lt a c = true := by
  intro a
  induction a with
  | nil => intro b c h1 h2; cases b with
    | nil => cases h1
    | cons y b => cases c with
      | nil => cases h2
      | cons => rfl
  | cons x a ih =>
    intro b c h1 h2
    cases b with
    | nil => cases h1
    | cons y b =>
      cases c with
      | nil => cases h2
      | cons z c =>
        rw [lt] at h1 h2 ⊢
        split at h1
        · split at h2
          · rw [if_pos (by omega)]
          · split at h2
            · cases h2
            · rw [if_pos (by omega)]
        · split at h1
          · cases h1
          · split at h2
            · rw [if_pos (by omega)]
            · split at h2
              · cases h2
              · rw [if_neg (by omega), if_neg (by omega)]; exact ih h1 h2

theorem sb_inj {x y : Nat} (h : sb x = sb y) : x = y := by
  unfold sb at h; grind

theorem sb_signed (x y : Nat) : sb x < sb y ↔ signed x < signed y := by
  unfold sb signed; grind

theorem lt_less : ∀ (a b : List Nat), lt a b = true ↔ Less a b := by
  intro a
  induction a with
  | nil =>
    intro b
    cases b with
    | nil =>
      simp only [lt, Bool.false_eq_true, false_iff]
      rintro (⟨x, t, e⟩ | ⟨p, x, y, t, u, e, _⟩)
      · cases e
      · cases p <;> cases e
    | cons y b => simp only [lt, true_iff]; exact .inl ⟨y, b, rfl⟩
  | cons x a ih =>
    intro b
    cases b with
    | nil =>
      simp only [lt, Bool.false_eq_true, false_iff]
      rintro (⟨x, t, e⟩ | ⟨p, x, y, t, u, _, e, _⟩)
      · cases e
      · cases p <;> cases e
    | cons y b =>
      rw [lt]
      by_cases h1 : sb x < sb y
      · rw [if_pos h1]
        simp only [true_iff]
        exact .inr ⟨[], x, y, a, b, rfl, rfl, (sb_signed x y).1 h1⟩
      · rw [if_neg h1]
        by_cases h2 : sb y < sb x
        · rw [if_pos h2]
          simp only [Bool.false_eq_true, false_iff]
          rintro (⟨z, t, e⟩ | ⟨p, z, w, t, u, e1, e2, hs⟩)
          · cases e; omega
          · cases p with
            | nil => cases e1; cases e2; exact h1 ((sb_signed x y).2 hs)
            | cons q p => cases e1; cases e2; omega
        · rw [if_neg h2, ih]
          have e : x = y := sb_inj (by omega)
          subst e
          constructor
          · rintro (⟨z, t, rfl⟩ | ⟨p, z, w, t, u, rfl, rfl, hs⟩)
            · exact .inl ⟨z, t, rfl⟩
            · exact .inr ⟨x :: p, z, w, t, u, rfl, rfl, hs⟩
          · rintro (⟨z, t, e⟩ | ⟨p, z, w, t, u, e1, e2, hs⟩)
            · cases e; exact .inl ⟨z, t, rfl⟩
            · cases p with
              | nil => cases e1; cases e2; exact absurd ((sb_signed x x).2 hs) h1
              | cons q p => cases e1; cases e2; exact .inr ⟨p, z, w, t, u, rfl, rfl, hs⟩

theorem sorted_iff (m : Fields) : Sorted m ↔ (keys m).Pairwise fun a b => lt a b = true := by
  unfold Sorted
  exact ⟨fun h => h.imp fun h => (lt_less _ _).2 h, fun h => h.imp fun h => (lt_less _ _).1 h⟩

/-- The members of a text, added one after the other. -/
def addAll : Fields → Fields → Fields
  | m, .nil => m
  | m, .cons k d r => addAll (addField k d m) r

theorem keys_pairs : ∀ (m : Fields), keys m = (pairs m).map Prod.fst
  | .nil => rfl
  | .cons k d m => by rw [keys, pairs, List.map_cons, ← keys_pairs m]

theorem pairs_inj : ∀ {m n : Fields}, pairs m = pairs n → m = n
  | .nil, .nil, _ => rfl
  | .nil, .cons .., h => by cases h
  | .cons .., .nil, h => by cases h
  | .cons k d m, .cons k' d' n, h => by
    rw [pairs, pairs, List.cons.injEq, Prod.mk.injEq] at h
    rw [h.1.1, h.1.2, pairs_inj h.2]

theorem lt_total : ∀ {a b : List Nat}, lt a b = false → lt b a = false → a = b := by
  intro a
  induction a with
  | nil => intro b h _; cases b with
    | nil => rfl
    | cons => cases h
  | cons x a ih =>
    intro b h1 h2
    cases b with
    | nil => cases h2
    | cons y b =>
      rw [lt] at h1 h2
      split at h1
      · cases h1
      · rename_i hx
        rw [if_neg hx] at h2
        split at h1
        · rename_i hy; rw [if_pos hy] at h2; cases h2
        · rename_i hy
          rw [if_neg hy] at h2
          have e : x = y := by
            exact sb_inj (by omega)
          rw [e, ih h1 h2]

theorem addField_perm {k : List Nat} {d : Doc} : ∀ {m : Fields}, k ∉ keys m → (pairs (addField k d m)).Perm ((k, d) :: pairs m)
  | .nil, _ => .refl _
  | .cons k' d' m, h => by
    rw [keys, List.mem_cons, not_or] at h
    rw [addField]
    split
    · exact .refl _
    · rename_i h1
      split
      · rw [pairs, pairs]
        exact ((addField_perm h.2).cons _).trans (List.Perm.swap _ _ _)
      · rename_i h2
        exact absurd (lt_total (by simpa using h1) (by simpa using h2)) h.1

theorem mem_keys_addField {k x : List Nat} {d : Doc} : ∀ {m : Fields}, x ∈ keys (addField k d m) → x = k ∨ x ∈ keys m
  | .nil, h => by simpa [addField, keys] using h
  | .cons k' d' m, h => by
    rw [addField] at h
    split at h
    · simpa [keys] using h
    · split at h
      · rw [keys, List.mem_cons] at h
        rw [keys, List.mem_cons]
        rcases h with h | h
        · exact .inr (.inl h)
        · rcases mem_keys_addField h with h | h
          · exact .inl h
          · exact .inr (.inr h)
      · exact .inr h

/-- The fields of an object are always sorted. -/
theorem addField_sorted {k : List Nat} {d : Doc} : ∀ {m : Fields}, Sorted m → Sorted (addField k d m)
  | .nil, _ => by simp [Sorted, addField, keys]
  | .cons k' d' m, h => by
    rw [sorted_iff] at h
    rw [keys, List.pairwise_cons] at h
    rw [addField]
    split
    · rename_i hk
      rw [sorted_iff, keys, keys, List.pairwise_cons, List.pairwise_cons]
      refine ⟨fun x hx => ?_, h⟩
      rcases List.mem_cons.1 hx with rfl | hx
      · exact hk
      · exact lt_trans hk (h.1 x hx)
    · split
      · rename_i hk
        rw [sorted_iff, keys, List.pairwise_cons]
        refine ⟨fun x hx => ?_, (sorted_iff _).1 (addField_sorted ((sorted_iff _).2 h.2))⟩
        rcases mem_keys_addField hx with rfl | hx
        · exact hk
        · exact h.1 x hx
      · rw [sorted_iff, keys, List.pairwise_cons]
        exact h

theorem addAll_spec : ∀ (ms acc : Fields), Sorted acc → (keys acc ++ keys ms).Nodup → Sorted (addAll acc ms) ∧ (pairs (addAll acc ms)).Perm (pairs acc ++ pairs ms)
  | .nil, acc, h, _ => by rw [addAll, pairs, List.append_nil]; exact ⟨h, .refl _⟩
  | .cons k d ms, acc, h, hn => by
    have hk : k ∉ keys acc := by
      intro hm
      rw [keys, List.nodup_append] at hn
      exact hn.2.2 k hm k (by simp) rfl
    have hp := addField_perm (d := d) hk
    have hp' : (keys (addField k d acc)).Perm (k :: keys acc) := by
      rw [keys_pairs, keys_pairs]; exact hp.map Prod.fst
    have hnd : (keys (addField k d acc) ++ keys ms).Nodup := by
      refine ((hp'.append_right _).nodup_iff).2 ?_
      rw [keys] at hn
      exact (List.perm_middle.nodup_iff).1 hn
    obtain ⟨h1, h2⟩ := addAll_spec ms _ (addField_sorted (k := k) (d := d) h) hnd
    refine ⟨h1, h2.trans ?_⟩
    rw [pairs]
    exact (hp.append_right _).trans List.perm_middle.symm

theorem sorted_unique {m n : Fields} (hm : Sorted m) (hn : Sorted n) (h : (pairs m).Perm (pairs n)) : m = n := by
  refine pairs_inj (h.eq_of_pairwise (le := fun a b => lt a.1 b.1 = true) ?_ ?_ ?_)
  · intro a b _ _ h1 h2
    rw [lt_asymm h1] at h2; cases h2
  · have := hm; rw [sorted_iff, keys_pairs, List.pairwise_map] at this; exact this
  · have := hn; rw [sorted_iff, keys_pairs, List.pairwise_map] at this; exact this

theorem addAll_eq {ms m : Fields} (hn : (keys ms).Nodup) (hm : Sorted m) (hp : (pairs m).Perm (pairs ms)) : addAll .nil ms = m := by
  obtain ⟨h1, h2⟩ := addAll_spec ms .nil .nil (by simpa [keys] using hn)
  exact sorted_unique h1 hm (h2.trans hp.symm)

/-! ## Arrays -/

/-- Items added one after the other. -/
def addItems : Docs → Docs → Docs
  | a, .nil => a
  | a, .cons d l => addItems (addItem d a) l

def app : Docs → Docs → Docs
  | .nil, l => l
  | .cons d a, l => .cons d (app a l)

theorem app_addItem {d : Doc} {l : Docs} : ∀ (a : Docs), app (addItem d a) l = app a (.cons d l)
  | .nil => rfl
  | .cons x a => by rw [addItem, app, app, app_addItem a]

theorem app_nil : ∀ (a : Docs), app a .nil = a
  | .nil => rfl
  | .cons x a => by rw [app, app_nil a]

theorem addItems_app : ∀ (l a : Docs), addItems a l = app a l
  | .nil, a => by rw [addItems, app_nil]
  | .cons d l, a => by rw [addItems, addItems_app l, app_addItem]

/-! ## Documents -/

theorem val_head {P : Domain} {t : List Nat} {d : Doc} (h : Val P t d) : ∃ c u, t = c :: u ∧ isspace c = false ∧ c ≠ 93 := by
  cases h with
  | pos hd _ =>
    obtain ⟨c, l, rfl⟩ := NumText.value_ne hd.1
    have hc := valueFrom_digits _ _ _ (value_from hd.1) c (by simp)
    refine ⟨c, l, rfl, ?_, by omega⟩
    cases e : isspace c with
    | false => rfl
    | true =>
      unfold isspace at e
      simp only [Bool.or_eq_true, Bool.and_eq_true, decide_eq_true_eq, beq_iff_eq] at e
      omega
  | null => exact ⟨_, _, rfl, rfl, by decide⟩
  | true => exact ⟨_, _, rfl, rfl, by decide⟩
  | false => exact ⟨_, _, rfl, rfl, by decide⟩
  | neg => exact ⟨_, _, rfl, rfl, by decide⟩
  | str => exact ⟨_, _, rfl, rfl, by decide⟩
  | empty => exact ⟨_, _, rfl, rfl, by decide⟩
  | arr => exact ⟨_, _, rfl, rfl, by decide⟩
  | emptyObj => exact ⟨_, _, rfl, rfl, by decide⟩
  | obj => exact ⟨_, _, rfl, rfl, by decide⟩

theorem items_head {P : Domain} {t : List Nat} {l : Docs} (h : Items P t l) : ∃ c u, t = c :: u ∧ isspace c = false ∧ c ≠ 93 := by
  cases h with
  | one h _ => obtain ⟨c, u, rfl, hc⟩ := val_head h; exact ⟨c, _, rfl, hc⟩
  | cons h _ _ _ => obtain ⟨c, u, rfl, hc⟩ := val_head h; exact ⟨c, _, by rfl, hc⟩

theorem members_head {P : Domain} {t : List Nat} {m : Fields} (h : Members P t m) : ∃ u, t = 34 :: u := by
  cases h <;> exact ⟨_, rfl⟩

/-- What may follow a text: anything, but a number must be delimited, or be the end of the input and have two characters. -/
def Follow (t : List Nat) (d : Doc) (rest : List Nat) : Prop :=
  ∀ v, d = .int v → (∃ c l, rest = c :: l ∧ stop c) ∨ (rest = [] ∧ 2 ≤ t.length)

theorem follow_stop {t : List Nat} {d : Doc} {c : Nat} (h : stop c) (l : List Nat) : Follow t d (c :: l) := fun _ _ => .inl ⟨c, l, rfl, h⟩

theorem stop_ws {w : List Nat} (h : Ws w) {c : Nat} (hc : stop c) (l : List Nat) : ∃ c' l', w ++ c :: l = c' :: l' ∧ stop c' := by
  cases w with
  | nil => exact ⟨c, l, rfl, hc⟩
  | cons x w => exact ⟨x, _, rfl, .inr (.inr (.inr (.inr (isspace_ws (h x (by simp))))))⟩

theorem follow_ws {t : List Nat} {d : Doc} {w : List Nat} (h : Ws w) {c : Nat} (hc : stop c) (l : List Nat) : Follow t d (w ++ c :: l) := by
  obtain ⟨c', l', e, hs⟩ := stop_ws h hc l
  rw [e]; exact follow_stop hs l'

theorem ws_ne {c : Nat} {x : Nat} (hx : x = 93 ∨ x = 125) : c = 32 ∨ c = 9 ∨ c = 10 ∨ c = 13 → c ≠ x := by omega

theorem parse_skip {w : List Nat} (h : Ws w) {fuel : Nat} {x : List Nat} {r : Doc × List Nat} {n : Nat} (hf : w.length + n ≤ fuel) (hp : ∀ f, n ≤ f → parse f x = .ok r) :
    parse fuel (w ++ x) = .ok r := by
  obtain ⟨k, rfl⟩ : ∃ k, fuel = k + w.length := ⟨fuel - w.length, by omega⟩
  rw [parse_ws h]; exact hp k (by omega)

mutual

theorem parse_val {t : List Nat} {d : Doc} (h : Val good t d) : ∀ (fuel : Nat) (rest : List Nat), 2 * t.length ≤ fuel → Follow t d rest → parse fuel (t ++ rest) = .ok (d, rest) := by
  intro fuel rest hf hr
  match h with
  | .null => obtain ⟨k, rfl⟩ : ∃ k, fuel = k + 1 := ⟨fuel - 1, by simp at hf; omega⟩; rw [List.cons_append, parse]; rfl
  | .true => obtain ⟨k, rfl⟩ : ∃ k, fuel = k + 1 := ⟨fuel - 1, by simp at hf; omega⟩; rw [List.cons_append, parse]; rfl
  | .false => obtain ⟨k, rfl⟩ : ∃ k, fuel = k + 1 := ⟨fuel - 1, by simp at hf; omega⟩; rw [List.cons_append, parse]; rfl
  | .pos hd hi =>
    have hl := digits_length hd (by have := hi.2; omega)
    have hc := valueFrom_digits _ _ _ (value_from hd.1)
    have hv := valueS_pos hd.1
    obtain ⟨c, l, rfl⟩ := NumText.value_ne hd.1
    obtain ⟨k, rfl⟩ : ∃ k, fuel = k + 1 := ⟨fuel - 1, by simp at hf; omega⟩
    rw [List.cons_append, parse_value _ (.inl (hc c (by simp)))]
    rw [List.length_cons] at hl
    refine parseValue_digits (.inl (hc c (by simp))) (fun x hx => hc x (by simp [hx])) ?_ ?_ (by omega) hv hi.1 hi.2
    · rintro x y rfl
      rcases hr _ rfl with ⟨c, l, e, hs⟩ | ⟨e, _⟩
      · cases e; exact hs
      · cases e
    · intro e
      obtain ⟨e1, e2⟩ := List.append_eq_nil_iff.1 e
      rcases hr _ rfl with ⟨c, l, e, hs⟩ | ⟨_, h2⟩
      · rw [e2] at e; cases e
      · rw [e1] at h2; simp at h2
  | .neg hd hi =>
    have hl := digits_length hd (by have := hi.1; omega)
    have hc := valueFrom_digits _ _ _ (value_from hd.1)
    have hv := valueS_neg hd.1
    obtain ⟨k, rfl⟩ : ∃ k, fuel = k + 1 := ⟨fuel - 1, by simp at hf; omega⟩
    rw [List.cons_append, parse_value _ (.inr rfl)]
    refine parseValue_digits (.inr rfl) hc ?_ ?_ (by omega) hv hi.1 hi.2
    · rintro x y rfl
      rcases hr _ rfl with ⟨c, l, e, hs⟩ | ⟨e, _⟩
      · cases e; exact hs
      · cases e
    · obtain ⟨c, l, rfl⟩ := NumText.value_ne hd.1
      intro e; cases e
  | .str hc =>
    obtain ⟨k, rfl⟩ : ∃ k, fuel = k + 1 := ⟨fuel - 1, by simp at hf; omega⟩
    simp only [List.cons_append, List.append_assoc, List.nil_append]
    rw [parse, if_pos rfl, rawStr_chars hc, List.nil_append]
  | .empty hw =>
    obtain ⟨k, rfl⟩ : ∃ k, fuel = k + 1 + 1 := ⟨fuel - 2, by simp at hf; omega⟩
    simp only [List.cons_append, List.append_assoc, List.nil_append]
    rw [parse, if_neg (by decide), if_neg (by decide), if_pos rfl, parseArray, dropSp_ws hw rfl]
    rfl
  | .arr hw hi =>
    rename_i w t l
    obtain ⟨k, rfl⟩ : ∃ k, fuel = k + 1 + 1 := ⟨fuel - 2, by simp at hf; omega⟩
    obtain ⟨c, u, e, hc, hc'⟩ := items_head hi
    simp only [List.cons_append, List.append_assoc, List.nil_append]
    rw [parse, if_neg (by decide), if_neg (by decide), if_pos rfl, parseArray]
    have ed : dropSp (w ++ (t ++ 93 :: rest)) = .ok (t ++ 93 :: rest) := by
      rw [e]; exact dropSp_ws hw hc _
    have hp := parse_items hi k .nil [] rest (by intro x hx; cases hx) (by simp at hf ⊢; omega)
    rw [ed]
    rw [e] at hp ⊢
    simp only [List.cons_append, List.nil_append] at hp ⊢
    rw [if_neg hc', hp, addItems_app]; rfl
  | .emptyObj hw =>
    obtain ⟨k, rfl⟩ : ∃ k, fuel = k + 1 + 1 := ⟨fuel - 2, by simp at hf; omega⟩
    simp only [List.cons_append, List.append_assoc, List.nil_append]
    rw [parse, if_neg (by decide), if_pos rfl, parseObject, skipSp_ws hw rfl]
    rfl
  | .obj hw hi hn hs hp =>
    rename_i w t ms m
    obtain ⟨k, rfl⟩ : ∃ k, fuel = k + 1 + 1 := ⟨fuel - 2, by simp at hf; omega⟩
    obtain ⟨u, e⟩ := members_head hi
    simp only [List.cons_append, List.append_assoc, List.nil_append]
    rw [parse, if_neg (by decide), if_pos rfl, parseObject]
    have ed : skipSp (w ++ (t ++ 125 :: rest)) = .ok (34, u ++ 125 :: rest) := by
      rw [e]; exact skipSp_ws hw rfl _
    rw [ed]
    simp only
    rw [if_neg (by decide), parse_members hi k .nil [] rest 34 (u ++ 125 :: rest) (by intro x hx; cases hx) (by rw [e]; rfl) (by simp at hf ⊢; omega), addAll_eq hn hs hp]

theorem parse_items {t : List Nat} {l : Docs} (h : Items good t l) : ∀ (fuel : Nat) (acc : Docs) (w rest : List Nat), Ws w → 2 * (w.length + t.length) + 1 ≤ fuel →
    parseItems fuel acc (w ++ t ++ 93 :: rest) = .ok (.arr (addItems acc l), rest) := by
  intro fuel acc w rest hw hf
  match h with
  | .one hv hw' =>
    rename_i t d w'
    obtain ⟨k, rfl⟩ : ∃ k, fuel = k + 1 := ⟨fuel - 1, by omega⟩
    simp only [List.length_append] at hf
    simp only [List.append_assoc]
    rw [parseItems, parse_skip hw (n := 2 * t.length) (by omega) (fun f hf => parse_val hv f (w' ++ 93 :: rest) hf (follow_ws hw' (.inr (.inl rfl)) _))]
    simp only
    rw [delim_ws hw' (fun c => ws_ne (.inl rfl)), delim_close (by decide)]
    rfl
  | .cons hv hw1 hw2 hi =>
    rename_i t d w1 w2 u l
    obtain ⟨k, rfl⟩ : ∃ k, fuel = k + 1 := ⟨fuel - 1, by omega⟩
    simp only [List.length_append, List.length_cons] at hf
    have hp := parse_items hi k (addItem d acc) w2 rest hw2 (by omega)
    simp only [List.append_assoc, List.cons_append] at hp ⊢
    rw [parseItems, parse_skip hw (n := 2 * t.length) (by omega) (fun f hf => parse_val hv f _ hf (follow_ws hw1 (.inl rfl) _))]
    simp only
    rw [delim_ws hw1 (fun c => ws_ne (.inl rfl)), delim_comma]
    simp only
    rw [hp, addItems]

theorem parse_members {t : List Nat} {m : Fields} (h : Members good t m) : ∀ (fuel : Nat) (acc : Fields) (w rest : List Nat) (c : Nat) (l : List Nat), Ws w →
    c :: l = w ++ t ++ 125 :: rest → 2 * (w.length + t.length) + 1 ≤ fuel →
    parseFields fuel acc c l = .ok (.obj (addAll acc m), rest) := by
  intro fuel acc w rest c l hw e hf
  match h with
  | .one hk hw1 hw2 hv hw' =>
    rename_i k s w1 w2 t d w'
    obtain ⟨n, rfl⟩ : ∃ n, fuel = n + 1 := ⟨fuel - 1, by omega⟩
    simp only [List.length_append, List.length_cons] at hf
    simp only [List.append_assoc, List.cons_append] at e
    rw [parseFields, e, skipSp_ws hw rfl]
    simp only
    rw [if_neg (by decide), rawStr_chars hk]
    simp only
    rw [skipSp_ws hw1 rfl]
    simp only
    rw [if_neg (by decide), parse_skip hw2 (n := 2 * t.length) (by omega) (fun f hf => parse_val hv f (w' ++ 125 :: rest) hf (follow_ws hw' (.inr (.inr (.inl rfl))) _))]
    simp only
    rw [delim_ws hw' (fun c => ws_ne (.inr rfl)), delim_close (by decide)]
    rfl
  | .cons hk hw1 hw2 hv hw' hw'' hm =>
    rename_i k s w1 w2 t d w' w'' u m
    obtain ⟨n, rfl⟩ : ∃ n, fuel = n + 1 := ⟨fuel - 1, by omega⟩
    simp only [List.length_append, List.length_cons] at hf
    simp only [List.append_assoc, List.cons_append] at e
    obtain ⟨x, y, exy⟩ : ∃ x y, x :: y = w'' ++ (u ++ 125 :: rest) := by
      obtain ⟨v, hv⟩ := members_head hm
      cases w'' with
      | nil => exact ⟨34, v ++ 125 :: rest, by rw [hv]; rfl⟩
      | cons a b => exact ⟨a, _, rfl⟩
    have hp := parse_members hm n (addField s d acc) w'' rest x y hw'' (by rw [exy, List.append_assoc]) (by omega)
    rw [parseFields, e, skipSp_ws hw rfl]
    simp only
    rw [if_neg (by decide), rawStr_chars hk]
    simp only
    rw [skipSp_ws hw1 rfl]
    simp only
    rw [if_neg (by decide), parse_skip hw2 (n := 2 * t.length) (by omega) (fun f hf => parse_val hv f _ hf (follow_ws hw' (.inl rfl) _))]
    simp only
    rw [delim_ws hw' (fun c => ws_ne (.inr rfl)), delim_comma, ← exy]
    simp only
    rw [List.nil_append, hp, addAll]

end

end LS.Json

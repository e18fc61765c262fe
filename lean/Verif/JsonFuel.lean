/-
The fuel of the parser of Verif.Json never runs out.
-/
import Verif.Json

namespace LS.Json

theorem skipSp_len : ∀ {l r : List Nat} {c : Nat}, skipSp l = .ok (c, r) → r.length < l.length := by
  intro l
  induction l with
  | nil => intro r c h; cases h
  | cons x l ih =>
    intro r c h
    rw [skipSp] at h
    split at h
    · have := ih h; rw [List.length_cons]; omega
    · cases h; simp

theorem dropSp_len : ∀ {l r : List Nat}, dropSp l = .ok r → r.length ≤ l.length := by
  intro l
  induction l with
  | nil => intro r h; cases h
  | cons x l ih =>
    intro r h
    rw [dropSp] at h
    split at h
    · have := ih h; rw [List.length_cons]; omega
    · cases h; simp

theorem delim_len {close : Nat} : ∀ {l r : List Nat} {b : Bool}, delim close l = .ok (b, r) → r.length < l.length := by
  intro l
  induction l with
  | nil => intro r b h; cases h
  | cons x l ih =>
    intro r b h
    rw [delim] at h
    split at h
    · cases h; simp
    · split at h
      · cases h; simp
      · split at h
        · have := ih h; rw [List.length_cons]; omega
        · cases h

theorem check_len : ∀ {s l r : List Nat}, check s l = .ok r → r.length ≤ l.length := by
  intro s
  induction s with
  | nil => intro l r h; cases h; exact Nat.le_refl _
  | cons c s ih =>
    intro l r h
    cases l with
    | nil => cases h
    | cons x l =>
      rw [check] at h
      split at h
      · cases h
      · have := ih h; rw [List.length_cons]; omega

theorem numChars_len : ∀ (l : List Nat), (numChars l).2.length ≤ l.length := by
  intro l
  induction l with
  | nil => exact Nat.le_refl _
  | cons c l ih =>
    rw [numChars]
    split
    · exact Nat.le_refl _
    · simp only [List.length_cons]; omega

theorem parseValue_len {x : Nat} {l r : List Nat} {d : Doc} (h : parseValue x l = .ok (d, r)) : r.length ≤ l.length := by
  cases l with
  | nil => cases h
  | cons a l =>
    unfold parseValue at h
    simp only at h
    split at h
    · cases h
    · rename_i l' e
      have hl : l'.length ≤ (a :: l).length := by
        split at e
        · exact dropSp_len e
        · cases e; exact Nat.le_refl _
      split at h
      · cases h
      · cases h
        have := numChars_len l'
        omega

theorem rawStr_len : ∀ (n : Nat) {l buf s r : List Nat}, l.length ≤ n → rawStr buf l = .ok (s, r) → r.length < l.length := by
  intro n
  induction n with
  | zero =>
    intro l buf s r hn h
    cases l with
    | nil => cases h
    | cons => simp at hn
  | succ n ih =>
    intro l buf s r hn h
    rw [rawStr.eq_def] at h
    split at h
    · cases h
    · simp only [List.length_cons] at hn ⊢
      split at h
      · cases h; omega
      · split at h
        · have := ih (by omega) h; omega
        · split at h
          · cases h
          · simp only [List.length_cons] at hn ⊢
            split at h
            · split at h
              · cases h
              · have := ih (by omega) h; omega
            · cases h
          · simp only [List.length_cons] at hn ⊢
            split at h
            · cases h
            · have := ih (by omega) h; omega

/-- What is left is shorter than the input. -/
theorem lens : ∀ (f : Nat), (∀ {l r d}, parse f l = .ok (d, r) → r.length < l.length) ∧ (∀ {l r d}, parseObject f l = .ok (d, r) → r.length < l.length) ∧
    (∀ {m c l r d}, parseFields f m c l = .ok (d, r) → r.length ≤ l.length) ∧ (∀ {l r d}, parseArray f l = .ok (d, r) → r.length < l.length) ∧
    (∀ {a l r d}, parseItems f a l = .ok (d, r) → r.length < l.length) := by
  intro f
  induction f with
  | zero => refine ⟨?_, ?_, ?_, ?_, ?_⟩ <;> (intros; rename_i h; simp only [parse, parseObject, parseFields, parseArray, parseItems] at h; cases h)
  | succ f ih =>
    obtain ⟨ihP, ihO, ihF, ihA, ihI⟩ := ih
    refine ⟨?_, ?_, ?_, ?_, ?_⟩
    · intro l r d h
      cases l with
      | nil => rw [parse] at h; cases h
      | cons x l =>
        rw [parse] at h
        rw [List.length_cons]
        split at h
        · split at h
          · cases h
          · rename_i e; cases h; have := rawStr_len _ (Nat.le_refl _) e; omega
        · split at h
          · have := ihO h; omega
          · split at h
            · have := ihA h; omega
            · split at h
              · split at h
                · cases h
                · rename_i e; cases h; have := check_len e; omega
              · split at h
                · split at h
                  · cases h
                  · rename_i e; cases h; have := check_len e; omega
                · split at h
                  · split at h
                    · cases h
                    · rename_i e; cases h; have := check_len e; omega
                  · split at h
                    · have := ihP h; omega
                    · have := parseValue_len h; omega
    · intro l r d h
      rw [parseObject] at h
      split at h
      · cases h
      · rename_i e
        have := skipSp_len e
        split at h
        · cases h; exact this
        · have := ihF h; omega
    · intro m c l r d h
      rw [parseFields] at h
      split at h
      · cases h
      · rename_i e
        have e1 := skipSp_len e
        rw [List.length_cons] at e1
        split at h
        · cases h
        · split at h
          · cases h
          · rename_i e
            have e2 := rawStr_len _ (Nat.le_refl _) e
            split at h
            · cases h
            · rename_i e
              have e3 := skipSp_len e
              split at h
              · cases h
              · split at h
                · cases h
                · rename_i e
                  have e4 := ihP e
                  split at h
                  · cases h
                  · rename_i e
                    have e5 := delim_len e
                    cases h; omega
                  · cases h
                  · rename_i e
                    have e5 := delim_len e
                    rw [List.length_cons] at e5
                    have e6 := ihF h
                    omega
    · intro l r d h
      rw [parseArray] at h
      split at h
      · cases h
      · cases h
      · rename_i e
        have e1 := dropSp_len e
        rw [List.length_cons] at e1
        split at h
        · cases h; omega
        · have e2 := ihI h; rw [List.length_cons] at e2; omega
    · intro a l r d h
      rw [parseItems] at h
      split at h
      · cases h
      · rename_i e
        have e1 := ihP e
        split at h
        · cases h
        · rename_i e
          have e2 := delim_len e
          cases h; omega
        · rename_i e
          have e2 := delim_len e
          have e3 := ihI h
          omega

theorem steps : ∀ (f : Nat), (∀ l, 3 * l.length + 1 ≤ f → parse (f + 1) l = parse f l) ∧ (∀ l, 3 * l.length + 3 ≤ f → parseObject (f + 1) l = parseObject f l) ∧
    (∀ m c l, 3 * l.length + 5 ≤ f → parseFields (f + 1) m c l = parseFields f m c l) ∧ (∀ l, 3 * l.length + 3 ≤ f → parseArray (f + 1) l = parseArray f l) ∧
    (∀ a l, 3 * l.length + 2 ≤ f → parseItems (f + 1) a l = parseItems f a l) := by
  intro f
  induction f with
  | zero => refine ⟨?_, ?_, ?_, ?_, ?_⟩ <;> (intros; omega)
  | succ f ih =>
    obtain ⟨ihP, ihO, ihF, ihA, ihI⟩ := ih
    refine ⟨?_, ?_, ?_, ?_, ?_⟩
    · intro l hf
      cases l with
      | nil => rw [parse, parse]
      | cons x l =>
        rw [List.length_cons] at hf
        rw [parse, parse, ihO l (by omega), ihA l (by omega), ihP l (by omega)]
    · intro l hf
      rw [parseObject, parseObject]
      split
      · rfl
      · rename_i c r e
        have := skipSp_len e
        rw [ihF .nil c r (by omega)]
    · intro m c l hf
      rw [parseFields, parseFields]
      split
      · rfl
      · rename_i e
        have e1 := skipSp_len e
        rw [List.length_cons] at e1
        split
        · rfl
        · split
          · rfl
          · rename_i e
            have e2 := rawStr_len _ (Nat.le_refl _) e
            split
            · rfl
            · rename_i e
              have e3 := skipSp_len e
              rw [ihP _ (by omega)]
              split
              · rfl
              · split
                · rfl
                · rename_i e
                  have e4 := (lens f).1 e
                  split
                  · rfl
                  · rfl
                  · rfl
                  · rename_i e
                    have e5 := delim_len e
                    rw [List.length_cons] at e5
                    exact ihF _ _ _ (by omega)
    · intro l hf
      rw [parseArray, parseArray]
      split
      · rfl
      · rfl
      · rename_i c r e
        have e1 := dropSp_len e
        rw [ihI .nil (c :: r) (by omega)]
    · intro a l hf
      rw [parseItems, parseItems, ihP l (by omega)]
      split
      · rfl
      · rename_i e
        have e1 := (lens f).1 e
        split
        · rfl
        · rfl
        · rename_i e
          have e2 := delim_len e
          exact ihI _ _ (by omega)

/-- More fuel changes nothing. -/
theorem parse_fuel (l : List Nat) (f : Nat) (h : 3 * l.length + 1 ≤ f) : parse f l = parseDoc l := by
  obtain ⟨k, rfl⟩ : ∃ k, f = 3 * l.length + 1 + k := ⟨f - (3 * l.length + 1), by omega⟩
  induction k with
  | zero => rfl
  | succ k ih => rw [← Nat.add_assoc, (steps _).1 l (by omega), ih (by omega)]

/-- A text is read from the front: what is left is a shorter text. -/
theorem parseDoc_shorter {l r : List Nat} {d : Doc} (h : parseDoc l = .ok (d, r)) : r.length < l.length := (lens _).1 h

end LS.Json

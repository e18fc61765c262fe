import Verif.ArrayTProps
/-!
# Properties of array expressions: comparison, search of sequences, sections, `split`, `render`
-/

namespace LS.ArrayT

/-! ## C87: `compare` -/

/-- The comparison of two lists, the first one not longer than the second one. -/
def cmpPre : List Nat → List Nat → Cmp
  | x :: l, y :: l' => if cmpItems x y ≠ .equal then cmpItems x y else cmpPre l l'
  | _, _ => .equal

theorem cmpLoop_eq {a b : Arr} (ha : a.Valid) (hb : b.Valid) :
    ∀ (n i : Nat), i + n = a.den.length → a.den.length ≤ b.den.length →
      cmpLoop a b n i .equal = .ok (cmpPre (a.den.drop i) (b.den.drop i)) := by
  intro n
  induction n with
  | zero =>
    intro i hi hab
    rw [List.drop_eq_nil_of_le (by omega)]
    simp [cmpLoop, cmpPre]
  | succ n ih =>
    intro i hi hab
    rw [List.drop_eq_getElem_cons (l := a.den) (by omega), List.drop_eq_getElem_cons (l := b.den) (by omega)]
    simp only [cmpLoop, at_lt ha (i := i) (by omega), at_lt hb (i := i) (by omega), cmpPre]
    split
    · rfl
    · exact ih (i + 1) (by omega) hab

/-- Lexicographic order of lists, as an independent definition. -/
inductive Lex : List Nat → List Nat → Prop
  | nil {y l} : Lex [] (y :: l)
  | head {x y l l'} : x < y → Lex (x :: l) (y :: l')
  | tail {x l l'} : Lex l l' → Lex (x :: l) (x :: l')

/-- What the comparison of two lists should be. -/
def Right (l l' : List Nat) (c : Cmp) : Prop :=
  (c = .less ∧ Lex l l') ∨ (c = .equal ∧ l = l') ∨ (c = .greater ∧ Lex l' l)

theorem cmpItems_cases (x y : Nat) : (x = y ∧ cmpItems x y = .equal) ∨ (x < y ∧ cmpItems x y = .less) ∨
    (y < x ∧ cmpItems x y = .greater) := by
  unfold cmpItems
  rcases Nat.lt_trichotomy x y with h | h | h
  · right; left; exact ⟨h, by rw [if_neg (by omega), if_pos h]⟩
  · left; exact ⟨h, if_pos h⟩
  · right; right; exact ⟨h, by rw [if_neg (by omega), if_neg (by omega), if_pos h]⟩

theorem cmpPre_right : ∀ (l l' : List Nat), l.length ≤ l'.length →
    Right l l' (if cmpPre l l' = .equal ∧ l.length < l'.length then .less else cmpPre l l')
  | [], [], _ => by simp [cmpPre, Right]
  | [], y :: l', _ => by simp [cmpPre, Right, Lex.nil]
  | x :: l, [], h => by simp at h
  | x :: l, y :: l', h => by
    have ih := cmpPre_right l l' (by simpa using h)
    simp only [cmpPre, List.length_cons, Nat.add_lt_add_iff_right]
    rcases cmpItems_cases x y with ⟨rfl, e⟩ | ⟨hl, e⟩ | ⟨hl, e⟩
    · simp only [e, ne_eq, not_true_eq_false, if_false]
      rcases ih with ⟨h1, h2⟩ | ⟨h1, h2⟩ | ⟨h1, h2⟩
      · exact Or.inl ⟨h1, .tail h2⟩
      · exact Or.inr (Or.inl ⟨h1, by rw [h2]⟩)
      · exact Or.inr (Or.inr ⟨h1, .tail h2⟩)
    · simp [e, Right, Lex.head hl]
    · simp [e, Right, Lex.head hl]

theorem cmpLe_right {a b : Arr} (ha : a.Valid) (hb : b.Valid) (h : a.den.length ≤ b.den.length) :
    ∃ c, cmpLe a b = .ok c ∧ Right a.den b.den c := by
  unfold cmpLe
  rw [(c81_length ha).1, (c81_length hb).1]
  split
  · next h0 =>
    have e : a.den = [] := List.length_eq_zero_iff.1 h0
    rw [e]
    refine ⟨_, rfl, ?_⟩
    split
    · next h1 => exact Or.inr (Or.inl ⟨rfl, (List.length_eq_zero_iff.1 h1).symm⟩)
    · next h1 =>
      cases hb : b.den with
      | nil => rw [hb] at h1; simp at h1
      | cons y l => exact Or.inl ⟨rfl, .nil⟩
  · rw [cmpLoop_eq ha hb _ 0 (by omega) h]
    exact ⟨_, rfl, cmpPre_right _ _ h⟩

/-- C87: `compare` of two arrays is the lexicographic order of their sequences. -/
theorem c87 {a b : Arr} (ha : a.Valid) (hb : b.Valid) : ∃ c, compare a b = .ok c ∧ Right a.den b.den c := by
  unfold compare
  rw [(c81_length ha).1, (c81_length hb).1]
  split
  · next h =>
    obtain ⟨c, h1, h2⟩ := cmpLe_right hb ha (by omega)
    rw [h1]
    refine ⟨c.swap, rfl, ?_⟩
    rcases h2 with ⟨rfl, h2⟩ | ⟨rfl, h2⟩ | ⟨rfl, h2⟩
    · exact Or.inr (Or.inr ⟨rfl, h2⟩)
    · exact Or.inr (Or.inl ⟨rfl, h2.symm⟩)
    · exact Or.inl ⟨rfl, h2⟩
  · next h => exact cmpLe_right ha hb (by omega)

theorem Lex.irrefl {l l' : List Nat} (h : Lex l l') : l ≠ l' := by
  induction h with
  | nil => simp
  | head h => simp; omega
  | tail h ih => simpa using ih

theorem Lex.asymm {l l' : List Nat} (h : Lex l l') : ¬ Lex l' l := by
  induction h with
  | nil => intro h; cases h
  | head h => intro h'; cases h' <;> omega
  | tail h ih =>
    intro h'
    cases h' with
    | head h => omega
    | tail h => exact ih h

theorem Lex.trans {l l' l'' : List Nat} (h : Lex l l') (h' : Lex l' l'') : Lex l l'' := by
  induction h generalizing l'' with
  | nil => cases h' <;> exact .nil
  | head h =>
    cases h' with
    | head h2 => exact .head (by omega)
    | tail h2 => exact .head h
  | tail h ih =>
    cases h' with
    | head h2 => exact .head h2
    | tail h2 => exact .tail (ih h2)

/-- C87: the results of `compare` exclude each other: equality and both orders. -/
theorem c87_iff {a b : Arr} (ha : a.Valid) (hb : b.Valid) :
    (compare a b = .ok .equal ↔ a.den = b.den) ∧ (compare a b = .ok .less ↔ Lex a.den b.den) ∧
    (compare a b = .ok .greater ↔ Lex b.den a.den) := by
  obtain ⟨c, h1, h2⟩ := c87 ha hb
  rw [h1]
  rcases h2 with ⟨rfl, h2⟩ | ⟨rfl, h2⟩ | ⟨rfl, h2⟩
  · simp [h2, h2.irrefl, h2.asymm]
  · have hi : ¬ Lex b.den b.den := fun h => h.irrefl rfl
    simp [h2, hi]
  · simp [h2, h2.irrefl.symm, h2.asymm]

/-! ## C83: `find(array)` -/

/-- The sequence `o` stands in `l` at the place `i`. -/
def Occ (l o : List Nat) (i : Nat) : Prop := (l.drop i).take o.length = o

theorem Occ.first {l o : List Nat} {i v : Nat} (h : Occ l o i) (hv : o[0]? = some v) : l[i]? = some v := by
  unfold Occ at h
  rw [← h] at hv
  have : 0 < o.length := by
    cases o with
    | nil => simp at hv
    | cons => simp
  rw [List.getElem?_take_of_lt this, List.getElem?_drop] at hv
  simpa using hv

/-- `mid` is `drop` and `take` if the sum of the position and of the count does not overflow. -/
theorem mid_den {a : Arr} (h : a.Valid) (pos count : Nat) (hw : pos + count < 2 ^ 64) :
    (a.midOf pos count).Valid ∧ (a.midOf pos count).den = (a.den.drop pos).take count := by
  have hl := c81_length h
  unfold Arr.midOf
  rw [hl.1, wadd_eq hw]
  split
  · next h1 =>
    refine ⟨⟨h, by omega⟩, ?_⟩
    simp only [Arr.den, List.take_zero]
    rw [List.drop_eq_nil_of_le h1, List.take_nil]
  · split
    · next h1 h2 =>
      refine ⟨⟨h, by omega⟩, ?_⟩
      simp only [Arr.den]
      rw [List.take_of_length_le (by simp), List.take_of_length_le (by simp; omega)]
    · exact ⟨⟨h, by omega⟩, rfl⟩

theorem findSeqLoop_right {a other : Arr} (h : a.Valid) (hfl : a.isFlat = true) (hs : a.den.length < 2 ^ 63)
    (ho : other.Valid) (hol : other.den.length ≤ a.den.length) {o : Nat} (h0 : other.den[0]? = some o) :
    ∀ (fuel lo pos : Nat), First (fun i => lo ≤ i ∧ a.den[i]? = some o) pos → (∀ i, i < lo → ¬ Occ a.den other.den i) →
      a.den.length < lo + fuel → ∃ r, findSeqLoop a other o fuel pos = .ok r ∧ First (Occ a.den other.den) r := by
  intro fuel
  induction fuel with
  | zero =>
    intro lo pos hp hlo hf
    refine ⟨null, rfl, Or.inr ⟨rfl, ?_⟩⟩
    intro i hi
    have hi' := (List.getElem?_eq_some_iff.1 (hi.first h0)).1
    exact hlo i (by omega) hi
  | succ fuel ih =>
    intro lo pos hp hlo hf
    unfold findSeqLoop
    rcases hp with ⟨hne, ⟨hge, hat⟩, hmin⟩ | ⟨hn, hno⟩
    · rw [if_neg hne]
      have hb := (List.getElem?_eq_some_iff.1 hat).1
      have hlo' : ∀ i, i < pos → ¬ Occ a.den other.den i := by
        intro i hi hocc
        by_cases hil : i < lo
        · exact hlo i hil hocc
        · exact hmin i hi ⟨by omega, hocc.first h0⟩
      have hle := (c81_length ho).1
      have hm := mid_den h pos other.den.length (by omega)
      rw [hle]
      obtain ⟨c, h1, h2⟩ := c87 hm.1 ho
      rw [h1]
      have hc := (c87_iff hm.1 ho).1
      rw [h1, hm.2] at hc
      by_cases hce : c = .equal
      · subst hce
        exact ⟨pos, rfl, Or.inl ⟨hne, hc.1 rfl, hlo'⟩⟩
      · have hno : ¬ Occ a.den other.den pos := fun h => hce (by have := hc.2 h; cases this; rfl)
        obtain ⟨r, h3, h4⟩ := c83_from_partial h hfl o (pos := wadd pos 1) (by rw [wadd_eq (by omega)]; omega)
        rw [h3]
        rw [wadd_eq (by omega)] at h4
        obtain ⟨q, h5, h6⟩ := ih (pos + 1) r h4 (by
          intro i hi
          by_cases hip : i = pos
          · subst hip; exact hno
          · exact hlo' i (by omega)) (by omega)
        refine ⟨q, ?_, h6⟩
        cases c with
        | equal => exact absurd rfl hce
        | _ => exact h5
    · rw [if_pos hn]
      refine ⟨null, rfl, Or.inr ⟨rfl, ?_⟩⟩
      intro i hi
      by_cases hil : i < lo
      · exact hlo i hil hi
      · exact hno i ⟨by omega, hi.first h0⟩

/-- C83 in part: `find(array)` in a flat array is the first place of the sequence; the sequence may be
any expression with items. -/
theorem c83_seq_partial {a other : Arr} (h : a.Valid) (hfl : a.isFlat = true) (hs : a.den.length < 2 ^ 63)
    (ho : other.Valid) (hne : other.den ≠ []) :
    ∃ r, a.findSeq other = .ok r ∧ First (Occ a.den other.den) r := by
  have hla := (c81_length h).1
  have hlo := (c81_length ho).1
  have hp := List.length_pos_iff.2 hne
  unfold Arr.findSeq
  rw [hla, hlo]
  split
  · next hc =>
    refine ⟨null, rfl, Or.inr ⟨rfl, ?_⟩⟩
    intro i hi
    have := congrArg List.length hi
    simp at this
    omega
  · next hc =>
    have h0 : other.den[0]? = some other.den[0] := List.getElem?_eq_getElem hp
    rw [at_lt ho hp]
    have hf := flat_valid_fine hfl
    obtain ⟨r, h1, h2⟩ := c83_partial h (Fine.fine0 hf.1) hf.2 other.den[0]
    simp only [h1]
    exact findSeqLoop_right h hfl hs ho (by omega) h0 _ 0 r (by simpa using h2) (by omega) (by omega)

/-- C83 in part: `find(array,pos)` in a flat array. -/
theorem c83_seqFrom_partial {a other : Arr} (h : a.Valid) (hfl : a.isFlat = true) (hs : a.den.length < 2 ^ 63)
    (ho : other.Valid) (hne : other.den ≠ []) {pos : Nat} (hp : pos < 2 ^ 64) :
    ∃ r, a.findSeqFrom other pos = .ok r ∧ First (fun i => pos ≤ i ∧ Occ a.den other.den i) r := by
  have hd := offset_den h pos
  obtain ⟨r, h1, h2⟩ := c83_seq_partial hd.1 hfl (by rw [hd.2, List.length_drop]; omega) ho hne
  refine ⟨if r = null then r else wadd r pos, by unfold Arr.findSeqFrom; rw [h1]; rfl, ?_⟩
  rw [hd.2] at h2
  have key : ∀ i, pos ≤ i → Occ a.den other.den i → Occ (a.den.drop pos) other.den (i - pos) := by
    intro i hi ho
    unfold Occ at ho ⊢
    rw [List.drop_drop, show pos + (i - pos) = i by omega]; exact ho
  rcases h2 with ⟨hr, h3, h4⟩ | ⟨hr, h3⟩
  · rw [if_neg hr]
    have hb : r < (a.den.drop pos).length :=
      (List.getElem?_eq_some_iff.1 (h3.first (List.getElem?_eq_getElem (List.length_pos_iff.2 hne)))).1
    rw [List.length_drop] at hb
    rw [wadd_eq (by omega)]
    refine Or.inl ⟨by unfold null; omega, ⟨by omega, ?_⟩, ?_⟩
    · unfold Occ at h3 ⊢
      rwa [List.drop_drop, Nat.add_comm] at h3
    · intro j hj ⟨hpj, ho⟩
      exact h4 (j - pos) (by omega) (key j hpj ho)
  · rw [if_pos hr]
    exact Or.inr ⟨hr, fun j ⟨hpj, ho⟩ => h3 (j - pos) (key j hpj ho)⟩

/-- C83 is violated: `find(array)` in a sum tries the first candidate only. -/
theorem c83_seq_violated : ∃ (a other : Arr) (i : Nat), a.Valid ∧ a.Fine0 ∧ a.EmptyOk ∧ other.Valid ∧ other.den ≠ [] ∧
    Occ a.den other.den i ∧ a.findSeq other = .ok null :=
  ⟨.sum (.flat [1, 2]) (.flat [1, 3]), .flat [1, 3], 2, by simp [Arr.Valid, Arr.den], ⟨trivial, trivial⟩, ⟨trivial, trivial⟩,
    by simp [Arr.Valid], by decide, by unfold Occ; decide, rfl⟩

/-! ## C84: `findLast` -/

theorem first_reverse {l : List Nat} (hl : l.length < 2 ^ 64) {v r : Nat}
    (h : First (fun i => l.reverse[i]? = some v) r) :
    Last (fun i => l[i]? = some v) (if r = null then null else wsub (wsub l.length r) 1) := by
  rcases h with ⟨hr, h1, h2⟩ | ⟨hr, h1⟩
  · rw [if_neg hr]
    have hb : r < l.length := by simpa using (List.getElem?_eq_some_iff.1 h1).1
    rw [wsub_eq (a := l.length) (by omega) hl, wsub_eq (by omega) (by omega)]
    refine Or.inl ⟨by unfold null; omega, ?_, ?_⟩
    · show l[l.length - r - 1]? = some v
      rw [List.getElem?_reverse hb] at h1
      rw [← h1]; congr 1; omega
    · intro j hj e
      have hjb := (List.getElem?_eq_some_iff.1 e).1
      refine h2 (l.length - 1 - j) (by omega) ?_
      show l.reverse[l.length - 1 - j]? = some v
      rw [List.getElem?_reverse (by omega), ← e]; congr 1; omega
  · rw [if_pos hr]
    refine Or.inr ⟨rfl, ?_⟩
    intro j e
    have hjb := (List.getElem?_eq_some_iff.1 e).1
    refine h1 (l.length - 1 - j) ?_
    show l.reverse[l.length - 1 - j]? = some v
    rw [List.getElem?_reverse (by omega), ← e]; congr 1; omega

/-- C84 in part: `findLast(item)` is the last place of the item in arrays other than sections of expressions. -/
theorem c84_partial {a : Arr} (h : a.Valid) (he : a.EmptyOk) (v : Nat) :
    ∃ r, a.findLast v = .ok r ∧ Last (fun i => a.den[i]? = some v) r := by
  unfold Arr.findLast
  split
  · next e =>
    rw [(c81_empty_partial h he).1 e]
    exact ⟨null, rfl, Or.inr ⟨rfl, by intro j; simp⟩⟩
  · have hd := offset_den h 0
    have hl := c81_length h
    have hv : (Arr.rev (a.offset 0)).Valid := hd.1
    have e : (Arr.rev (a.offset 0)).den = a.den.reverse := by simp [Arr.den, hd.2]
    have el : (a.offset 0).length = (Arr.rev (a.offset 0)).length := rfl
    rw [el, c82_all_partial _ hv (show Arr.Fine0 (.rev _) from trivial), e]
    obtain ⟨r, h1, h2⟩ := found_first (l := a.den.reverse) (by rw [List.length_reverse]; exact hl.2) v
    rw [h1]
    refine ⟨_, rfl, ?_⟩
    rw [hl.1]
    exact first_reverse hl.2 h2

/-- C84 is violated: `findLast(item)` does not find an item of a section of a sum. -/
theorem c84_violated : ∃ (a : Arr) (v : Nat), a.Valid ∧ v ∈ a.den ∧ a.findLast v = .ok null :=
  ⟨.mid (.sum (.flat [1, 2]) (.flat [3, 4])) 0 3, 2, by simp [Arr.Valid, Arr.den], by decide, rfl⟩

/-- In a reversed array `find(item,pos)` never finds anything. -/
theorem findFrom_rev {a : Arr} (h : a.Valid) (o pos : Nat) : (Arr.rev a).findFrom o pos = .ok null := by
  have hl := c81_length h
  have hd := offset_den (a := .rev a) h pos
  have hll := c81_length hd.1
  unfold Arr.findFrom Arr.find
  by_cases hc : 0 < ((Arr.rev a).offset pos).length
  · have e : ((Arr.rev a).offset pos).empty = true := by
      simp only [Arr.offset, Arr.empty, Arr.isFlat, Bool.false_eq_true, if_false, decide_eq_true_eq]
      exact hc
    rw [if_pos e]
    simp [shift]
  · have e : ((Arr.rev a).offset pos).empty = false := by
      simp only [Arr.offset, Arr.empty, Arr.isFlat, Bool.false_eq_true, if_false, decide_eq_false_iff_not]
      exact hc
    have hz : ((Arr.rev a).offset pos).length = 0 := by omega
    have hf : ((Arr.rev a).offset pos).Fine0 := Or.inl trivial
    have hn : ((Arr.rev a).offset pos).den = [] := List.length_eq_zero_iff.1 (by omega)
    rw [e, c82_all_partial _ hd.1 hf, hn]
    simp [runList, found, shift]

theorem occ_reverse {l o : List Nat} {i : Nat} (hi : i + o.length ≤ l.length) :
    Occ l.reverse o.reverse i ↔ Occ l o (l.length - i - o.length) := by
  unfold Occ
  rw [List.length_reverse]
  have e : (l.reverse.drop i).take o.length = ((l.drop (l.length - i - o.length)).take o.length).reverse := by
    rw [List.drop_reverse, List.take_reverse, List.length_take]
    congr 1
    rw [Nat.min_eq_left (by omega), List.drop_take]
    congr 1
    omega
  rw [e, List.reverse_inj]

/-- What `findLast(array)` does: it looks at the last place of the last item of the sequence only, the
result is the index of the last item of the sequence. -/
theorem findLastSeq_eq {a other : Arr} (h : a.Valid) (hs : a.den.length < 2 ^ 63) (ho : other.Valid) (hne : other.den ≠ []) :
    ∃ r, a.findLastSeq other = .ok r ∧
      ((r ≠ null ∧ other.den.length ≤ r + 1 ∧ Occ a.den other.den (r + 1 - other.den.length) ∧
          ∀ j, r + 1 - other.den.length < j → ¬ Occ a.den other.den j) ∨
        (r = null ∧ ∀ j, Occ a.den other.den j →
          ∃ k, j + other.den.length ≤ k ∧ a.den[k]? = other.den[other.den.length - 1]?)) := by
  have hp := List.length_pos_iff.2 hne
  have hla := c81_length h
  have hlo := c81_length ho
  have hda := offset_den h 0
  have hdo := offset_den ho 0
  rw [List.drop_zero] at hda hdo
  have hva : (Arr.rev (a.offset 0)).Valid := hda.1
  have hvo : (Arr.rev (other.offset 0)).Valid := hdo.1
  have ea : (Arr.rev (a.offset 0)).den = a.den.reverse := by simp [Arr.den, hda.2]
  have eo : (Arr.rev (other.offset 0)).den = other.den.reverse := by simp [Arr.den, hdo.2]
  have lva := (c81_length hva).1
  have lvo := (c81_length hvo).1
  rw [ea, List.length_reverse] at lva
  rw [eo, List.length_reverse] at lvo
  have hocc : ∀ j, Occ a.den other.den j → j + other.den.length ≤ a.den.length := by
    intro j hj
    have := congrArg List.length hj
    simp at this
    omega
  unfold Arr.findLastSeq Arr.findSeq
  rw [lva, lvo]
  split
  · next hc =>
    refine ⟨null, rfl, Or.inr ⟨rfl, ?_⟩⟩
    intro j hj
    have := hocc j hj
    omega
  · next hc =>
    have hpr : 0 < (Arr.rev (other.offset 0)).den.length := by rw [eo, List.length_reverse]; exact hp
    rw [at_lt hvo hpr]
    have hlast : (Arr.rev (other.offset 0)).den[0] = other.den[other.den.length - 1] := by
      simp only [eo]
      rw [List.getElem_reverse]; simp
    rw [hlast]
    have hl' : other.den[other.den.length - 1]? = some other.den[other.den.length - 1] :=
      List.getElem?_eq_getElem (by omega)
    rw [hl']
    obtain ⟨p, h1, h2⟩ := c83_partial hva (show Arr.Fine0 (.rev _) from trivial) (show Arr.EmptyOk (.rev _) from trivial)
      other.den[other.den.length - 1]
    simp only [h1]
    rw [ea] at h2
    unfold findSeqLoop
    rw [lvo]
    rcases h2 with ⟨hpn, hp1, hp2⟩ | ⟨hpn, hp1⟩
    · rw [if_neg hpn]
      have hpb : p < a.den.length := by simpa using (List.getElem?_eq_some_iff.1 hp1).1
      have hp1' := hp1
      rw [List.getElem?_reverse hpb] at hp1'
      have hm := mid_den hva p other.den.length (by omega)
      obtain ⟨c, h3, h4⟩ := c87 hm.1 hvo
      rw [h3]
      have hc' := (c87_iff hm.1 hvo).1
      rw [h3, hm.2, ea, eo] at hc'
      have hreach : ∀ j, Occ a.den other.den j → j + other.den.length + p ≤ a.den.length := by
        intro j hj
        have hjl := hocc j hj
        false_or_by_contra
        rename_i hgt
        have hr : Occ a.den.reverse other.den.reverse (a.den.length - j - other.den.length) := by
          rw [occ_reverse (by omega)]
          rw [show a.den.length - (a.den.length - j - other.den.length) - other.den.length = j by omega]
          exact hj
        refine hp2 (a.den.length - j - other.den.length) (by omega) ?_
        refine hr.first ?_
        rw [List.getElem?_reverse hp, ← hl']
        rfl
      by_cases hce : c = .equal
      · subst hce
        have hoc : Occ a.den.reverse other.den.reverse p := by
          unfold Occ; rw [List.length_reverse]; exact hc'.1 rfl
        have hpl : p + other.den.length ≤ a.den.length := by
          have := congrArg List.length hoc
          simp at this
          omega
        rw [occ_reverse hpl] at hoc
        refine ⟨a.den.length - p - 1, ?_, Or.inl ⟨by unfold null; omega, by omega, ?_, ?_⟩⟩
        · show Except.ok (if p = null then null else _) = _
          rw [if_neg hpn, hla.1, wsub_eq (a := a.den.length) (by omega) (by omega), wsub_eq (by omega) (by omega)]
        · rw [show a.den.length - p - 1 + 1 - other.den.length = a.den.length - p - other.den.length by omega]
          exact hoc
        · intro j hj hjo
          have := hreach j hjo
          omega
      · have hfin : ∀ x : Except Err Nat, x = .ok null → unrev a.length x = .ok null := by
          intro x hx; subst hx; simp [unrev]
        refine ⟨null, hfin _ ?_, Or.inr ⟨rfl, ?_⟩⟩
        · rw [findFrom_rev hda.1]
          have : findSeqLoop (Arr.rev (a.offset 0)) (Arr.rev (other.offset 0)) other.den[other.den.length - 1]
              (a.den.length) null = .ok null := by
            cases a.den.length with
            | zero => rfl
            | succ n => simp [findSeqLoop]
          cases c with
          | equal => exact absurd rfl hce
          | _ => exact this
        · intro j hj
          have hjr := hreach j hj
          refine ⟨a.den.length - 1 - p, ?_, hp1'⟩
          false_or_by_contra
          rename_i hlt
          have hjl := hocc j hj
          have : p = a.den.length - j - other.den.length := by omega
          subst this
          refine hce ?_
          have : Occ a.den.reverse other.den.reverse (a.den.length - j - other.den.length) := by
            rw [occ_reverse (by omega)]
            rw [show a.den.length - (a.den.length - j - other.den.length) - other.den.length = j by omega]
            exact hj
          unfold Occ at this
          rw [List.length_reverse] at this
          have := hc'.2 this
          cases this; rfl
    · rw [if_pos hpn]
      refine ⟨null, by simp [unrev], Or.inr ⟨rfl, ?_⟩⟩
      intro j hj
      have hjl := hocc j hj
      have hr : Occ a.den.reverse other.den.reverse (a.den.length - j - other.den.length) := by
        rw [occ_reverse (by omega)]
        rw [show a.den.length - (a.den.length - j - other.den.length) - other.den.length = j by omega]
        exact hj
      refine absurd (hr.first ?_) (hp1 (a.den.length - j - other.den.length))
      rw [List.getElem?_reverse hp, ← hl']
      rfl

/-- C84 in part: if the last place of the last item of the sequence is the end of the sequence, then
`findLast(array)` is the index of the last item of the last occurrence. In particular for sequences of one item. -/
theorem c84_seq_partial {a other : Arr} (h : a.Valid) (hs : a.den.length < 2 ^ 63) (ho : other.Valid) (hne : other.den ≠ [])
    {j : Nat} (hj : Occ a.den other.den j)
    (hlast : ∀ k, j + other.den.length ≤ k → a.den[k]? ≠ other.den[other.den.length - 1]?) :
    a.findLastSeq other = .ok (j + other.den.length - 1) := by
  have hp := List.length_pos_iff.2 hne
  obtain ⟨r, h1, h2⟩ := findLastSeq_eq h hs ho hne
  rcases h2 with ⟨hr, h3, h4, h5⟩ | ⟨hr, h3⟩
  · rw [h1]
    have e : r + 1 - other.den.length = j := by
      rcases Nat.lt_trichotomy (r + 1 - other.den.length) j with hlt | he | hgt
      · exact absurd hj (h5 j hlt)
      · exact he
      · exfalso
        have hl' : other.den[other.den.length - 1]? = some other.den[other.den.length - 1] :=
          List.getElem?_eq_getElem (by omega)
        refine hlast r (by omega) ?_
        have hx := congrArg (fun l => l[other.den.length - 1]?) h4
        rw [List.getElem?_take_of_lt (by omega), List.getElem?_drop] at hx
        rw [← hx]; congr 1; omega
    congr 1; omega
  · obtain ⟨k, hk, e⟩ := h3 j hj
    exact absurd e (hlast k hk)

/-- C84 is violated: the result for a sequence of two items is not its place. -/
theorem c84_seq_violated : ∃ (a other : Arr) (r : Nat), a.Valid ∧ a.isFlat = true ∧ other.Valid ∧ other.den ≠ [] ∧
    a.findLastSeq other = .ok r ∧ ¬ Last (Occ a.den other.den) r :=
  ⟨.flat [1, 2, 3, 4], .flat [2, 3], 2, by simp [Arr.Valid], rfl, by simp [Arr.Valid], by decide, rfl, by
    intro h
    rcases h with ⟨_, h, _⟩ | ⟨h, _⟩
    · revert h; unfold Occ; decide
    · exact absurd h (by decide)⟩

/-- C84 is violated: a sequence which is there is not found. -/
theorem c84_missed_violated : ∃ (a other : Arr) (i : Nat), a.Valid ∧ a.isFlat = true ∧ other.Valid ∧ other.den ≠ [] ∧
    Occ a.den other.den i ∧ a.findLastSeq other = .ok null :=
  ⟨.flat [1, 2, 3, 2], .flat [1, 2], 0, by simp [Arr.Valid], rfl, by simp [Arr.Valid], by decide, by unfold Occ; decide, rfl⟩

/-! ## C85: sections -/

/-- C85 in part: `mid`, when the sum of its arguments does not overflow. -/
theorem c85_mid_partial {a : Arr} (h : a.Valid) {pos count : Nat} (hw : pos + count < 2 ^ 64) :
    (a.midOf pos count).Valid ∧ (a.midOf pos count).den = (a.den.drop pos).take count := mid_den h pos count hw

/-- C85: `head`, `offset`, `tail`, `roffset` are the first items, all but the first items, the last
items, all but the last items. -/
theorem c85 {a : Arr} (h : a.Valid) (n : Nat) :
    ((a.head n).Valid ∧ (a.head n).den = a.den.take n) ∧ ((a.offset n).Valid ∧ (a.offset n).den = a.den.drop n) ∧
    ((a.tail n).Valid ∧ (a.tail n).den = a.den.drop (a.den.length - n)) ∧
    ((a.roffset n).Valid ∧ (a.roffset n).den = a.den.take (a.den.length - n)) := by
  have hl := c81_length h
  refine ⟨?_, offset_den h n, ?_, ?_⟩
  · unfold Arr.head; rw [hl.1]
    split
    · next hn =>
      refine ⟨⟨h, by omega⟩, ?_⟩
      simp only [Arr.den, List.drop_zero]
      rw [List.take_of_length_le (Nat.le_refl _), List.take_of_length_le (by omega)]
    · exact ⟨⟨h, by omega⟩, by simp [Arr.den]⟩
  · unfold Arr.tail; rw [hl.1]
    split
    · next hn =>
      refine ⟨⟨h, by omega⟩, ?_⟩
      simp only [Arr.den]
      rw [Nat.sub_self, List.drop_zero, List.take_of_length_le (Nat.le_refl _), show a.den.length - n = 0 by omega, List.drop_zero]
    · refine ⟨⟨h, by omega⟩, ?_⟩
      simp only [Arr.den]
      rw [List.take_of_length_le (by simp; omega)]
  · unfold Arr.roffset; rw [hl.1]
    split
    · next hn =>
      refine ⟨⟨h, by omega⟩, ?_⟩
      simp only [Arr.den, List.drop_zero]
      rw [Nat.sub_self, show a.den.length - n = 0 by omega]
    · exact ⟨⟨h, by omega⟩, by simp [Arr.den]⟩

/-- C85 in part: `crop`, when the sum of its arguments does not overflow. -/
theorem c85_crop_partial {a : Arr} (h : a.Valid) {left right : Nat} (hw : left + right < 2 ^ 64) :
    (a.crop left right).Valid ∧ (a.crop left right).den = (a.den.drop left).take (a.den.length - left - right) := by
  have hl := c81_length h
  unfold Arr.crop
  rw [hl.1, wadd_eq hw]
  split
  · next hn =>
    refine ⟨⟨h, by omega⟩, ?_⟩
    simp only [Arr.den]
    rw [show a.den.length - left - right = 0 by omega]; simp
  · next hn =>
    rw [wsub_eq (a := a.den.length) (by omega) hl.2, wsub_eq (by omega) (by omega)]
    refine ⟨⟨h, by omega⟩, ?_⟩
    simp only [Arr.den]
    congr 1; omega

/-- C85 is violated: `mid(1, naturalNull)`, the usual "to the end", has the length `naturalNull` and
its items are read outside of the array. -/
theorem c85_mid_violated : ∃ (a : Arr) (pos i : Nat), a.Valid ∧ a.isFlat = true ∧ pos < a.length ∧
    i < (a.midOf pos null).length ∧ (a.midOf pos null).at i = .error .ub :=
  ⟨.flat [1, 2, 3], 1, 2, by simp [Arr.Valid], rfl, by decide, by decide, rfl⟩

/-- C85 is violated: `crop` with a sum of arguments which overflows. -/
theorem c85_crop_violated : ∃ (a : Arr) (left right i : Nat), a.Valid ∧ a.isFlat = true ∧ right < 2 ^ 64 ∧
    i < (a.crop left right).length ∧ (a.crop left right).at i = .error .ub :=
  ⟨.flat [1, 2, 3], 2, null, 1, by simp [Arr.Valid], rfl, by decide, by decide, rfl⟩

/-! ### `trim` -/

theorem trimL_right {a : Arr} (h : a.Valid) {m : Nat → Except Err Bool} {q : Nat → Bool} (hm : ∀ x, m x = .ok (q x)) :
    ∀ (fuel beg : Nat), beg ≤ a.den.length → a.den.length ≤ beg + fuel →
      ∃ r, trimL a m fuel beg a.den.length = .ok r ∧ beg ≤ r ∧ r ≤ a.den.length ∧
        (∀ i v, beg ≤ i → i < r → a.den[i]? = some v → q v = true) ∧ (∀ v, a.den[r]? = some v → q v = false) := by
  intro fuel
  induction fuel with
  | zero =>
    intro beg h1 h2
    refine ⟨beg, rfl, Nat.le_refl _, h1, by intro i v _ _; omega, ?_⟩
    intro v hv
    have := (List.getElem?_eq_some_iff.1 hv).1
    omega
  | succ fuel ih =>
    intro beg h1 h2
    unfold trimL
    by_cases hb : beg < a.den.length
    · rw [if_pos hb, at_lt h hb]
      simp only [hm]
      cases hq : q a.den[beg] with
      | true =>
        obtain ⟨r, e, h3, h4, h5, h6⟩ := ih (beg + 1) (by omega) (by omega)
        refine ⟨r, e, by omega, h4, ?_, h6⟩
        intro i v hi hr hv
        by_cases hib : i = beg
        · subst hib
          rw [List.getElem?_eq_getElem hb] at hv
          cases hv; exact hq
        · exact h5 i v (by omega) hr hv
      | false =>
        refine ⟨beg, rfl, Nat.le_refl _, h1, by intro i v _ _; omega, ?_⟩
        intro v hv
        rw [List.getElem?_eq_getElem hb] at hv
        cases hv; exact hq
    · rw [if_neg hb]
      refine ⟨beg, rfl, Nat.le_refl _, h1, by intro i v _ _; omega, ?_⟩
      intro v hv
      have := (List.getElem?_eq_some_iff.1 hv).1
      omega

theorem trimR_right {a : Arr} (h : a.Valid) {m : Nat → Except Err Bool} {q : Nat → Bool} (hm : ∀ x, m x = .ok (q x)) :
    ∀ (fuel beg stop : Nat), beg ≤ stop → stop ≤ a.den.length → stop ≤ beg + fuel →
      ∃ r, trimR a m fuel beg stop = .ok r ∧ beg ≤ r ∧ r ≤ stop ∧
        (∀ i v, r ≤ i → i < stop → a.den[i]? = some v → q v = true) ∧
        (beg < r → ∀ v, a.den[r - 1]? = some v → q v = false) := by
  intro fuel
  induction fuel with
  | zero =>
    intro beg stop h1 h2 h3
    exact ⟨stop, rfl, h1, Nat.le_refl _, by intro i v _ _; omega, by intro h; omega⟩
  | succ fuel ih =>
    intro beg stop h1 h2 h3
    unfold trimR
    by_cases hb : beg < stop
    · have hlt : stop - 1 < a.den.length := by omega
      rw [if_pos hb, at_lt h hlt]
      simp only [hm]
      cases hq : q a.den[stop - 1] with
      | true =>
        obtain ⟨r, e, h3, h4, h5, h6⟩ := ih beg (stop - 1) (by omega) (by omega) (by omega)
        refine ⟨r, e, h3, by omega, ?_, h6⟩
        intro i v hi hr hv
        by_cases hib : i = stop - 1
        · subst hib
          rw [List.getElem?_eq_getElem hlt] at hv
          cases hv; exact hq
        · exact h5 i v hi (by omega) hv
      | false =>
        refine ⟨stop, rfl, h1, Nat.le_refl _, by intro i v _ _; omega, ?_⟩
        intro _ v hv
        rw [List.getElem?_eq_getElem hlt] at hv
        cases hv; exact hq
    · rw [if_neg hb]
      exact ⟨stop, rfl, h1, Nat.le_refl _, by intro i v _ _; omega, by intro h; omega⟩

/-- What `trim` should give: the rest `r` of `l` without items with `q` on the chosen sides. -/
def Trimmed (q : Nat → Bool) (left right : Bool) (l r : List Nat) : Prop :=
  ∃ x y, l = x ++ (r ++ y) ∧ (∀ v ∈ x, q v = true) ∧ (∀ v ∈ y, q v = true) ∧
    (left = true → ∀ v, r[0]? = some v → q v = false) ∧ (right = true → ∀ v, r[r.length - 1]? = some v → q v = false) ∧
    (left = false → x = []) ∧ (right = false → y = [])

/-- C85: `trim(item)` and `trim(array)`. -/
theorem c85_trim {a : Arr} (h : a.Valid) {m : Nat → Except Err Bool} {q : Nat → Bool} (hm : ∀ x, m x = .ok (q x))
    (left right : Bool) : ∃ r, a.trimBy m left right = .ok r ∧ r.Valid ∧ Trimmed q left right a.den r.den := by
  have hl := c81_length h
  have hL : ∃ b, (if left then trimL a m a.length 0 a.length else .ok 0) = .ok b ∧ b ≤ a.den.length ∧
      (∀ i v, i < b → a.den[i]? = some v → q v = true) ∧ (left = true → ∀ v, a.den[b]? = some v → q v = false) ∧
      (left = false → b = 0) := by
    cases left with
    | true =>
      obtain ⟨r, e, _, h4, h5, h6⟩ := trimL_right h hm a.den.length 0 (by omega) (by omega)
      refine ⟨r, by rw [hl.1, if_pos rfl]; exact e, h4, fun i v hi hv => h5 i v (by omega) hi hv, fun _ => h6, by intro h; cases h⟩
    | false => exact ⟨0, rfl, by omega, by intro i v hi; omega, (by intro h; cases h), fun _ => rfl⟩
  obtain ⟨b, eb, hb1, hb2, hb3, hb4⟩ := hL
  have hR : ∃ s, (if right then trimR a m a.length b a.length else .ok a.length) = .ok s ∧ b ≤ s ∧ s ≤ a.den.length ∧
      (∀ i v, s ≤ i → a.den[i]? = some v → q v = true) ∧
      (right = true → b < s → ∀ v, a.den[s - 1]? = some v → q v = false) ∧ (right = false → s = a.den.length) := by
    cases right with
    | true =>
      obtain ⟨r, e, h3, h4, h5, h6⟩ := trimR_right h hm a.den.length b a.den.length hb1 (Nat.le_refl _) (by omega)
      refine ⟨r, by rw [hl.1, if_pos rfl]; exact e, h3, h4, ?_, fun _ => h6, by intro h; cases h⟩
      intro i v hi hv
      exact h5 i v hi (List.getElem?_eq_some_iff.1 hv).1 hv
    | false =>
      refine ⟨a.den.length, by rw [hl.1]; rfl, hb1, Nat.le_refl _, ?_, (by intro h; cases h), fun _ => rfl⟩
      intro i v hi hv
      have := (List.getElem?_eq_some_iff.1 hv).1
      omega
  obtain ⟨s, es, hs1, hs2, hs3, hs4, hs5⟩ := hR
  have hd := mid_den h b (s - b) (by omega)
  refine ⟨a.midOf b (s - b), ?_, hd.1, a.den.take b, a.den.drop s, ?_, ?_, ?_, ?_, ?_, ?_, ?_⟩
  · unfold Arr.trimBy
    rw [eb]
    simp only [es]
  · rw [hd.2]
    have e : (a.den.drop b).drop (s - b) = a.den.drop s := by rw [List.drop_drop]; congr 1; omega
    rw [← e, List.take_append_drop, List.take_append_drop]
  · intro v hv
    obtain ⟨i, hi, e⟩ := List.mem_iff_getElem.1 hv
    rw [List.length_take] at hi
    refine hb2 i v (by omega) ?_
    rw [← e, List.getElem_take, List.getElem?_eq_getElem]
  · intro v hv
    obtain ⟨i, hi, e⟩ := List.mem_iff_getElem.1 hv
    rw [List.length_drop] at hi
    refine hs3 (s + i) v (by omega) ?_
    rw [← e, List.getElem_drop, List.getElem?_eq_getElem]
  · intro hleft v hv
    rw [hd.2] at hv
    have := (List.getElem?_eq_some_iff.1 hv).1
    rw [List.length_take] at this
    rw [List.getElem?_take_of_lt (by omega), List.getElem?_drop] at hv
    exact hb3 hleft v hv
  · intro hright v hv
    have hlen : (a.midOf b (s - b)).den.length = s - b := by
      rw [hd.2, List.length_take, List.length_drop]; omega
    have hlt := (List.getElem?_eq_some_iff.1 hv).1
    rw [hlen] at hv hlt
    rw [hd.2, List.getElem?_take_of_lt (by omega), List.getElem?_drop] at hv
    refine hs4 hright (by omega) v ?_
    rw [← hv]; congr 1; omega
  · intro hleft
    rw [hb4 hleft, List.take_zero]
  · intro hright
    rw [hs5 hright, List.drop_length]

/-- C85: `trim(array)`, the items to be trimmed must be an array which `find` is right for. -/
theorem c85_trimArray {a items : Arr} (h : a.Valid) (hi : items.Valid) (hf : items.Fine0) (he : items.EmptyOk)
    (left right : Bool) :
    ∃ r, a.trim items left right = .ok r ∧ r.Valid ∧ Trimmed (fun x => decide (x ∈ items.den)) left right a.den r.den := by
  unfold Arr.trim
  apply c85_trim h
  intro x
  obtain ⟨r, h1, h2⟩ := c83_partial hi hf he x
  rw [h1]
  simp only
  congr 1
  rcases h2 with ⟨h3, h4, _⟩ | ⟨h3, h4⟩
  · have : x ∈ items.den := List.mem_of_getElem? h4
    simp [h3, this]
  · have : x ∉ items.den := by
      intro hx
      obtain ⟨i, hi⟩ := List.getElem?_of_mem hx
      exact h4 i hi
    simp [h3, this]

/-! ## C86: `split` -/

/-- Parts joined by the separator. -/
def join (sep : Nat) : List (List Nat) → List Nat
  | [] => []
  | [p] => p
  | p :: ps => p ++ sep :: join sep ps

theorem join_cons {sep : Nat} {p : List Nat} {ps : List (List Nat)} (h : ps ≠ []) : join sep (p :: ps) = p ++ sep :: join sep ps := by
  cases ps with
  | nil => exact absurd rfl h
  | cons => rfl

theorem splitFrom_right {a : Arr} (h : a.Valid) (hfl : a.isFlat = true) (sep : Nat) :
    ∀ (fuel pos : Nat), pos ≤ a.den.length → a.den.length < pos + fuel →
      ∃ ps, splitFrom a sep fuel pos = .ok ps ∧ ps ≠ [] ∧ join sep (ps.map Arr.den) = a.den.drop pos ∧
        ∀ p ∈ ps, sep ∉ p.den := by
  have hl := c81_length h
  intro fuel
  induction fuel with
  | zero => intro pos h1 h2; omega
  | succ fuel ih =>
    intro pos h1 h2
    have ho := offset_den h pos
    have hff := flat_valid_fine (a := a.offset pos) hfl
    obtain ⟨r, h3, h4⟩ := c83_partial ho.1 (Fine.fine0 hff.1) hff.2 sep
    rw [ho.2] at h4
    unfold splitFrom
    rw [hl.1, if_pos h1]
    unfold splitPeek
    rw [hl.1, if_pos h1, h3]
    simp only
    rcases h4 with ⟨hr, h5, h6⟩ | ⟨hr, h5⟩
    · rw [if_neg hr]
      have hlt := (List.getElem?_eq_some_iff.1 h5).1
      rw [List.length_drop] at hlt
      obtain ⟨ps, e1, e2, e3, e4⟩ := ih (pos + r + 1) (by omega) (by omega)
      simp only [Arr.length, e1]
      refine ⟨_, rfl, by simp, ?_, ?_⟩
      · rw [List.map_cons, join_cons (by simpa using e2), e3]
        simp only [Arr.den]
        have hd : (a.den.drop pos).drop r = sep :: a.den.drop (pos + r + 1) := by
          rw [List.drop_drop, List.drop_eq_getElem_cons (by omega)]
          congr 1
          rw [List.getElem?_drop, List.getElem?_eq_getElem (by omega)] at h5
          cases h5; rfl
        rw [← hd, List.take_append_drop]
      · intro p hp
        rcases List.mem_cons.1 hp with rfl | hp
        · simp only [Arr.den]
          intro hm
          obtain ⟨i, hi, e⟩ := List.mem_iff_getElem.1 hm
          rw [List.length_take] at hi
          refine h6 i (by omega) ?_
          show (a.den.drop pos)[i]? = some sep
          rw [← e, List.getElem_take, List.getElem?_eq_getElem]
        · exact e4 p hp
    · rw [if_pos hr]
      have e1 : splitFrom a sep fuel (pos + (a.den.length - pos) + 1) = .ok [] := by
        cases fuel with
        | zero => rfl
        | succ fuel => rw [splitFrom, hl.1, if_neg (by omega)]
      simp only [Arr.length, e1]
      refine ⟨_, rfl, by simp, ?_, ?_⟩
      · simp only [List.map_cons, List.map_nil, join, Arr.den]
        rw [List.take_of_length_le (by simp)]
      · intro p hp
        rcases List.mem_cons.1 hp with rfl | hp
        · simp only [Arr.den]
          intro hm
          obtain ⟨i, hi⟩ := List.getElem?_of_mem (List.mem_of_mem_take hm)
          exact h5 i hi
        · cases hp

/-- C86 in part: in a flat array `split` gives parts without the separator, which joined by the
separator are the array again. -/
theorem c86_partial {a : Arr} (h : a.Valid) (hfl : a.isFlat = true) (sep : Nat) :
    ∃ ps, a.split sep = .ok ps ∧ ps ≠ [] ∧ join sep (ps.map Arr.den) = a.den ∧ ∀ p ∈ ps, sep ∉ p.den := by
  have := splitFrom_right h hfl sep (a.length + 1) 0 (by omega) (by rw [(c81_length h).1]; omega)
  unfold Arr.split
  simpa using this

/-- C86: there is one such list of parts only. -/
theorem c86_unique {sep : Nat} : ∀ {ps qs : List (List Nat)}, ps ≠ [] → qs ≠ [] → join sep ps = join sep qs →
    (∀ p ∈ ps, sep ∉ p) → (∀ p ∈ qs, sep ∉ p) → ps = qs := by
  have key : ∀ (p q x y : List Nat), sep ∉ p → sep ∉ q → p ++ sep :: x = q ++ sep :: y → p = q ∧ x = y := by
    intro p
    induction p with
    | nil =>
      intro q x y _ hq e
      cases q with
      | nil => simp at e; exact ⟨rfl, e⟩
      | cons a q => simp at e; exact absurd (by rw [e.1]; exact List.mem_cons_self) hq
    | cons b p ih =>
      intro q x y hp hq e
      cases q with
      | nil => simp at e; exact absurd (by rw [e.1]; exact List.mem_cons_self) hp
      | cons a q =>
        simp only [List.cons_append, List.cons.injEq] at e
        have := ih q x y (fun h => hp (List.mem_cons_of_mem _ h)) (fun h => hq (List.mem_cons_of_mem _ h)) e.2
        exact ⟨by rw [e.1, this.1], this.2⟩
  intro ps
  induction ps with
  | nil => intro qs h; exact absurd rfl h
  | cons p ps ih =>
    intro qs _ hq e hps hqs
    cases qs with
    | nil => exact absurd rfl hq
    | cons q qs =>
      have hp0 := hps p List.mem_cons_self
      have hq0 := hqs q List.mem_cons_self
      cases ps with
      | nil =>
        cases qs with
        | nil => simp only [join] at e; rw [e]
        | cons q' qs =>
          have e' : p = q ++ sep :: join sep (q' :: qs) := e
          exact absurd (by rw [e']; simp) hp0
      | cons p' ps =>
        cases qs with
        | nil =>
          have e' : p ++ sep :: join sep (p' :: ps) = q := e
          exact absurd (by rw [← e']; simp) hq0
        | cons q' qs =>
          have e' : p ++ sep :: join sep (p' :: ps) = q ++ sep :: join sep (q' :: qs) := e
          obtain ⟨e1, e2⟩ := key _ _ _ _ hp0 hq0 e'
          rw [e1, ih (by simp) (by simp) e2 (fun p h => hps p (List.mem_cons_of_mem _ h))
            (fun p h => hqs p (List.mem_cons_of_mem _ h))]

/-- C86 is violated: a sum is not split. -/
theorem c86_violated : ∃ (a : Arr) (sep : Nat) (p : Arr), a.Valid ∧ a.split sep = .ok [p] ∧ sep ∈ p.den :=
  ⟨.sum (.flat [1, 0]) (.flat [2]), 0, .mid (.sum (.flat [1, 0]) (.flat [2])) 0 3, by simp [Arr.Valid, Arr.den], rfl, by decide⟩

/-! ## C88: `render` -/

theorem runList_render (space : Nat) (l w : List Nat) (c : Nat) (hw : w.length ≤ space) :
    (runList (renderFn space) (w, c) l).1 = (w ++ l.take (space - w.length), c + min l.length (space - w.length)) := by
  induction l generalizing w c with
  | nil => simp [runList]
  | cons x l ih =>
    unfold runList renderFn
    by_cases hs : w.length ≥ space
    · simp only [if_pos hs]
      rw [show space - w.length = 0 by omega]; simp
    · simp only [if_neg hs]
      have := ih (w ++ [x]) (c + 1) (by simp; omega)
      unfold renderFn at this
      rw [this]
      have e : space - w.length = (space - (w ++ [x]).length) + 1 := by simp; omega
      rw [e, List.take_succ_cons]
      simp
      omega

/-- C88 in part: `render(iterator)` writes the items of the array as long as there is space for them,
the result is the number of the items written. -/
theorem c88_partial {a : Arr} (h : a.Valid) (hf : a.Fine0) (space : Nat) :
    a.render space = .ok (a.den.take space, min a.den.length space) := by
  unfold Arr.render
  rw [c82_all_partial _ h hf]
  have := runList_render space a.den [] 0 (by simp)
  generalize runList (renderFn space) ([], 0) a.den = r at this
  obtain ⟨s, b⟩ := r
  simp only at this
  simp [this]

/-- C88 is violated: `render(array)` writes one item, to the second place, and says that it wrote one item. -/
theorem c88_violated : Arr.renderArr (.flat [1, 2, 3]) [0, 0, 0, 0] = .ok ([0, 1, 0, 0], 1) := rfl

/-! ## C83: `findOneOf` -/

theorem runList_map {σ τ : Type} (φ : σ → τ) {f : Fn τ} {g : Fn σ} (h : ∀ s x, f (φ s) x = (φ (g s x).1, (g s x).2))
    (l : List Nat) (s : σ) : runList f (φ s) l = (φ (runList g s l).1, (runList g s l).2) := by
  induction l generalizing s with
  | nil => rfl
  | cons x l ih =>
    simp only [runList, h]
    generalize g s x = r
    obtain ⟨s', b⟩ := r
    cases b with
    | true => rfl
    | false => exact ih s'

/-- C83 in part: `findOneOf` is the first place of one of the items. -/
theorem c83_oneOf_partial {a items : Arr} (h : a.Valid) (hf : a.Fine0) (he : a.EmptyOk)
    (hi : items.Valid) (hif : items.Fine0) (hie : items.EmptyOk) :
    ∃ r, a.findOneOf items = .ok r ∧ First (fun i => ∃ v, a.den[i]? = some v ∧ v ∈ items.den) r := by
  unfold Arr.findOneOf
  split
  · next e =>
    rw [(c81_empty_partial h he).1 e]
    exact ⟨null, rfl, Or.inr ⟨rfl, by intro j; simp⟩⟩
  · rw [c82_all_partial _ h hf]
    have hmem : ∀ x, ∃ r, items.find x = .ok r ∧ (r ≠ null ↔ x ∈ items.den) := by
      intro x
      obtain ⟨r, h1, h2⟩ := c83_partial hi hif hie x
      refine ⟨r, h1, ?_⟩
      rcases h2 with ⟨h3, h4, _⟩ | ⟨h3, h4⟩
      · exact ⟨fun _ => List.mem_of_getElem? h4, fun _ => h3⟩
      · refine ⟨fun h => absurd h3 h, fun hx => ?_⟩
        obtain ⟨i, hi⟩ := List.getElem?_of_mem hx
        exact absurd hi (h4 i)
    let g : Fn Nat := fun s x => if x ∈ items.den then (s, true) else (s + 1, false)
    have hg : ∀ s x, oneOfFn items (.ok s) x = (.ok (g s x).1, (g s x).2) := by
      intro s x
      obtain ⟨r, h1, h2⟩ := hmem x
      simp only [oneOfFn, h1]
      by_cases hx : x ∈ items.den
      · rw [if_pos (h2.2 hx)]; simp [g, hx]
      · rw [if_neg (fun h => hx (h2.1 h))]; simp [g, hx]
    have hgs : ∀ s x, (x ∈ items.den ∧ g s x = (s, true)) ∨ (¬ (x ∈ items.den) ∧ g s x = (s + 1, false)) := by
      intro s x
      by_cases hx : x ∈ items.den
      · left; simp [g, hx]
      · right; simp [g, hx]
    rw [runList_map (Except.ok (ε := Err)) hg a.den 0]
    have hlen := (c81_length h).2
    rcases runList_find hgs a.den 0 with ⟨i, x, h1, h2, h3, h4⟩ | ⟨h1, h2⟩
    · have := (List.getElem?_eq_some_iff.1 h2).1
      rw [h1]
      refine ⟨i, by simp, Or.inl ⟨by unfold null; omega, ⟨x, h2, h3⟩, ?_⟩⟩
      intro j hj ⟨v, e, hv⟩
      exact h4 j v hj e hv
    · rw [h1]
      exact ⟨null, rfl, Or.inr ⟨rfl, fun j ⟨v, e, hv⟩ => h2 v (List.mem_of_getElem? e) hv⟩⟩

/-! ## Examples -/

/-- An expression with all operations: `([1,2] + [3]) * 2`, reversed. -/
def exA : Arr := .rev (.rep (.sum (.flat [1, 2]) (.flat [3])) 2)

example : exA.Valid ∧ exA.den = [3, 2, 1, 3, 2, 1] ∧ exA.length = 6 ∧ exA.at 1 = .ok 2 :=
  ⟨by simp [exA, Arr.Valid, Arr.den], rfl, rfl, rfl⟩
example : Arr.forEach collect (.rep (.flat [1, 2, 3]) 3) 2 5 [] = .ok ([3, 1, 2, 3, 1], false) := rfl
example : Arr.forEach collect (.sum (.flat [1, 2]) (.rev (.flat [3, 4]))) 0 4 [] = .ok ([1, 2, 4, 3], false) := rfl
example : Arr.find (.flat [5, 7, 7]) 7 = .ok 1 := rfl
example : Arr.findSeq (.flat [1, 1, 2, 1, 2]) (.flat [1, 2]) = .ok 1 := rfl
example : Arr.findSeqFrom (.flat [1, 1, 2, 1, 2]) (.flat [1, 2]) 2 = .ok 3 := rfl
example : Arr.findLast (.flat [5, 7, 7]) 7 = .ok 2 := rfl
example : Arr.findLastSeq (.flat [1, 2, 3]) (.flat [2]) = .ok 1 := rfl
example : (Arr.trimBy (.flat [0, 0, 5, 0, 6, 0]) (fun x => .ok (x == 0)) true true).map Arr.den = .ok [5, 0, 6] := rfl
example : (Arr.split (.flat [1, 0, 2, 3, 0]) 0).map (·.map Arr.den) = .ok [[1], [2, 3], []] := rfl
example : compare (.flat [1, 2]) (.flat [1, 2, 0]) = .ok .less ∧ compare (.flat [1, 3]) (.flat [1, 2, 0]) = .ok .greater := ⟨rfl, rfl⟩
example : Arr.render (.sum (.flat [1, 2]) (.flat [3])) 2 = .ok ([1, 2], 2) := rfl
example : Arr.findOneOf (.flat [5, 6, 7]) (.flat [7, 6]) = .ok 1 := rfl

end LS.ArrayT

import Verif.ArrayT
/-!
# Properties of array expressions: C81–C87

Specification: an expression denotes a list.
-/

namespace LS.ArrayT

/-! ## Specification -/

/-- The sequence which an expression stands for. -/
def Arr.den : Arr → List Nat
  | .flat l => l
  | .mid a start len => (a.den.drop start).take len
  | .rev a => a.den.reverse
  | .sum a b => a.den ++ b.den
  | .rep a n => (List.replicate n a.den).flatten

/-- Sections lie inside and lengths are values of the type `natural`. -/
def Arr.Valid : Arr → Prop
  | .flat l => l.length < 2 ^ 64
  | .mid a start len => a.Valid ∧ start + len ≤ a.den.length
  | .rev a => a.Valid
  | .sum a b => a.Valid ∧ b.Valid ∧ a.den.length + b.den.length < 2 ^ 64
  | .rep a n => a.Valid ∧ a.den.length * n < 2 ^ 64

theorem flatten_replicate_length (l : List Nat) (n : Nat) : (List.replicate n l).flatten.length = l.length * n := by
  induction n with
  | zero => simp
  | succ n ih => rw [List.replicate_succ, List.flatten_cons, List.length_append, ih, Nat.mul_succ, Nat.add_comm]

theorem getElem?_flatten_replicate (l : List Nat) (hl : l ≠ []) (n i : Nat) (h : i < l.length * n) :
    (List.replicate n l).flatten[i]? = l[i % l.length]? := by
  have hp : 0 < l.length := List.length_pos_iff.2 hl
  induction n generalizing i with
  | zero => simp at h
  | succ n ih =>
    rw [List.replicate_succ, List.flatten_cons]
    by_cases hi : i < l.length
    · rw [List.getElem?_append_left hi, Nat.mod_eq_of_lt hi]
    · have hi := Nat.le_of_not_lt hi
      rw [List.getElem?_append_right hi, ih (i - l.length) (by rw [Nat.mul_succ] at h; omega)]
      congr 1
      rw [Nat.mod_eq_sub_mod hi]

/-! ## C81: length and items -/

/-- C81: the length of an expression is the length of its sequence. -/
theorem c81_length {a : Arr} (h : a.Valid) : a.length = a.den.length ∧ a.den.length < 2 ^ 64 := by
  induction a with
  | flat l => exact ⟨rfl, h⟩
  | mid a start len ih =>
    have := ih h.1
    have h2 := h.2
    simp only [Arr.length, Arr.den, List.length_take, List.length_drop]
    omega
  | rev a ih => simpa [Arr.length, Arr.den] using ih h
  | sum a b iha ihb =>
    have h1 := iha h.1
    have h2 := ihb h.2.1
    have h3 := h.2.2
    simp only [Arr.length, Arr.den, List.length_append, wadd]
    rw [h1.1, h2.1]
    exact ⟨Nat.mod_eq_of_lt h3, h3⟩
  | rep a n ih =>
    have h1 := ih h.1
    have h2 := h.2
    simp only [Arr.length, Arr.den, flatten_replicate_length]
    rw [h1.1]
    exact ⟨Nat.mod_eq_of_lt h2, h2⟩

theorem wadd_eq {a b : Nat} (h : a + b < 2 ^ 64) : wadd a b = a + b := Nat.mod_eq_of_lt h

theorem wsub_eq {a b : Nat} (h : b ≤ a) (_ : a < 2 ^ 64) : wsub a b = a - b := if_pos h

/-- C81: item number `i` of an expression is item number `i` of its sequence. -/
theorem c81 {a : Arr} (h : a.Valid) {i v : Nat} (hi : a.den[i]? = some v) : a.at i = .ok v := by
  induction a generalizing i v with
  | flat l => simp only [Arr.den] at hi; simp [Arr.at, hi]
  | mid a start len ih =>
    have hl := c81_length h.1
    have h2 := h.2
    simp only [Arr.den] at hi
    have hlt : i < len := by
      have := (List.getElem?_eq_some_iff.1 hi).1
      simp at this
      omega
    rw [List.getElem?_take_of_lt hlt, List.getElem?_drop] at hi
    have e : wadd i start = start + i := by rw [wadd_eq] <;> omega
    simp only [Arr.at, e]
    exact ih h.1 hi
  | rev a ih =>
    have hl := c81_length (a := a) h
    simp only [Arr.den] at hi
    have hlt : i < a.den.length := by
      have := (List.getElem?_eq_some_iff.1 hi).1
      simpa using this
    rw [List.getElem?_reverse hlt] at hi
    have e : wsub (wsub a.length i) 1 = a.den.length - 1 - i := by
      rw [wsub_eq (a := a.length) (by omega) (by omega), wsub_eq (by omega) (by omega)]
      omega
    simp only [Arr.at, e]
    exact ih h hi
  | sum a b iha ihb =>
    have h1 := c81_length h.1
    simp only [Arr.den] at hi
    simp only [Arr.at]
    rw [h1.1]
    split
    · next hge =>
      rw [List.getElem?_append_right hge] at hi
      exact ihb h.2.1 hi
    · next hlt =>
      rw [List.getElem?_append_left (by omega)] at hi
      exact iha h.1 hi
  | rep a n ih =>
    have h1 := c81_length h.1
    simp only [Arr.den] at hi
    have hlt : i < a.den.length * n := by
      have := (List.getElem?_eq_some_iff.1 hi).1
      rwa [flatten_replicate_length] at this
    have hne : a.den ≠ [] := by
      intro e; rw [e] at hlt; simp at hlt
    have hpos := List.length_pos_iff.2 hne
    rw [getElem?_flatten_replicate _ hne _ _ hlt] at hi
    simp only [Arr.at, h1.1]
    rw [if_neg (by omega)]
    exact ih h.1 hi

theorem at_lt {a : Arr} (h : a.Valid) {i : Nat} (hi : i < a.den.length) : a.at i = .ok a.den[i] :=
  c81 h (List.getElem?_eq_getElem hi)

/-! ## C82: `forEach` -/

/-- A functor run over a list. -/
def runList {σ : Type} (f : Fn σ) : σ → List Nat → σ × Bool
  | s, [] => (s, false)
  | s, x :: l => match f s x with
    | (s', true) => (s', true)
    | (s', false) => runList f s' l

theorem runList_append {σ : Type} (f : Fn σ) (s : σ) (l l' : List Nat) :
    runList f s (l ++ l') = match runList f s l with
      | (s', true) => (s', true)
      | (s', false) => runList f s' l' := by
  induction l generalizing s with
  | nil => rfl
  | cons x l ih =>
    simp only [List.cons_append, runList]
    split
    · next h => simp
    · next h => simp only [ih]

theorem loop_eq {σ : Type} {get : Nat → Except Err Nat} {l : List Nat} (f : Fn σ) :
    ∀ (n i : Nat) (s : σ), (∀ j v, j < n → l[j]? = some v → get (i + j) = .ok v) → l.length = n →
      loop get f n i s = .ok (runList f s l) := by
  induction l with
  | nil => intro n i s _ hn; simp at hn; subst hn; rfl
  | cons x l ih =>
    intro n i s hg hn
    cases n with
    | zero => simp at hn
    | succ n =>
      have h0 := hg 0 x (by omega) rfl
      rw [Nat.add_zero] at h0
      simp only [loop, h0, runList]
      generalize f s x = r
      obtain ⟨s', b⟩ := r
      cases b with
      | true => rfl
      | false =>
        apply ih n (i + 1) s'
        · intro j v hj hv
          have := hg (j + 1) v (by omega) (by simpa using hv)
          rw [← this]; congr 1; omega
        · simpa using hn

/-- The class of expressions in which `forEach` is right for every range. -/
def Arr.Fine : Arr → Prop
  | .flat _ => True
  | .mid a _ _ => a.Fine
  | .rev _ => True
  | .sum _ _ => False
  | .rep a _ => a.Fine ∧ a.den ≠ []

/-- The class of expressions in which `forEach` is right for ranges which begin at the first item. -/
def Arr.Fine0 : Arr → Prop
  | .sum a b => a.Fine0 ∧ b.Fine0
  | .mid a start _ => a.Fine ∨ (start = 0 ∧ a.Fine0)
  | a => a.Fine

/-- The items of a range. -/
def range (l : List Nat) (start count : Nat) : List Nat := (l.drop start).take count

theorem range_get {l : List Nat} {start count j v : Nat} (h : (range l start count)[j]? = some v) :
    l[start + j]? = some v ∧ j < count := by
  unfold range at h
  have := (List.getElem?_eq_some_iff.1 h).1
  simp only [List.length_take, List.length_drop] at this
  rw [List.getElem?_take_of_lt (by omega), List.getElem?_drop] at h
  exact ⟨h, by omega⟩

theorem range_length {l : List Nat} {start count : Nat} (h : start + count ≤ l.length) :
    (range l start count).length = count := by
  simp only [range, List.length_take, List.length_drop]; omega

theorem range_mid (l : List Nat) (st len start count : Nat) (h : start + count ≤ len) :
    range ((l.drop st).take len) start count = range l (start + st) count := by
  unfold range
  rw [List.drop_take, List.take_take, List.drop_drop, Nat.min_eq_left (by omega), Nat.add_comm]

theorem range_split (l : List Nat) (start m n : Nat) : range l start (m + n) = range l start m ++ range l (start + m) n := by
  unfold range
  rw [List.take_add, List.drop_drop]

theorem at_loop {σ : Type} {a : Arr} (f : Fn σ) (h : a.Valid) {start count : Nat} (hr : start + count ≤ a.den.length) (s : σ) :
    loop (fun i => a.at (wadd i start)) f count 0 s = .ok (runList f s (range a.den start count)) := by
  have hl := c81_length h
  apply loop_eq
  · intro j v hj hv
    have := range_get hv
    have e : wadd (0 + j) start = start + j := by rw [wadd_eq] <;> omega
    rw [e]
    exact c81 h this.1
  · exact range_length hr

theorem range_rep (l : List Nat) (m k : Nat) (hk : k ≤ l.length) :
    ∀ n, m ≤ l.length * n → range (List.replicate (n + 1) l).flatten k (l.length - k + m) =
      range l k (l.length - k) ++ range (List.replicate n l).flatten 0 m := by
  intro n hm
  rw [range_split]
  congr 1
  · unfold range
    rw [List.replicate_succ, List.flatten_cons, List.drop_append_of_le_length hk, List.take_append_of_le_length (by simp)]
  · unfold range
    rw [show k + (l.length - k) = l.length by omega, List.replicate_succ, List.flatten_cons, List.drop_left' rfl, List.drop_zero]

/-- A range of a repeated list depends on the offset in the list only. -/
theorem range_rep_mod (l : List Nat) (hl : l ≠ []) (n start count : Nat) (h : start + count ≤ l.length * n) :
    range (List.replicate n l).flatten start count =
      range (List.replicate n l).flatten (start % l.length) count := by
  have hp : 0 < l.length := List.length_pos_iff.2 hl
  have hmod := Nat.mod_le start l.length
  have hle : start % l.length ≤ start := Nat.mod_le _ _
  apply List.ext_getElem?
  intro j
  unfold range
  by_cases hj : j < count
  · rw [List.getElem?_take_of_lt hj, List.getElem?_take_of_lt hj, List.getElem?_drop, List.getElem?_drop,
      getElem?_flatten_replicate l hl _ _ (by omega), getElem?_flatten_replicate l hl _ _ (by omega)]
    congr 1
    rw [Nat.mod_add_mod]
  · rw [List.getElem?_take_eq_none (by omega), List.getElem?_take_eq_none (by omega)]

theorem repLoop_eq {σ : Type} (f : Fn σ) {each : Nat → Nat → σ → Except Err (σ × Bool)} {l : List Nat} (hl : l ≠ [])
    (he : ∀ k n s, k + n ≤ l.length → each k n s = .ok (runList f s (range l k n))) :
    ∀ (fuel n k count : Nat) (s : σ), count ≤ fuel → k < l.length → k + count ≤ l.length * n → l.length * n < 2 ^ 64 →
      repLoop each l.length fuel k count s = .ok (runList f s (range (List.replicate n l).flatten k count)) := by
  have hp : 0 < l.length := List.length_pos_iff.2 hl
  have first : ∀ n k count, 0 < n → k + count ≤ l.length →
      range (List.replicate n l).flatten k count = range l k count := by
    intro n k count hn hk
    cases n with
    | zero => omega
    | succ n =>
      unfold range
      rw [List.replicate_succ, List.flatten_cons, List.drop_append_of_le_length (by omega),
        List.take_append_of_le_length (by simp; omega)]
  have npos : ∀ n k count, k + count ≤ l.length * n → 0 < count → 0 < n := by
    intro n k count h hc
    cases n with
    | zero => simp at h; omega
    | succ n => omega
  intro fuel
  induction fuel with
  | zero =>
    intro n k count s hf hk hr hw
    have : count = 0 := by omega
    subst this
    rw [repLoop, he k 0 s (by omega)]
    simp [range]
  | succ fuel ih =>
    intro n k count s hf hk hr hw
    rw [repLoop, wadd_eq (by omega)]
    split
    · next hgt =>
      have hlw : l.length < 2 ^ 64 := by
        have := npos n k count hr (by omega)
        have : l.length * 1 ≤ l.length * n := Nat.mul_le_mul_left _ this
        omega
      obtain ⟨n, rfl⟩ : ∃ m, n = m + 1 := ⟨n - 1, by have := npos n k count hr (by omega); omega⟩
      rw [wsub_eq (by omega) hlw, he k (l.length - k) s (by omega)]
      rw [Nat.mul_succ] at hr hw
      have e : range (List.replicate (n + 1) l).flatten k count =
          range l k (l.length - k) ++ range (List.replicate n l).flatten 0 (count - (l.length - k)) := by
        rw [← range_rep l _ k (by omega) n (by omega)]
        congr 1; omega
      rw [e, runList_append]
      rw [wsub_eq (by omega) (by omega)]
      generalize runList f s (range l k (l.length - k)) = r
      obtain ⟨s', b⟩ := r
      cases b with
      | true => rfl
      | false => exact ih n 0 _ s' (by omega) hp (by omega) (by omega)
    · next hle =>
      rw [he k count s (by omega)]
      by_cases hc : count = 0
      · subst hc; simp [range]
      · rw [first n k count (npos n k count hr (by omega)) (by omega)]

theorem forEach_fine {σ : Type} (f : Fn σ) {a : Arr} (h : a.Valid) (hf : a.Fine) :
    ∀ (start count : Nat) (s : σ), start + count ≤ a.den.length →
      a.forEach f start count s = .ok (runList f s (range a.den start count)) := by
  induction a with
  | flat l => intro start count s hr; exact at_loop (a := .flat l) f h hr s
  | mid a st len ih =>
    intro start count s hr
    simp only [Arr.forEach]
    have hl := c81_length h.1
    have h2 := h.2
    split
    · exact at_loop (a := .mid a st len) f h hr s
    · have hr' : start + count ≤ len := by
        simp only [Arr.den, List.length_take, List.length_drop] at hr; omega
      rw [wadd_eq (by omega), ih h.1 hf _ _ s (by omega)]
      simp only [Arr.den]
      rw [range_mid _ _ _ _ _ hr']
  | rev a ih =>
    intro start count s hr
    have hl := c81_length (a := a) h
    simp only [Arr.forEach]
    apply loop_eq
    · intro j v hj hv
      have hv := range_get hv
      have e : wadd (0 + j) start = start + j := by
        simp only [Arr.den, List.length_reverse] at hr
        rw [wadd_eq] <;> omega
      rw [e]
      have := c81 (a := .rev a) h hv.1
      exact this
    · exact range_length hr
  | sum a b iha ihb => exact hf.elim
  | rep a n ih =>
    intro start count s hr
    have hl := c81_length h.1
    have hp : 0 < a.den.length := List.length_pos_iff.2 hf.2
    simp only [Arr.den, flatten_replicate_length] at hr
    simp only [Arr.forEach, Arr.den]
    rw [if_neg (by omega), hl.1, range_rep_mod _ hf.2 _ _ _ hr]
    have := Nat.mod_le start a.den.length
    exact repLoop_eq f hf.2 (fun k n s hk => ih h.1 hf.1 k n s hk) count n _ count s (Nat.le_refl _)
      (Nat.mod_lt _ hp) (by omega) h.2

theorem forEach_fine0 {σ : Type} (f : Fn σ) {a : Arr} (h : a.Valid) (hf : a.Fine0) :
    ∀ (count : Nat) (s : σ), count ≤ a.den.length →
      a.forEach f 0 count s = .ok (runList f s (a.den.take count)) := by
  induction a with
  | flat l =>
    intro count s hr
    have := forEach_fine f (a := .flat l) h trivial 0 count s (by omega)
    simpa [range] using this
  | mid a st len ih =>
    intro count s hr
    rcases hf with hf | ⟨rfl, hf⟩
    · have := forEach_fine f (a := .mid a st len) h hf 0 count s (by omega)
      simpa [range] using this
    · have hl := c81_length h.1
      have h2 := h.2
      have hr' : count ≤ len ∧ count ≤ a.den.length := by
        simp only [Arr.den, List.length_take, List.length_drop] at hr; omega
      cases hfl : a.isFlat with
      | true =>
        have := at_loop (a := .mid a 0 len) f h (start := 0) (count := count) (by omega) s
        simp only [Arr.forEach, hfl, if_true]
        simpa [range] using this
      | false =>
        simp only [Arr.forEach, hfl, Bool.false_eq_true, if_false]
        rw [wadd_eq (by omega), ih h.1 hf count s (by omega)]
        simp only [Arr.den, List.drop_zero, List.take_take]
        rw [Nat.min_eq_left (by omega)]
  | rev a ih =>
    intro count s hr
    have := forEach_fine f (a := .rev a) h trivial 0 count s (by omega)
    simpa [range] using this
  | sum a b iha ihb =>
    intro count s hr
    have ha := c81_length h.1
    have hb := c81_length h.2.1
    have hab := h.2.2
    simp only [Arr.den, List.length_append] at hr
    simp only [Arr.forEach, Arr.den]
    rw [ha.1]
    split
    · next h0 =>
      have e : a.den = [] := List.length_eq_zero_iff.1 (by omega)
      rw [e] at hr ⊢
      simp only [List.length_nil, Nat.sub_zero, List.nil_append, Nat.zero_add] at hr ⊢
      exact ihb h.2.1 hf.2 count s hr
    · next h0 =>
      rw [wadd_eq (by omega), Nat.zero_add]
      split
      · next hle => rw [iha h.1 hf.1 count s hle, List.take_append_of_le_length hle]
      · next hgt =>
        rw [Nat.sub_zero, iha h.1 hf.1 _ s (Nat.le_refl _), wsub_eq (by omega) (by omega)]
        have e : (a.den ++ b.den).take count = a.den ++ b.den.take (count - a.den.length) := by
          rw [List.take_append, List.take_of_length_le (by omega)]
        rw [e, runList_append, List.take_of_length_le (Nat.le_refl _)]
        generalize runList f s a.den = r
        obtain ⟨s', t⟩ := r
        cases t with
        | true => rfl
        | false => exact ihb h.2.1 hf.2 _ s' (by omega)
  | rep a n ih =>
    intro count s hr
    have := forEach_fine f (a := .rep a n) h hf 0 count s (by omega)
    simpa [range] using this

/-- C82 in part: for expressions without sums `forEach` applies the functor to the items of the range,
one after another, until it returns `true`; repeated arrays must not be empty. -/
theorem c82_partial {σ : Type} (f : Fn σ) {a : Arr} (h : a.Valid) (hf : a.Fine) {start count : Nat} (s : σ)
    (hr : start + count ≤ a.den.length) :
    a.forEach f start count s = .ok (runList f s ((a.den.drop start).take count)) :=
  forEach_fine f h hf start count s hr

/-- C82 in part: with sums `forEach` over the whole array applies the functor to all items. -/
theorem c82_all_partial {σ : Type} (f : Fn σ) {a : Arr} (h : a.Valid) (hf : a.Fine0) (s : σ) :
    a.forEach f 0 a.length s = .ok (runList f s a.den) := by
  rw [forEach_fine0 f h hf _ s (by rw [(c81_length h).1]; exact Nat.le_refl _), (c81_length h).1,
    List.take_of_length_le (Nat.le_refl _)]

/-- The functor which collects the items. -/
def collect : Fn (List Nat) := fun s x => (s ++ [x], false)

theorem runList_collect (s l : List Nat) : runList collect s l = (s ++ l, false) := by
  induction l generalizing s with
  | nil => simp [runList]
  | cons x l ih => simp [runList, collect, ih]

/-- C82 is violated: a range which begins in the first summand and ends in the second one loses
items: items 1 … 3 of `[10, 11] + [12, 13]` are visited without the item 13; arrayExpr.h:98-106 passes `count - l`. -/
theorem c82_violated : ∃ (a : Arr) (start count : Nat), a.Valid ∧ start + count ≤ a.den.length ∧
    ∃ l, a.forEach collect start count [] = .ok (l, false) ∧ l ≠ (a.den.drop start).take count :=
  ⟨.sum (.flat [10, 11]) (.flat [12, 13]), 1, 3, by simp [Arr.Valid, Arr.den], by decide, [11, 12], rfl, by decide⟩

/-- C82 is violated: `forEach` over a repeated empty array divides by zero. -/
theorem c82_empty_violated : ∃ a : Arr, a.Valid ∧ a.den = [] ∧ a.length = 0 ∧
    a.forEach collect 0 0 [] = .error .ub :=
  ⟨.rep (.flat []) 3, by simp [Arr.Valid, Arr.den], rfl, rfl, rfl⟩

/-! ### `empty` -/

/-- The class of expressions in which `empty` is right. -/
def Arr.EmptyOk : Arr → Prop
  | .mid a _ _ => a.isFlat = true
  | .sum a b => a.EmptyOk ∧ b.EmptyOk
  | _ => True

/-- C81 in part: `empty` of arrays other than sections of expressions. -/
theorem c81_empty_partial {a : Arr} (h : a.Valid) (he : a.EmptyOk) : a.empty = true ↔ a.den = [] := by
  induction a with
  | flat l => simp [Arr.empty, Arr.den]
  | mid a start len ih =>
    have h2 := h.2
    have he : a.isFlat = true := he
    simp only [Arr.empty, he, if_true, Arr.den, beq_iff_eq]
    rw [← List.length_eq_zero_iff, List.length_take, List.length_drop]
    omega
  | rev a ih =>
    have := c81_length (a := a) h
    simp only [Arr.empty, Arr.den, beq_iff_eq, List.reverse_eq_nil_iff]
    rw [this.1, List.length_eq_zero_iff]
  | sum a b iha ihb =>
    simp only [Arr.empty, Arr.den, Bool.and_eq_true, List.append_eq_nil_iff]
    rw [iha h.1 he.1, ihb h.2.1 he.2]
  | rep a n ih =>
    have := c81_length h
    simp only [Arr.empty, beq_iff_eq]
    rw [this.1, List.length_eq_zero_iff]

/-- C81 is violated: a section of a sum says that it is empty when it has items and says that it is
not empty when it has none. -/
theorem c81_empty_violated :
    (∃ a : Arr, a.Valid ∧ a.den ≠ [] ∧ a.empty = true) ∧ (∃ a : Arr, a.Valid ∧ a.den = [] ∧ a.empty = false) :=
  ⟨⟨.mid (.sum (.flat [1]) (.flat [2])) 0 2, by simp [Arr.Valid, Arr.den], by decide, rfl⟩,
    ⟨.mid (.sum (.flat [1]) (.flat [2])) 1 0, by simp [Arr.Valid, Arr.den], by decide, rfl⟩⟩

theorem flat_valid_fine {a : Arr} (h : a.isFlat = true) : a.Fine ∧ a.EmptyOk := by
  induction a with
  | flat l => exact ⟨trivial, trivial⟩
  | mid a s n ih => exact ⟨(ih h).1, h⟩
  | _ => simp [Arr.isFlat] at h

theorem Fine.fine0 {a : Arr} (h : a.Fine) : a.Fine0 := by
  cases a with
  | mid a s n => exact Or.inl h
  | sum a b => exact h.elim
  | _ => exact h

/-! ## C83: `find` -/

/-- `r` is the first place where `p` holds, `naturalNull` if there is none. -/
def First (p : Nat → Prop) (r : Nat) : Prop :=
  (r ≠ null ∧ p r ∧ ∀ j, j < r → ¬ p j) ∨ (r = null ∧ ∀ j, ¬ p j)

/-- `r` is the last place where `p` holds, `naturalNull` if there is none. -/
def Last (p : Nat → Prop) (r : Nat) : Prop :=
  (r ≠ null ∧ p r ∧ ∀ j, r < j → ¬ p j) ∨ (r = null ∧ ∀ j, ¬ p j)

theorem cmpItems_equal {a b : Nat} : cmpItems a b = .equal ↔ a = b := by
  unfold cmpItems; repeat' split
  all_goals simp_all

/-- A functor which looks for the first item with `q`. -/
theorem runList_find {q : Nat → Prop} {f : Fn Nat} (hf : ∀ s x, (q x ∧ f s x = (s, true)) ∨ (¬ q x ∧ f s x = (s + 1, false)))
    (l : List Nat) (s : Nat) :
    (∃ i x, runList f s l = (s + i, true) ∧ l[i]? = some x ∧ q x ∧ ∀ j y, j < i → l[j]? = some y → ¬ q y) ∨
    ((runList f s l).2 = false ∧ ∀ y ∈ l, ¬ q y) := by
  induction l generalizing s with
  | nil => right; simp [runList]
  | cons x l ih =>
    rcases hf s x with ⟨hq, e⟩ | ⟨hq, e⟩
    · left
      refine ⟨0, x, by simp [runList, e], rfl, hq, ?_⟩
      intro j y hj; omega
    · simp only [runList, e]
      rcases ih (s + 1) with ⟨i, y, h1, h2, h3, h4⟩ | ⟨h1, h2⟩
      · left
        refine ⟨i + 1, y, by rw [h1]; congr 1; omega, by simpa using h2, h3, ?_⟩
        intro j z hj hz
        cases j with
        | zero => simp at hz; subst hz; exact hq
        | succ j => exact h4 j z (by omega) (by simpa using hz)
      · right
        refine ⟨h1, ?_⟩
        intro y hy
        rcases List.mem_cons.1 hy with rfl | hy
        · exact hq
        · exact h2 y hy

theorem findFn_spec (v s x : Nat) :
    ((x = v) ∧ findFn v s x = (s, true)) ∨ (¬ (x = v) ∧ findFn v s x = (s + 1, false)) := by
  unfold findFn
  by_cases h : x = v
  · left; exact ⟨h, if_pos (cmpItems_equal.2 h)⟩
  · right; exact ⟨h, if_neg (fun e => h (cmpItems_equal.1 e))⟩

theorem found_first {l : List Nat} (hl : l.length < 2 ^ 64) (v : Nat) :
    ∃ r, found (.ok (runList (findFn v) 0 l)) = .ok r ∧ First (fun i => l[i]? = some v) r := by
  rcases runList_find (findFn_spec v) l 0 with ⟨i, x, h1, h2, h3, h4⟩ | ⟨h1, h2⟩
  · subst h3
    have := (List.getElem?_eq_some_iff.1 h2).1
    refine ⟨i, by rw [h1]; simp [found], Or.inl ⟨by unfold null; omega, h2, ?_⟩⟩
    intro j hj e
    exact h4 j x hj e rfl
  · refine ⟨null, ?_, Or.inr ⟨rfl, ?_⟩⟩
    · generalize runList (findFn v) 0 l = r at h1
      obtain ⟨a, b⟩ := r
      simp only at h1
      subst h1
      rfl
    · intro j e
      exact h2 v (List.mem_of_getElem? e) rfl

theorem first_nil {v : Nat} : First (fun i => ([] : List Nat)[i]? = some v) null :=
  Or.inr ⟨rfl, by intro j; simp⟩

/-- C83 in part: `find(item)` is the first place of the item in arrays other than sections of expressions. -/
theorem c83_partial {a : Arr} (h : a.Valid) (hf : a.Fine0) (he : a.EmptyOk) (v : Nat) :
    ∃ r, a.find v = .ok r ∧ First (fun i => a.den[i]? = some v) r := by
  unfold Arr.find
  split
  · next e =>
    rw [(c81_empty_partial h he).1 e]
    exact ⟨null, rfl, first_nil⟩
  · rw [c82_all_partial _ h hf]
    exact found_first (c81_length h).2 v

theorem offset_flat {a : Arr} (p : Nat) : (a.offset p).isFlat = a.isFlat := rfl

/-- `offset` is `drop`. -/
theorem offset_den {a : Arr} (h : a.Valid) (p : Nat) : (a.offset p).Valid ∧ (a.offset p).den = a.den.drop p := by
  have hl := c81_length h
  unfold Arr.offset
  rw [hl.1]
  split
  · next hgt =>
    refine ⟨⟨h, by omega⟩, ?_⟩
    simp only [Arr.den]
    rw [List.drop_eq_nil_of_le (by omega), List.drop_eq_nil_of_le (by omega), List.take_nil]
  · next hle =>
    refine ⟨⟨h, by omega⟩, ?_⟩
    simp only [Arr.den]
    rw [List.take_of_length_le (by simp)]

theorem First.shift {l : List Nat} {p v r : Nat} (hl : l.length < 2 ^ 64)
    (h : First (fun i => (l.drop p)[i]? = some v) r) (hp : p < 2 ^ 64) :
    First (fun i => p ≤ i ∧ l[i]? = some v) (if r = null then r else wadd r p) := by
  rcases h with ⟨hr, h1, h2⟩ | ⟨hr, h1⟩
  · rw [if_neg hr]
    rw [List.getElem?_drop] at h1
    have hb := (List.getElem?_eq_some_iff.1 h1).1
    rw [wadd_eq (by omega)]
    refine Or.inl ⟨by unfold null; omega, ⟨by omega, by rw [Nat.add_comm]; exact h1⟩, ?_⟩
    intro j hj ⟨hpj, e⟩
    refine h2 (j - p) (by omega) ?_
    show (l.drop p)[j - p]? = some v
    rw [List.getElem?_drop, ← e]; congr 1; omega
  · rw [if_pos hr]
    refine Or.inr ⟨hr, ?_⟩
    intro j ⟨hpj, e⟩
    refine h1 (j - p) ?_
    show (l.drop p)[j - p]? = some v
    rw [List.getElem?_drop, ← e]; congr 1; omega

/-- C83 in part: `find(item,pos)` in a flat array is the first place of the item not before `pos`. -/
theorem c83_from_partial {a : Arr} (h : a.Valid) (hf : a.isFlat = true) (v : Nat) {pos : Nat} (hp : pos < 2 ^ 64) :
    ∃ r, a.findFrom v pos = .ok r ∧ First (fun i => pos ≤ i ∧ a.den[i]? = some v) r := by
  have ho := offset_den h pos
  have hfl := flat_valid_fine (a := a.offset pos) hf
  obtain ⟨r, h1, h2⟩ := c83_partial ho.1 (Fine.fine0 hfl.1) hfl.2 v
  rw [ho.2] at h2
  exact ⟨_, by unfold Arr.findFrom; rw [h1]; rfl, h2.shift (c81_length h).2 hp⟩

/-- C83 is violated: `find(item,pos)` in a sum never finds anything, the section says that it is empty. -/
theorem c83_from_violated : ∃ (a : Arr) (v pos : Nat), a.Valid ∧ a.Fine0 ∧ a.EmptyOk ∧ a.den[pos]? = some v ∧
    a.findFrom v pos = .ok null :=
  ⟨.sum (.flat [1, 2]) (.flat [3, 4]), 3, 2, by simp [Arr.Valid, Arr.den], ⟨trivial, trivial⟩, ⟨trivial, trivial⟩, rfl, rfl⟩

/-- C83 is violated: `find(item)` in a section of a sum does not find an item which is there. -/
theorem c83_violated : ∃ (a : Arr) (v : Nat), a.Valid ∧ v ∈ a.den ∧ a.find v = .ok null :=
  ⟨.mid (.sum (.flat [1, 2]) (.flat [3, 4])) 0 3, 2, by simp [Arr.Valid, Arr.den], by decide, rfl⟩

end LS.ArrayT

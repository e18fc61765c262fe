import Verif.Ini
/-
C118: INI files.
-/
namespace LS.Ini

/-! ## Grammar -/

/-- Blank inside of a line. -/
def Bl (c : Nat) : Prop := c = 32 ∨ c = 9 ∨ c = 11 ∨ c = 12
/-- White space, with the ends of lines. -/
def Ws (c : Nat) : Prop := Bl c ∨ c = 13 ∨ c = 10

/-- No white space at the ends. -/
def Tight (l : Str) : Prop := (∀ c, l.head? = some c → ¬ Ws c) ∧ ∀ c, l.getLast? = some c → ¬ Ws c

/-- Text of a value in quotes. -/
inductive Esc : Str → Str → Prop
  | nil : Esc [] []
  | plain {c : Nat} {v t : Str} : c ≠ 34 → c ≠ 92 → c ≠ 13 → c ≠ 10 → Esc v t → Esc (c :: v) (c :: t)
  | n {v t : Str} : Esc v t → Esc (10 :: v) (92 :: 110 :: t)
  | r {v t : Str} : Esc v t → Esc (13 :: v) (92 :: 114 :: t)
  | t {v t : Str} : Esc v t → Esc (9 :: v) (92 :: 116 :: t)
  | a {v t : Str} : Esc v t → Esc (7 :: v) (92 :: 97 :: t)
  | zero {v t : Str} : Esc v t → Esc (0 :: v) (92 :: 48 :: t)
  | other {c : Nat} {v t : Str} : c < 128 → c ∉ [110, 114, 116, 97, 98, 48, 13, 10] → Esc v t → Esc (c :: v) (92 :: c :: t)
  | cont {e : Nat} {w v t : Str} : e = 13 ∨ e = 10 → (∀ c, c ∈ w → Ws c) → (∀ c, t.head? = some c → ¬ Ws c ∧ c < 128) → Esc v t → Esc v (92 :: e :: (w ++ t))

/-- Lines of a file without their ends. -/
inductive Line where
  | blank (w : Str)
  | comment (w text : Str)
  | sect (w a name b d : Str)
  | field (w name b a value c : Str)
  | quote (w name b value text d : Str)

def Line.text : Line → Str
  | .blank w => w
  | .comment w t => w ++ 35 :: t
  | .sect w a n b d => w ++ 91 :: (a ++ n ++ b ++ 93 :: d)
  | .field w n b a v c => w ++ (n ++ b ++ 61 :: (a ++ v ++ c))
  | .quote w n b _ t d => w ++ (n ++ b ++ 61 :: 34 :: (t ++ 34 :: d))

def Bls (l : Str) : Prop := ∀ c, c ∈ l → Bl c

/-- Name of a field. -/
def Name (n : Str) : Prop := Tight n ∧ 61 ∉ n ∧ 13 ∉ n ∧ 10 ∉ n ∧ ∃ c, n.head? = some c ∧ c < 128 ∧ c ≠ 91 ∧ c ≠ 46 ∧ c ≠ 35

/-- `Lead a v`: what may stand between the beginning and the value. -/
def Line.Wf (Lead : Str → Str → Prop) : Line → Prop
  | .blank w => Bls w
  | .comment w t => Bls w ∧ 10 ∉ t
  | .sect w a n b d => Bls w ∧ Bls a ∧ Bls b ∧ Bls d ∧ Tight n ∧ n ≠ [] ∧ 93 ∉ n ∧ 13 ∉ n ∧ 10 ∉ n ∧ Lead a n
  | .field w n b a v c => Bls w ∧ Name n ∧ Bls b ∧ Bls a ∧ Bls c ∧ Tight v ∧ 13 ∉ v ∧ 10 ∉ v ∧ (a ++ v).head? ≠ some 34 ∧ Lead a v
  | .quote w n b v t d => Bls w ∧ Name n ∧ Bls b ∧ Bls d ∧ Tight v ∧ Esc v t

/-- End of a line. -/
def Eol (e : Str) : Prop := e = [10] ∨ e = [13, 10]

/-- The fields of a file, with their sections; nothing before the first section. -/
def eval : Str → List (Line × Str) → List Entry
  | _, [] => []
  | _, (.sect _ _ n _ _, _) :: ls => eval n ls
  | s, (.field _ n _ _ v _, _) :: ls => if s = [] then eval s ls else .field s n v :: eval s ls
  | s, (.quote _ n _ v _ _, _) :: ls => if s = [] then eval s ls else .field s n v :: eval s ls
  | s, (.blank _, _) :: ls => eval s ls
  | s, (.comment _ _, _) :: ls => eval s ls

/-- The text of a file. -/
def text (ls : List (Line × Str)) : Str := ls.flatMap fun l => l.1.text ++ l.2

/-! ## trim -/

theorem space_iff (c : Nat) : space c = true ↔ Ws c := by
  unfold space Ws Bl
  simp only [Bool.or_eq_true, beq_iff_eq, Bool.and_eq_true, decide_eq_true_eq]
  omega

theorem wild_ws {c : Nat} (h : Ws c) : wild c = false := by
  unfold wild Ws Bl at *
  rcases h with (h | h | h | h) | h | h <;> subst h <;> rfl

theorem scanEnd_ws : ∀ (w : Str) (i e : Nat), (∀ c, c ∈ w → Ws c) → scanEnd i e w = e
  | [], _, _, _ => rfl
  | c :: w, i, e, h => by
    rw [scanEnd, if_pos ((space_iff c).mpr (h c List.mem_cons_self))]
    exact scanEnd_ws w _ e fun c hc => h c (List.mem_cons_of_mem _ hc)

theorem scanEnd_ok {post : Str} (hp : ∀ c, c ∈ post → Ws c) : ∀ (w : Str) (i e : Nat), w ≠ [] → (∀ c, w.getLast? = some c → ¬ Ws c) → scanEnd i e (w ++ post) = i + w.length - 1
  | [], _, _, h, _ => absurd rfl h
  | [c], i, e, _, hl => by
    have : ¬ Ws c := hl c rfl
    have h2 : ¬ space c = true := fun q => this ((space_iff c).mp q)
    rw [List.cons_append, List.nil_append, scanEnd, if_neg h2, scanEnd_ws post _ _ hp]
    simp
  | c :: d :: w, i, e, _, hl => by
    rw [List.cons_append, scanEnd, scanEnd_ok hp (d :: w) _ _ (by simp) (fun x hx => hl x (by rw [List.getLast?_cons_cons]; exact hx))]
    simp only [List.length_cons]; omega

theorem scanBegin_ws (l : Str) : ∀ (w x : Str) (i : Nat), (∀ c, c ∈ w → Ws c) → scanBegin l i (w ++ x) = scanBegin l (i + w.length) x
  | [], x, i, _ => rfl
  | c :: w, x, i, h => by
    rw [List.cons_append, scanBegin, if_pos ((space_iff c).mpr (h c List.mem_cons_self)), scanBegin_ws l w x (i + 1) fun c hc => h c (List.mem_cons_of_mem _ hc)]
    rw [List.length_cons]; congr 1; omega

theorem mid_ok {a b c : Str} (h : (a ++ b ++ c).length < 18446744073709551616) : mid (a ++ b ++ c) a.length b.length = some b := by
  unfold mid
  simp only [List.length_append] at h ⊢
  by_cases h0 : a.length + b.length + c.length ≤ a.length
  · rw [if_pos h0]
    have : b = [] := List.length_eq_zero_iff.mp (by omega)
    rw [this]
  · rw [if_neg h0, Nat.mod_eq_of_lt (by omega), if_neg (by omega), if_pos (by omega), List.append_assoc, List.drop_left, List.take_left]

/-- What `trim` needs: no blanks before, or a text of no or at least two characters. -/
def LeadOk (a v : Str) : Prop := a = [] ∨ v = [] ∨ 2 ≤ v.length

theorem trim_ws {l : Str} (h : ∀ c, c ∈ l → Ws c) : trim l = some [] := by
  unfold trim
  have := scanBegin_ws l l [] 0 h
  rw [List.append_nil] at this
  rw [this, scanBegin, mid]
  by_cases h0 : l.length ≤ 0
  · rw [if_pos h0]
  · rw [if_neg h0, if_neg (by simp), if_pos (by omega)]; rfl

theorem trim_ok {pre v post : Str} (h1 : ∀ c, c ∈ pre → Ws c) (h2 : Tight v) (h3 : ∀ c, c ∈ post → Ws c) (hl : (pre ++ v ++ post).length < 18446744073709551616) (h : LeadOk pre v) :
    trim (pre ++ v ++ post) = some v := by
  cases v with
  | nil =>
    refine trim_ws fun c hc => ?_
    rw [List.append_nil] at hc
    rcases List.mem_append.mp hc with q | q
    · exact h1 c q
    · exact h3 c q
  | cons c w =>
    have hc : ¬ space c = true := fun q => h2.1 c rfl ((space_iff c).mp q)
    have hm := mid_ok hl
    unfold trim
    generalize hL : pre ++ c :: w ++ post = L at *
    have e : scanBegin L 0 L = scanBegin L (0 + pre.length) (c :: (w ++ post)) := by
      rw [← scanBegin_ws L pre _ 0 h1]
      congr 1
      rw [← hL]; simp
    rw [e, Nat.zero_add, scanBegin, if_neg hc]
    cases w with
    | nil =>
      have hp : pre = [] := by
        rcases h with h | h | h
        · exact h
        · cases h
        · simp at h
      subst hp
      simp only [List.nil_append, List.length_nil, Nat.zero_add]
      rw [scanEnd_ws post _ _ h3, if_pos (by omega)]
      exact hm
    | cons d w =>
      simp only
      rw [scanEnd_ok h3 (d :: w) _ _ (by simp) (fun x hx => h2.2 x (by rw [List.getLast?_cons_cons]; exact hx)), if_pos (by simp only [List.length_cons]; omega)]
      have : pre.length + 1 + (d :: w).length - 1 + 1 - pre.length = (c :: d :: w).length := by simp only [List.length_cons]; omega
      rw [this]
      exact hm

/-- One character behind blanks: lost behind one blank, undefined behind more. -/
theorem trim_one {pre post : Str} {c : Nat} (h1 : ∀ c, c ∈ pre → Ws c) (h2 : ¬ Ws c) (h3 : ∀ c, c ∈ post → Ws c) (h0 : pre ≠ []) (hl : (pre ++ c :: post).length < 18446744073709551616) :
    trim (pre ++ c :: post) = if pre.length = 1 then some [] else none := by
  have hc : ¬ space c = true := fun q => h2 ((space_iff c).mp q)
  have hp : 0 < pre.length := List.length_pos_iff.mpr h0
  unfold trim
  have e := scanBegin_ws (pre ++ c :: post) pre (c :: post) 0 h1
  rw [e, Nat.zero_add, scanBegin, if_neg hc]
  simp only
  rw [scanEnd_ws post _ _ h3]
  simp only [List.length_append, List.length_cons] at hl
  by_cases h1 : pre.length = 1
  · rw [if_pos h1, if_pos (by omega), h1, mid]
    simp only [List.length_append, List.length_cons, h1]
    rw [if_neg (by omega), if_neg (by simp), if_pos (by omega)]
    simp
  · rw [if_neg h1, if_neg (by omega), mid]
    simp only [List.length_append, List.length_cons]
    have hw : (pre.length + (18446744073709551616 - (pre.length - (0 + 1)))) % 18446744073709551616 = 1 := by
      have : pre.length + (18446744073709551616 - (pre.length - (0 + 1))) = 18446744073709551616 + 1 := by omega
      rw [this]
    rw [if_neg (by omega), hw, if_neg (by omega), if_neg (by omega)]

/-- Exactly which texts `trim` handles. -/
theorem C118_trim {pre v post : Str} (h1 : ∀ c, c ∈ pre → Ws c) (h2 : Tight v) (h3 : ∀ c, c ∈ post → Ws c) (hl : (pre ++ v ++ post).length < 18446744073709551616) :
    trim (pre ++ v ++ post) = some v ↔ LeadOk pre v := by
  refine ⟨fun h => ?_, trim_ok h1 h2 h3 hl⟩
  by_cases hp : pre = []
  · exact .inl hp
  · cases v with
    | nil => exact .inr (.inl rfl)
    | cons c w =>
      cases w with
      | nil =>
        exfalso
        rw [List.append_assoc, List.singleton_append] at h hl
        rw [trim_one h1 (h2.1 c rfl) h3 hp hl] at h
        split at h <;> cases h
      | cons d w => exact .inr (.inr (by simp))

/-! ## The parser -/

theorem skipNI_ws : ∀ (w x : Str), (∀ c, c ∈ w → Ws c) → skipNI false (w ++ x) = skipNI false x
  | [], _, _ => rfl
  | c :: w, x, h => by
    have hc := h c List.mem_cons_self
    rw [List.cons_append, skipNI, if_neg (by rw [wild_ws hc]; decide), if_pos ((space_iff c).mpr hc)]
    exact skipNI_ws w x fun c hc => h c (List.mem_cons_of_mem _ hc)

theorem skipNI_comment : ∀ (t x : Str), 10 ∉ t → skipNI true (t ++ 10 :: x) = skipNI false x
  | [], _, _ => by rw [List.nil_append, skipNI, if_pos rfl]
  | c :: t, x, h => by
    rw [List.cons_append, skipNI, if_neg (fun q => h (by rw [q]; exact List.mem_cons_self))]
    exact skipNI_comment t x fun q => h (List.mem_cons_of_mem _ q)

theorem skipNI_stop {c : Nat} (x : Str) (h1 : c < 128) (h2 : ¬ Ws c) (h3 : c ≠ 35) : skipNI false (c :: x) = some (c :: x) := by
  have hw : ¬ wild c = true := by
    unfold wild
    simp only [Bool.and_eq_true, decide_eq_true_eq]
    omega
  rw [skipNI, if_neg hw, if_neg (fun q => h2 ((space_iff c).mp q)), if_neg h3]

theorem line_congr {p q : P} (h1 : skipNI false p.inp = skipNI false q.inp) (h2 : p.sec = q.sec) (h3 : p.var = q.var) (h4 : p.value = q.value) : p.getNextLine = q.getNextLine := by
  obtain ⟨a, b, c, d⟩ := p
  obtain ⟨a', b', c', d'⟩ := q
  simp only at h1 h2 h3 h4
  subst h2; subst h3; subst h4
  unfold P.getNextLine
  simp only [h1]

theorem bls_ws {l : Str} (h : Bls l) : ∀ c, c ∈ l → Ws c := fun c hc => .inl (h c hc)

theorem eol_ws {e : Str} (h : Eol e) : ∀ c, c ∈ e → Ws c := by
  rcases h with h | h <;> subst h <;> simp [Ws]

theorem span_stop {q : Nat → Bool} {b : Str} {c : Nat} {r : Str} (h1 : ∀ x, x ∈ b → q x = true) (h2 : q c = false) :
    (b ++ c :: r).takeWhile q = b ∧ (b ++ c :: r).dropWhile q = c :: r := by
  induction b with
  | nil => simp [h2]
  | cons x b ih =>
    have := ih fun y hy => h1 y (List.mem_cons_of_mem _ hy)
    simp [h1 x List.mem_cons_self, this.1, this.2]

theorem not_stop {l : Str} {sep x : Nat} (h1 : sep ∉ l) (h2 : 13 ∉ l) (h3 : 10 ∉ l) (hx : x ∈ l) : (decide (x ≠ sep) && decide (x ≠ 13) && decide (x ≠ 10)) = true := by
  have a : x ≠ sep := fun q => h1 (q ▸ hx)
  have b : x ≠ 13 := fun q => h2 (q ▸ hx)
  have c : x ≠ 10 := fun q => h3 (q ▸ hx)
  simp [a, b, c]

theorem bls_not {l : Str} (h : Bls l) : 93 ∉ l ∧ 61 ∉ l ∧ 13 ∉ l ∧ 10 ∉ l ∧ 34 ∉ l := by
  refine ⟨?_, ?_, ?_, ?_, ?_⟩ <;> intro q <;> have := h _ q <;> unfold Bl at this <;> omega

theorem not_app {a b : Str} {x : Nat} (h1 : x ∉ a) (h2 : x ∉ b) : x ∉ a ++ b := by
  intro h
  rcases List.mem_append.mp h with q | q
  · exact h1 q
  · exact h2 q

/-- A line with a section. -/
theorem line_sect {p : P} {w w' a n b d r : Str} (h : (Line.sect w' a n b d).Wf LeadOk) (hw : ∀ c, c ∈ w → Ws c) (hi : p.inp = w ++ 91 :: (a ++ n ++ b ++ 93 :: r)) (hl : p.inp.length < 18446744073709551616) :
    p.getNextLine = .ok (false, { p with inp := r, sec := n }) := by
  obtain ⟨_, ha, hb, hd, ht, h0, h1, h2, h3, hL⟩ := h
  have e1 : skipNI false p.inp = some (91 :: (a ++ n ++ b ++ 93 :: r)) := by
    rw [hi, skipNI_ws w _ hw]
    exact skipNI_stop _ (by omega) (by unfold Ws Bl; omega) (by omega)
  have hA := bls_not ha
  have hB := bls_not hb
  obtain ⟨t1, t2⟩ := span_stop (q := fun c => decide (c ≠ 93) && decide (c ≠ 13) && decide (c ≠ 10)) (b := a ++ n ++ b) (c := 93) (r := r)
    (fun x hx => not_stop (not_app (not_app hA.1 h1) hB.1) (not_app (not_app hA.2.2.1 h2) hB.2.2.1) (not_app (not_app hA.2.2.2.1 h3) hB.2.2.2.1) hx) rfl
  have htr : trim (a ++ n ++ b) = some n := by
    refine trim_ok (bls_ws ha) ht (bls_ws hb) ?_ hL
    rw [hi] at hl
    simp only [List.length_append, List.length_cons] at hl ⊢
    omega
  unfold P.getNextLine
  rw [e1]
  simp only [if_true]
  unfold P.parseSection
  simp only [List.tail_cons, t1, t2, htr]

theorem unquoted_ok {e : Nat} (he : e = 13 ∨ e = 10) (r : Str) : unquoted e r = ([], r) := by
  cases r with
  | nil => rfl
  | cons c r => rw [unquoted, if_pos he]

theorem unquoted_run {e : Nat} (he : e = 13 ∨ e = 10) (r : Str) : ∀ (t : Str) (x : Nat), 13 ∉ x :: t → 10 ∉ x :: t → unquoted x (t ++ e :: r) = (x :: t, r)
  | [], x, h1, h2 => by
    have : ¬ (x = 13 ∨ x = 10) := by
      rintro (q | q)
      · exact h1 (q ▸ List.mem_cons_self)
      · exact h2 (q ▸ List.mem_cons_self)
    rw [List.nil_append, unquoted, if_neg this, unquoted_ok he]
  | y :: t, x, h1, h2 => by
    have : ¬ (x = 13 ∨ x = 10) := by
      rintro (q | q)
      · exact h1 (q ▸ List.mem_cons_self)
      · exact h2 (q ▸ List.mem_cons_self)
    rw [List.cons_append, unquoted, if_neg this, unquoted_run he r t y (fun q => h1 (List.mem_cons_of_mem _ q)) (fun q => h2 (List.mem_cons_of_mem _ q))]

/-- A value without quotes. -/
theorem value_ok {p : P} {a v c r : Str} {e : Nat} (he : e = 13 ∨ e = 10) (hi : p.inp = a ++ v ++ c ++ e :: r) (ha : Bls a) (hc : Bls c) (ht : Tight v) (h1 : 13 ∉ v) (h2 : 10 ∉ v)
    (h3 : (a ++ v).head? ≠ some 34) (hL : LeadOk a v) (hl : p.inp.length < 18446744073709551616) : p.parseValue = .ok { p with inp := r, value := v } := by
  have hA := bls_not ha
  have hC := bls_not hc
  have n1 : 13 ∉ a ++ v ++ c := not_app (not_app hA.2.2.1 h1) hC.2.2.1
  have n2 : 10 ∉ a ++ v ++ c := not_app (not_app hA.2.2.2.1 h2) hC.2.2.2.1
  have htr : trim (a ++ v ++ c) = some v := by
    refine trim_ok (bls_ws ha) ht (bls_ws hc) ?_ hL
    rw [hi] at hl
    simp only [List.length_append, List.length_cons] at hl ⊢
    omega
  have h34 : (a ++ v ++ c).head? ≠ some 34 := by
    intro q
    cases hav : a ++ v with
    | nil =>
      rw [hav, List.nil_append] at q
      exact hC.2.2.2.2 (List.mem_of_head? q)
    | cons x y =>
      rw [hav] at h3 q
      exact h3 q
  unfold P.parseValue
  generalize a ++ v ++ c = T at *
  cases T with
  | nil =>
    rw [List.nil_append] at hi
    rw [hi]
    simp only
    rw [if_neg (by omega), unquoted_ok he, htr]
  | cons x t =>
    rw [List.cons_append] at hi
    rw [hi]
    simp only
    rw [if_neg (fun q => h34 (by rw [q]; rfl)), unquoted_run he r t x n1 n2, htr]

theorem dropWhile_ws : ∀ (w x : Str), (∀ c, c ∈ w → Ws c) → (∀ c, x.head? = some c → ¬ Ws c) → (w ++ x).dropWhile space = x
  | [], [], _, _ => rfl
  | [], c :: x, _, h => by
    have : ¬ space c = true := fun q => h c rfl ((space_iff c).mp q)
    rw [List.nil_append, List.dropWhile_cons_of_neg this]
  | c :: w, x, h, h2 => by
    rw [List.cons_append, List.dropWhile_cons_of_pos ((space_iff c).mpr (h c List.mem_cons_self))]
    exact dropWhile_ws w x (fun c hc => h c (List.mem_cons_of_mem _ hc)) h2

/-- Values in quotes. -/
theorem quoted_ok (r : Str) {v t : Str} (h : Esc v t) : ∀ (n : Nat) (nx : Option Nat), t.length < n → quoted n nx (t ++ 34 :: r) = some (v, some 34, r) := by
  have step : ∀ {c x : Nat} {v t : Str}, escaped c (t ++ 34 :: r) = some (some x, t ++ 34 :: r) → x < 128 →
      (∀ (n : Nat) (nx : Option Nat), t.length < n → quoted n nx (t ++ 34 :: r) = some (v, some 34, r)) →
      ∀ (n : Nat) (nx : Option Nat), (92 :: c :: t).length < n → quoted n nx (92 :: c :: t ++ 34 :: r) = some (x :: v, some 34, r) := by
    intro c x v t he hx ih n nx hn
    simp only [List.length_cons] at hn
    obtain ⟨n, rfl⟩ : ∃ m, n = m + 1 := ⟨n - 1, by omega⟩
    rw [List.cons_append, List.cons_append, quoted, if_pos ⟨rfl, by simp⟩]
    simp only [List.headD_cons, List.tail_cons]
    rw [he]
    simp only
    rw [ih n _ (by omega)]
    simp only [hx, if_true]
  induction h with
  | nil =>
    intro n nx hn
    obtain ⟨n, rfl⟩ : ∃ m, n = m + 1 := ⟨n - 1, by omega⟩
    rw [List.nil_append, quoted, if_neg (by omega), if_pos (by omega)]
  | @plain c v t h1 h2 h3 h4 _ ih =>
    intro n nx hn
    rw [List.length_cons] at hn
    obtain ⟨n, rfl⟩ : ∃ m, n = m + 1 := ⟨n - 1, by omega⟩
    rw [List.cons_append, quoted, if_neg (fun q => h2 q.1), if_neg (by omega), ih n _ (by omega)]
  | n _ ih => exact step (by simp [escaped]) (by omega) ih
  | r _ ih => exact step (by simp [escaped]) (by omega) ih
  | t _ ih => exact step (by simp [escaped]) (by omega) ih
  | a _ ih => exact step (by simp [escaped]) (by omega) ih
  | zero _ ih => exact step (by simp [escaped]) (by omega) ih
  | @other c v t h1 h2 _ ih =>
    refine step ?_ h1 ih
    simp only [List.mem_cons, List.not_mem_nil, or_false, not_or] at h2
    simp [escaped, h2]
  | @cont e w v t he hw ht _ ih =>
    intro n nx hn
    simp only [List.length_cons, List.length_append] at hn
    obtain ⟨n, rfl⟩ : ∃ m, n = m + 1 := ⟨n - 1, by omega⟩
    have hh : ∀ c, (t ++ 34 :: r).head? = some c → ¬ Ws c ∧ c < 128 := by
      intro c hc
      cases t with
      | nil =>
        simp only [List.nil_append, List.head?_cons, Option.some.injEq] at hc
        subst hc
        exact ⟨by unfold Ws Bl; omega, by omega⟩
      | cons x t => exact ht c hc
    have he2 : escaped e (w ++ t ++ 34 :: r) = some (none, t ++ 34 :: r) := by
      have hd := dropWhile_ws w (t ++ 34 :: r) hw fun c hc => (hh c hc).1
      unfold escaped
      rw [if_neg (by omega), if_neg (by omega), if_neg (by omega), if_neg (by omega), if_neg (by omega), if_neg (by omega), if_pos he, List.append_assoc, hd]
      cases hx : t ++ 34 :: r with
      | nil => rfl
      | cons d x =>
        have hd := (hh d (by rw [hx]; rfl)).2
        have : ¬ wild d = true := by
          unfold wild
          simp only [Bool.and_eq_true, decide_eq_true_eq]
          omega
        simp only [this, Bool.false_eq_true, if_false]
    rw [List.cons_append, List.cons_append, quoted, if_pos ⟨rfl, by simp⟩]
    simp only [List.headD_cons, List.tail_cons]
    rw [he2]
    simp only
    rw [ih n _ (by omega)]

theorem quote_ok {p : P} {v t r : Str} (hi : p.inp = 34 :: (t ++ 34 :: r)) (ht : Tight v) (he : Esc v t) (hv : v.length < 18446744073709551616) : p.parseValue = .ok { p with inp := r, value := v } := by
  unfold P.parseValue
  rw [hi]
  simp only [if_true]
  rw [quoted_ok r he _ _ (by simp only [List.length_append, List.length_cons]; omega)]
  have := trim_ok (pre := []) (post := []) (by simp) ht (by simp) (by simpa using hv) (.inl rfl)
  rw [List.nil_append, List.append_nil] at this
  simp only [if_true, this]

/-- A line with a field, up to its value. -/
theorem line_name {p : P} {w n b x : Str} (hw : ∀ c, c ∈ w → Ws c) (hn : Name n) (hb : Bls b) (hi : p.inp = w ++ (n ++ b ++ 61 :: x)) (hl : p.inp.length < 18446744073709551616) {q : P}
    (hv : P.parseValue { p with inp := x, var := n } = .ok q) : p.getNextLine = .ok (true, q) := by
  obtain ⟨ht, h1, h2, h3, c, hc, hc1, hc2, hc3, hc4⟩ := hn
  obtain ⟨n', rfl⟩ : ∃ n', n = c :: n' := by
    cases n with
    | nil => cases hc
    | cons y n' => simp only [List.head?_cons, Option.some.injEq] at hc; exact ⟨n', by rw [hc]⟩
  have e1 : skipNI false p.inp = some (c :: (n' ++ b ++ 61 :: x)) := by
    rw [hi, skipNI_ws w _ hw]
    have := skipNI_stop (n' ++ b ++ 61 :: x) hc1 (ht.1 c hc) hc4
    simpa using this
  have hB := bls_not hb
  obtain ⟨t1, t2⟩ := span_stop (q := fun c => decide (c ≠ 61) && decide (c ≠ 13) && decide (c ≠ 10)) (b := c :: n' ++ b) (c := 61) (r := x)
    (fun y hy => not_stop (not_app h1 hB.2.1) (not_app h2 hB.2.2.1) (not_app h3 hB.2.2.2.1) hy) rfl
  have htr : trim (c :: n' ++ b) = some (c :: n') := by
    have := trim_ok (pre := []) (by simp) ht (bls_ws hb) (by
      rw [hi] at hl
      simp only [List.length_append, List.length_cons, List.length_nil] at hl ⊢
      omega) (.inl rfl)
    simpa using this
  have hx : c :: (n' ++ b ++ 61 :: x) = c :: n' ++ b ++ 61 :: x := by simp
  unfold P.getNextLine
  rw [e1, hx]
  have hy : c :: n' ++ b ++ 61 :: x = c :: (n' ++ b ++ 61 :: x) := by simp
  rw [hy]
  simp only [hc2, hc3, if_false, false_and]
  have hf : P.parseField { p with inp := c :: (n' ++ b ++ 61 :: x) } 61 = .ok q := by
    unfold P.parseField P.parseName
    simp only [hx, t1, t2, if_true, htr]
    exact hv
  rw [hf]

theorem merge_congr (ign : Bool) {p q : P} (h1 : skipNI false p.inp = skipNI false q.inp) (h2 : p.sec = q.sec) (h3 : p.var = q.var) (h4 : p.value = q.value) : ∀ n, mergeLoop ign n p = mergeLoop ign n q
  | 0 => rfl
  | n + 1 => by rw [mergeLoop, mergeLoop, line_congr h1 h2 h3 h4, h2]

theorem skip_congr {p q : P} (h1 : skipNI false p.inp = skipNI false q.inp) (h2 : p.sec = q.sec) (h3 : p.var = q.var) (h4 : p.value = q.value) : ∀ n, 0 < n → skipSection n p = skipSection n q
  | 0, h => absurd h (by omega)
  | n + 1, _ => by rw [skipSection, skipSection, line_congr h1 h2 h3 h4]

theorem comment_ok {w w' t e x : Str} (hw : ∀ c, c ∈ w → Ws c) (hw' : Bls w') (ht : 10 ∉ t) (he : Eol e) : skipNI false (w ++ (w' ++ 35 :: t ++ e ++ x)) = skipNI false x := by
  rw [skipNI_ws w _ hw, List.append_assoc, List.append_assoc, skipNI_ws w' _ (bls_ws hw')]
  rcases he with he | he <;> subst he
  · have : 35 :: t ++ ([10] ++ x) = 35 :: (t ++ 10 :: x) := by simp
    rw [this, skipNI, if_neg (by decide), if_neg (by decide), if_pos rfl]
    exact skipNI_comment t x ht
  · have : 35 :: t ++ ([13, 10] ++ x) = 35 :: ((t ++ [13]) ++ 10 :: x) := by simp
    rw [this, skipNI, if_neg (by decide), if_neg (by decide), if_pos rfl]
    exact skipNI_comment _ x (not_app ht (by simp))

theorem ws_app {a b : Str} (h1 : ∀ c, c ∈ a → Ws c) (h2 : ∀ c, c ∈ b → Ws c) : ∀ c, c ∈ a ++ b → Ws c := by
  intro c hc
  rcases List.mem_append.mp hc with q | q
  · exact h1 c q
  · exact h2 c q

theorem esc_len {v t : Str} (h : Esc v t) : v.length ≤ t.length := by
  induction h <;> simp only [List.length_cons, List.length_append, List.length_nil] <;> omega

/-- A whole line with a field. -/
theorem line_field {p : P} {w w' n b a v c e x : Str} (h : (Line.field w' n b a v c).Wf LeadOk) (he : Eol e) (hw : ∀ c, c ∈ w → Ws c) (hi : p.inp = w ++ (n ++ b ++ 61 :: (a ++ v ++ c) ++ e ++ x))
    (hl : p.inp.length < 18446744073709551616) : p.getNextLine = .ok (true, { p with inp := e.tail ++ x, var := n, value := v }) := by
  obtain ⟨_, hn, hb, ha, hc, ht, h1, h2, h3, hL⟩ := h
  obtain ⟨e0, e1, rfl, he0⟩ : ∃ e0 e1, e = e0 :: e1 ∧ (e0 = 13 ∨ e0 = 10) := by
    rcases he with he | he <;> subst he
    · exact ⟨10, [], rfl, .inr rfl⟩
    · exact ⟨13, [10], rfl, .inl rfl⟩
  refine line_name (x := a ++ v ++ c ++ e0 :: (e1 ++ x)) hw hn hb (by rw [hi]; simp) hl ?_
  refine value_ok (p := { p with inp := a ++ v ++ c ++ e0 :: (e1 ++ x), var := n }) he0 rfl ha hc ht h1 h2 h3 hL ?_
  rw [hi] at hl
  simp only [List.length_append, List.length_cons] at hl ⊢
  omega

theorem line_quote {p : P} {w w' n b v t d x : Str} (h : (Line.quote w' n b v t d).Wf LeadOk) (hw : ∀ c, c ∈ w → Ws c) (hi : p.inp = w ++ (n ++ b ++ 61 :: 34 :: (t ++ 34 :: x)))
    (hl : p.inp.length < 18446744073709551616) : p.getNextLine = .ok (true, { p with inp := x, var := n, value := v }) := by
  obtain ⟨_, hn, hb, _, ht, he⟩ := h
  refine line_name (x := 34 :: (t ++ 34 :: x)) hw hn hb hi hl ?_
  refine quote_ok (p := { p with inp := 34 :: (t ++ 34 :: x), var := n }) rfl ht he ?_
  have := esc_len he
  rw [hi] at hl
  simp only [List.length_append, List.length_cons] at hl
  omega

theorem entry_field {p : P} {n v x : Str} (hn : Name n) : P.entry { p with inp := x, var := n, value := v } = .field p.sec n v := by
  obtain ⟨_, _, _, _, c, hc, _, _, h, _⟩ := hn
  have : ¬ (n.head? = some 46) := by rw [hc]; simpa using h
  simp [P.entry, this]

def WfAll (ls : List (Line × Str)) : Prop := ∀ l, l ∈ ls → l.1.Wf LeadOk ∧ Eol l.2

theorem lines_ok (ign : Bool) : ∀ (ls : List (Line × Str)) (p : P) (w : Str), WfAll ls → (∀ c, c ∈ w → Ws c) → p.inp = w ++ text ls → p.inp.length < 18446744073709551616 → p.sec ≠ [] →
    ∀ n, ls.length < n → mergeLoop ign n p = .ok (eval p.sec ls)
  | [], p, w, _, hw, hi, _, hs, n, hn => by
    obtain ⟨n, rfl⟩ : ∃ m, n = m + 1 := ⟨n - 1, by omega⟩
    have e : skipNI false p.inp = some [] := by
      have := skipNI_ws w [] hw
      rw [hi]; exact this
    have : p.getNextLine = .ok (false, { p with inp := [], sec := [] }) := by unfold P.getNextLine; rw [e]
    rw [mergeLoop, if_neg hs, this]
    cases n with
    | zero => rfl
    | succ n => simp [mergeLoop, eval]
  | (.blank w', e) :: ls, p, w, hf, hw, hi, hl, hs, n, hn => by
    obtain ⟨h1, h2⟩ := hf _ List.mem_cons_self
    rw [eval]
    exact lines_ok ign ls p (w ++ (w' ++ e)) (fun l hl => hf l (List.mem_cons_of_mem _ hl)) (ws_app hw (ws_app (bls_ws h1) (eol_ws h2))) (by rw [hi]; simp [text, Line.text]) hl hs n
      (by rw [List.length_cons] at hn; omega)
  | (.comment w' t, e) :: ls, p, w, hf, hw, hi, hl, hs, n, hn => by
    obtain ⟨⟨h1, h3⟩, h2⟩ := hf _ List.mem_cons_self
    have hi2 : p.inp = w ++ (w' ++ 35 :: t ++ e ++ text ls) := by rw [hi]; simp [text, Line.text]
    rw [eval, merge_congr ign (p := p) (q := { p with inp := text ls }) (by rw [hi2]; exact comment_ok hw h1 h3 h2) rfl rfl rfl]
    refine lines_ok ign ls { p with inp := text ls } [] (fun l hl => hf l (List.mem_cons_of_mem _ hl)) (by simp) rfl ?_ hs n (by rw [List.length_cons] at hn; omega)
    rw [hi2] at hl
    simp only [List.length_append] at hl ⊢
    omega
  | (.sect w' a nm b d, e) :: ls, p, w, hf, hw, hi, hl, hs, n, hn => by
    obtain ⟨h1, h2⟩ := hf _ List.mem_cons_self
    rw [List.length_cons] at hn
    obtain ⟨n, rfl⟩ : ∃ m, n = m + 1 := ⟨n - 1, by omega⟩
    have hi2 : p.inp = (w ++ w') ++ 91 :: (a ++ nm ++ b ++ 93 :: (d ++ e ++ text ls)) := by rw [hi]; simp [text, Line.text]
    rw [mergeLoop, if_neg hs, line_sect h1 (ws_app hw (bls_ws h1.1)) hi2 hl]
    simp only
    rw [lines_ok ign ls { p with inp := d ++ e ++ text ls, sec := nm } (d ++ e) (fun l hl => hf l (List.mem_cons_of_mem _ hl)) (ws_app (bls_ws h1.2.2.2.1) (eol_ws h2)) rfl
      (by rw [hi2] at hl; simp only [List.length_append, List.length_cons] at hl ⊢; omega) h1.2.2.2.2.2.1 n (by omega)]
    rfl
  | (.field w' nm b a v c, e) :: ls, p, w, hf, hw, hi, hl, hs, n, hn => by
    obtain ⟨h1, h2⟩ := hf _ List.mem_cons_self
    rw [List.length_cons] at hn
    obtain ⟨n, rfl⟩ : ∃ m, n = m + 1 := ⟨n - 1, by omega⟩
    have hi2 : p.inp = (w ++ w') ++ (nm ++ b ++ 61 :: (a ++ v ++ c) ++ e ++ text ls) := by rw [hi]; simp [text, Line.text]
    rw [mergeLoop, if_neg hs, line_field h1 h2 (ws_app hw (bls_ws h1.1)) hi2 hl]
    simp only
    rw [lines_ok ign ls { p with inp := e.tail ++ text ls, var := nm, value := v } e.tail (fun l hl => hf l (List.mem_cons_of_mem _ hl)) (fun c hc => eol_ws h2 c (List.mem_of_mem_tail hc)) rfl
      (by rw [hi2] at hl; simp only [List.length_append, List.length_cons, List.length_tail] at hl ⊢; omega) hs n (by omega)]
    simp only [if_true]
    rw [entry_field h1.2.1, eval, if_neg hs]
  | (.quote w' nm b v t d, e) :: ls, p, w, hf, hw, hi, hl, hs, n, hn => by
    obtain ⟨h1, h2⟩ := hf _ List.mem_cons_self
    rw [List.length_cons] at hn
    obtain ⟨n, rfl⟩ : ∃ m, n = m + 1 := ⟨n - 1, by omega⟩
    have hi2 : p.inp = (w ++ w') ++ (nm ++ b ++ 61 :: 34 :: (t ++ 34 :: (d ++ e ++ text ls))) := by rw [hi]; simp [text, Line.text]
    rw [mergeLoop, if_neg hs, line_quote h1 (ws_app hw (bls_ws h1.1)) hi2 hl]
    simp only
    rw [lines_ok ign ls { p with inp := d ++ e ++ text ls, var := nm, value := v } (d ++ e) (fun l hl => hf l (List.mem_cons_of_mem _ hl)) (ws_app (bls_ws h1.2.2.2.1) (eol_ws h2)) rfl
      (by rw [hi2] at hl; simp only [List.length_append, List.length_cons] at hl ⊢; omega) hs n (by omega)]
    simp only [if_true]
    rw [entry_field h1.2.1, eval, if_neg hs]

theorem merge_empty (ign : Bool) {p : P} (h : p.sec = []) : ∀ n, mergeLoop ign n p = .ok []
  | 0 => rfl
  | n + 1 => by rw [mergeLoop, if_pos h]

theorem skip_ok (ign : Bool) : ∀ (ls : List (Line × Str)) (p : P) (w : Str), WfAll ls → (∀ c, c ∈ w → Ws c) → p.inp = w ++ text ls → p.inp.length < 18446744073709551616 → p.sec = [] →
    ∀ n, ls.length < n → ∃ q, skipSection n p = .ok q ∧ ∀ m, ls.length < m → mergeLoop ign m q = .ok (eval [] ls)
  | [], p, w, _, hw, hi, _, hs, n, hn => by
    obtain ⟨n, rfl⟩ : ∃ m, n = m + 1 := ⟨n - 1, by omega⟩
    have e : skipNI false p.inp = some [] := by
      have := skipNI_ws w [] hw
      rw [hi]; exact this
    have : p.getNextLine = .ok (false, { p with inp := [], sec := [] }) := by unfold P.getNextLine; rw [e]
    rw [skipSection, this]
    exact ⟨_, rfl, fun m _ => merge_empty ign rfl m⟩
  | (.blank w', e) :: ls, p, w, hf, hw, hi, hl, hs, n, hn => by
    obtain ⟨h1, h2⟩ := hf _ List.mem_cons_self
    rw [eval]
    obtain ⟨q, hq, hm⟩ := skip_ok ign ls p (w ++ (w' ++ e)) (fun l hl => hf l (List.mem_cons_of_mem _ hl)) (ws_app hw (ws_app (bls_ws h1) (eol_ws h2))) (by rw [hi]; simp [text, Line.text]) hl hs n
      (by rw [List.length_cons] at hn; omega)
    exact ⟨q, hq, fun m h => hm m (by rw [List.length_cons] at h; omega)⟩
  | (.comment w' t, e) :: ls, p, w, hf, hw, hi, hl, hs, n, hn => by
    obtain ⟨⟨h1, h3⟩, h2⟩ := hf _ List.mem_cons_self
    have hi2 : p.inp = w ++ (w' ++ 35 :: t ++ e ++ text ls) := by rw [hi]; simp [text, Line.text]
    rw [eval, skip_congr (p := p) (q := { p with inp := text ls }) (by rw [hi2]; exact comment_ok hw h1 h3 h2) rfl rfl rfl n (by omega)]
    obtain ⟨q, hq, hm⟩ := skip_ok ign ls { p with inp := text ls } [] (fun l hl => hf l (List.mem_cons_of_mem _ hl)) (by simp) rfl
      (by rw [hi2] at hl; simp only [List.length_append] at hl ⊢; omega) hs n (by rw [List.length_cons] at hn; omega)
    exact ⟨q, hq, fun m h => hm m (by rw [List.length_cons] at h; omega)⟩
  | (.sect w' a nm b d, e) :: ls, p, w, hf, hw, hi, hl, hs, n, hn => by
    obtain ⟨h1, h2⟩ := hf _ List.mem_cons_self
    rw [List.length_cons] at hn
    obtain ⟨n, rfl⟩ : ∃ m, n = m + 1 := ⟨n - 1, by omega⟩
    have hi2 : p.inp = (w ++ w') ++ 91 :: (a ++ nm ++ b ++ 93 :: (d ++ e ++ text ls)) := by rw [hi]; simp [text, Line.text]
    rw [skipSection, line_sect h1 (ws_app hw (bls_ws h1.1)) hi2 hl]
    refine ⟨_, rfl, fun m h => ?_⟩
    rw [lines_ok ign ls { p with inp := d ++ e ++ text ls, sec := nm } (d ++ e) (fun l hl => hf l (List.mem_cons_of_mem _ hl)) (ws_app (bls_ws h1.2.2.2.1) (eol_ws h2)) rfl
      (by rw [hi2] at hl; simp only [List.length_append, List.length_cons] at hl ⊢; omega) h1.2.2.2.2.2.1 m (by rw [List.length_cons] at h; omega)]
    rfl
  | (.field w' nm b a v c, e) :: ls, p, w, hf, hw, hi, hl, hs, n, hn => by
    obtain ⟨h1, h2⟩ := hf _ List.mem_cons_self
    rw [List.length_cons] at hn
    obtain ⟨n, rfl⟩ : ∃ m, n = m + 1 := ⟨n - 1, by omega⟩
    have hi2 : p.inp = (w ++ w') ++ (nm ++ b ++ 61 :: (a ++ v ++ c) ++ e ++ text ls) := by rw [hi]; simp [text, Line.text]
    rw [skipSection, line_field h1 h2 (ws_app hw (bls_ws h1.1)) hi2 hl, eval, if_pos rfl]
    obtain ⟨q, hq, hm⟩ := skip_ok ign ls { p with inp := e.tail ++ text ls, var := nm, value := v } e.tail (fun l hl => hf l (List.mem_cons_of_mem _ hl)) (fun c hc => eol_ws h2 c (List.mem_of_mem_tail hc)) rfl
      (by rw [hi2] at hl; simp only [List.length_append, List.length_cons, List.length_tail] at hl ⊢; omega) hs n (by omega)
    exact ⟨q, hq, fun m h => hm m (by rw [List.length_cons] at h; omega)⟩
  | (.quote w' nm b v t d, e) :: ls, p, w, hf, hw, hi, hl, hs, n, hn => by
    obtain ⟨h1, h2⟩ := hf _ List.mem_cons_self
    rw [List.length_cons] at hn
    obtain ⟨n, rfl⟩ : ∃ m, n = m + 1 := ⟨n - 1, by omega⟩
    have hi2 : p.inp = (w ++ w') ++ (nm ++ b ++ 61 :: 34 :: (t ++ 34 :: (d ++ e ++ text ls))) := by rw [hi]; simp [text, Line.text]
    rw [skipSection, line_quote h1 (ws_app hw (bls_ws h1.1)) hi2 hl, eval, if_pos rfl]
    obtain ⟨q, hq, hm⟩ := skip_ok ign ls { p with inp := d ++ e ++ text ls, var := nm, value := v } (d ++ e) (fun l hl => hf l (List.mem_cons_of_mem _ hl)) (ws_app (bls_ws h1.2.2.2.1) (eol_ws h2)) rfl
      (by rw [hi2] at hl; simp only [List.length_append, List.length_cons] at hl ⊢; omega) hs n (by omega)
    exact ⟨q, hq, fun m h => hm m (by rw [List.length_cons] at h; omega)⟩

theorem lines_len : ∀ (ls : List (Line × Str)), (∀ l, l ∈ ls → Eol l.2) → ls.length ≤ (text ls).length
  | [], _ => Nat.zero_le _
  | l :: ls, h => by
    have ih := lines_len ls fun x hx => h x (List.mem_cons_of_mem _ hx)
    have : 0 < l.2.length := by rcases h l List.mem_cons_self with q | q <;> rw [q] <;> decide
    have e : text (l :: ls) = l.1.text ++ l.2 ++ text ls := by simp [text]
    rw [e]
    simp only [List.length_append, List.length_cons]
    omega

/-- C118: every file of well-formed lines, each with its end, gives exactly its fields.  Missing: values and names of sections of one character behind blanks, a last line without end, empty names of
sections, values in quotes behind blanks, commands (violated below). -/
theorem C118_parse_partial (ign : Bool) {ls : List (Line × Str)} (h : WfAll ls) (hl : (text ls).length < 18446744073709551616) : parse ign (text ls) = .ok (eval [] ls) := by
  have hn := lines_len ls fun l hl => (h l hl).2
  obtain ⟨q, hq, hm⟩ := skip_ok ign ls { inp := text ls } [] h (by simp) rfl hl rfl ((text ls).length + 2) (by omega)
  unfold parse
  rw [hq]
  exact hm _ (by omega)

/-! ## Violations -/

/-- The claim in full: no demand on blanks. -/
def Claim118 : Prop := ∀ ls : List (Line × Str), (∀ l, l ∈ ls → l.1.Wf (fun _ _ => True) ∧ Eol l.2) → parse false (text ls) = .ok (eval [] ls)

/-- "[s]\na= 8\n": the value is lost. -/
theorem C118_one_violated : parse false [91, 115, 93, 10, 97, 61, 32, 56, 10] = .ok [.field [115] [97] []] := by decide

theorem C118_violated : ¬ Claim118 := by
  intro h
  have := h [(.sect [] [] [115] [] [], [10]), (.field [] [97] [] [32] [56] [], [10])] (by
    intro l hl
    simp only [List.mem_cons, List.not_mem_nil, or_false] at hl
    rcases hl with rfl | rfl
    · exact ⟨⟨by simp [Bls], by simp [Bls], by simp [Bls], by simp [Bls], ⟨by simp [Ws, Bl], by simp [Ws, Bl]⟩, by simp, by decide, by decide, by decide, trivial⟩, .inl rfl⟩
    · exact ⟨⟨by simp [Bls], ⟨⟨by simp [Ws, Bl], by simp [Ws, Bl]⟩, by decide, by decide, by decide, 97, rfl, by omega, by omega, by omega, by omega⟩, by simp [Bls], by simp [Bls, Bl], by simp [Bls],
        ⟨by simp [Ws, Bl], by simp [Ws, Bl]⟩, by decide, by decide, by decide, trivial⟩, .inl rfl⟩)
  revert this
  decide

/-- "[s]\na=  8\n": two blanks before one character: a section of 2^64-1 characters. -/
theorem C118_two_violated : parse false [91, 115, 93, 10, 97, 61, 32, 32, 56, 10] = .ub := by decide

/-- "[s]\na=12" without the end of the line: the last character is lost. -/
theorem C118_last_violated : parse false [91, 115, 93, 10, 97, 61, 49, 50] = .ok [.field [115] [97] [49]] := by decide

/-- The last character of a file without quotes is lost whenever the last line has no end. -/
theorem C118_last {v : Str} {x : Nat} (h1 : 13 ∉ v) (h2 : 10 ∉ v) : ∀ c, c ≠ 13 → c ≠ 10 → unquoted c (v ++ [x]) = (c :: v, []) := by
  intro c h3 h4
  induction v generalizing c with
  | nil => rw [List.nil_append, unquoted, if_neg (by omega)]; rfl
  | cons d v ih =>
    rw [List.cons_append, unquoted, if_neg (by omega), ih (fun q => h1 (List.mem_cons_of_mem _ q)) (fun q => h2 (List.mem_cons_of_mem _ q)) d
      (fun q => h1 (by rw [q]; exact List.mem_cons_self)) (fun q => h2 (by rw [q]; exact List.mem_cons_self))]

/-- "[]\n[s]\na=12\n": an empty name of a section ends the reading. -/
theorem C118_empty_violated : parse false [91, 93, 10, 91, 115, 93, 10, 97, 61, 49, 50, 10] = .ok [] := by decide

/-- `[s]`, `a = "12"`: quotes behind a blank belong to the value. -/
theorem C118_quotes_violated : parse false [91, 115, 93, 10, 97, 61, 32, 34, 49, 50, 34, 10] = .ok [.field [115] [97] [34, 49, 50, 34]] := by decide

/-- `[s]`, `a=" 12 "`: blanks inside of quotes are lost. -/
theorem C118_inner_violated : parse false [91, 115, 93, 10, 97, 61, 34, 32, 49, 50, 32, 34, 10] = .ok [.field [115] [97] [49, 50]] := by decide

/-- `[s]`, `a="1\"` at the end of the file: the quotes are not closed, no error. -/
theorem C118_open_violated : parse false [91, 115, 93, 10, 97, 61, 34, 49, 92, 34] = .ok [.field [115] [97] [49, 34]] := by decide

/-- `[s]`, `a="1\b2"`: the escape of backspace gives a carriage return. -/
theorem C118_escape_violated : parse false [91, 115, 93, 10, 97, 61, 34, 49, 92, 98, 50, 34, 10] = .ok [.field [115] [97] [49, 13, 50]] := by decide

/-- Errors before the first section are not ignored, behind it they are. -/
theorem C118_ignore_violated : parse true [120, 10, 91, 115, 93, 10, 97, 61, 49, 10] = .error [] ∧ parse true [91, 115, 93, 10, 120, 10, 97, 61, 49, 10] = .ok [.field [115] [97] [49]] := by decide

/-- "[s]\n.include f\na=1\n": the field behind the command falls into the section ".". -/
theorem C118_include_violated : parse false ([91, 115, 93, 10] ++ includeName ++ [32, 102, 10, 97, 61, 49, 10]) = .ok [.incl [102], .field [46] [97] [49]] := by decide

/-- A name that begins with a byte from 128: `isspace` of a negative number. -/
theorem C118_wild_violated : parse false [91, 115, 93, 10, 195, 161, 61, 49, 10] = .ub := by decide

/-! ### Errors -/

theorem run_take {p : Nat → Bool} : ∀ {v : Str} {e : Nat} {r : Str}, (∀ c, c ∈ v → p c = true) → p e = false → (v ++ e :: r).takeWhile p = v ∧ (v ++ e :: r).dropWhile p = e :: r
  | [], e, r, _, h2 => by simp [h2]
  | c :: v, e, r, h1, h2 => by
    have hc := h1 c List.mem_cons_self
    obtain ⟨i1, i2⟩ := run_take (v := v) (e := e) (r := r) (fun d hd => h1 d (List.mem_cons_of_mem _ hd)) h2
    simp [hc, i1, i2]

/-- A section which is not closed in its line. -/
theorem C118_section_error (p : P) {v : Str} (h : ∀ c, c ∈ v → c ≠ 93 ∧ c ≠ 13 ∧ c ≠ 10) {e : Nat} (he : e = 13 ∨ e = 10) (r : Str) (hp : p.inp = 91 :: (v ++ e :: r)) :
    p.getNextLine = .error (false, { p with inp := e :: r }) := by
  obtain ⟨inp, sec, var, value⟩ := p
  subst hp
  obtain ⟨_, i2⟩ := run_take (p := fun c => c ≠ 93 && c ≠ 13 && c ≠ 10) (v := v) (e := e) (r := r) (fun c hc => by
    obtain ⟨a, b, d⟩ := h c hc; simp [a, b, d]) (by rcases he with rfl | rfl <;> rfl)
  have hs : skipNI false (91 :: (v ++ e :: r)) = some (91 :: (v ++ e :: r)) := rfl
  unfold P.getNextLine
  rw [hs]
  have hq : P.parseSection ⟨91 :: (v ++ e :: r), sec, var, value⟩ = .error ⟨e :: r, sec, var, value⟩ := by
    unfold P.parseSection
    simp only [List.tail_cons]
    rw [i2]
    rcases he with rfl | rfl <;> rfl
  simp only [if_true]
  rw [hq]

/-- A line of a field without `=`. -/
theorem C118_separator_error (p : P) {x : Nat} {v : Str} (hx : x < 128 ∧ ¬ Ws x ∧ x ≠ 35 ∧ x ≠ 91 ∧ x ≠ 46) (h : ∀ c, c ∈ x :: v → c ≠ 61 ∧ c ≠ 13 ∧ c ≠ 10) {e : Nat} (he : e = 13 ∨ e = 10) (r : Str)
    (hp : p.inp = x :: (v ++ e :: r)) : p.getNextLine = .error (false, { p with inp := e :: r }) := by
  obtain ⟨inp, sec, var, value⟩ := p
  subst hp
  obtain ⟨_, i2⟩ := run_take (p := fun c => c ≠ 61 && c ≠ 13 && c ≠ 10) (v := x :: v) (e := e) (r := r) (fun c hc => by
    obtain ⟨a, b, d⟩ := h c hc; simp [a, b, d]) (by rcases he with rfl | rfl <;> rfl)
  obtain ⟨x1, x2, x3, x4, x5⟩ := hx
  have hsp : space x = false := by
    cases hq : space x
    · rfl
    · exact absurd ((space_iff x).mp hq) x2
  have hs : skipNI false (x :: (v ++ e :: r)) = some (x :: (v ++ e :: r)) := by
    rw [skipNI, if_neg (by simp [wild]; omega), hsp, if_neg (by simp), if_neg x3]
  have hq : P.parseField ⟨x :: (v ++ e :: r), sec, var, value⟩ 61 = .error ⟨e :: r, sec, var, value⟩ := by
    unfold P.parseField P.parseName
    rw [List.cons_append] at i2
    rw [i2]
    rcases he with rfl | rfl <;> rfl
  unfold P.getNextLine
  rw [hs]
  simp only []
  rw [if_neg x4, if_neg (fun q => x5 q.1), if_neg x5, hq]

theorem quoted_run {e : Nat} (he : e = 13 ∨ e = 10) (r : Str) : ∀ (v : Str) (n : Nat) (nx : Option Nat), (∀ c, c ∈ v → c ≠ 34 ∧ c ≠ 92 ∧ c ≠ 13 ∧ c ≠ 10) → v.length < n →
    quoted n nx (v ++ e :: r) = some (v, some e, r)
  | [], n + 1, nx, _, _ => by
    rw [List.nil_append, quoted, if_neg (by omega), if_pos (.inr he)]
  | c :: v, n + 1, nx, h, hn => by
    obtain ⟨a, b, d, f⟩ := h c List.mem_cons_self
    rw [List.length_cons] at hn
    rw [List.cons_append, quoted, if_neg (fun q => b q.1), if_neg (by omega), quoted_run he r v n (some c) (fun d hd => h d (List.mem_cons_of_mem _ hd)) (by omega)]
  | _, 0, _, _, hn => by omega

/-- Quotes which are not closed in their line; the value stays what it was. -/
theorem C118_quotes_error (p : P) {v : Str} (h : ∀ c, c ∈ v → c ≠ 34 ∧ c ≠ 92 ∧ c ≠ 13 ∧ c ≠ 10) {e : Nat} (he : e = 13 ∨ e = 10) (r : Str) (hp : p.inp = 34 :: (v ++ e :: r)) :
    p.parseValue = .error { p with inp := r } := by
  obtain ⟨inp, sec, var, value⟩ := p
  subst hp
  unfold P.parseValue
  simp only [if_true]
  rw [quoted_run he r v _ _ h (by rw [List.length_append]; omega)]
  simp only []
  rw [if_neg (by rcases he with rfl | rfl <;> decide)]

/-- Concrete case. -/
example : P.parseValue { inp := [34, 97, 98, 13, 10, 120, 61] } = .error { inp := [10, 120, 61] } := by decide

/-- Concrete case. -/
example : parse false ([35, 120, 10, 91, 32, 115, 116, 93, 13, 10, 97, 98, 32, 61, 32, 49, 50, 32, 13, 10, 10, 99, 61, 34, 121, 92, 110, 120, 34, 10, 91, 117, 93, 10, 97, 61, 49, 10]) =
    .ok [.field [115, 116] [97, 98] [49, 50], .field [115, 116] [99] [121, 10, 120], .field [117] [97] [49]] := by decide

end LS.Ini

import Verif.TextPat

/-!
C143: the jumps over parts of a pattern (textParser.tcc:139-191, 585-612), the numbers with a
fraction that use all the room or stop behind the point, and lists that end in a minus.
-/

namespace LS.TextPat

/-- The characters that `skipPattern` does not treat in a special way. -/
def Dull (c : Nat) : Prop := c ≠ 91 ∧ c ≠ 40 ∧ c ≠ 39 ∧ c ≠ 113 ∧ c ≠ 37 ∧ (c < 48 ∨ 57 < c)

theorem skipPattern_dull (u r : Text) (h : ∀ c ∈ u, Dull c) (f : Nat) :
    skipPattern (f + u.length) (u ++ r) = skipPattern f r := by
  induction u with
  | nil => rfl
  | cons c u ih =>
    obtain ⟨h1, h2, h3, h4, h5, h6⟩ := h c (by simp)
    have hd : isDigit c = false := by
      simp only [isDigit, Bool.and_eq_false_iff, decide_eq_false_iff_not]; omega
    have e : f + (c :: u).length = (f + u.length) + 1 := by simp; omega
    rw [e]
    simp only [List.cons_append, skipPattern, beq_eq_false_iff_ne.2 h1, beq_eq_false_iff_ne.2 h2,
      beq_eq_false_iff_ne.2 h3, beq_eq_false_iff_ne.2 h4, beq_eq_false_iff_ne.2 h5, hd,
      Bool.false_eq_true, if_false, Bool.or_self]
    exact ih (fun d hd => h d (List.mem_cons_of_mem _ hd))

theorem skipRange_to (t r : Text) (h : 41 ∉ t) : skipRange (t ++ 41 :: r) = r := by
  induction t with
  | nil => simp [skipRange]
  | cons c t ih =>
    have h1 : c ≠ 41 := fun e => h (by simp [e])
    simp only [List.cons_append, skipRange, beq_eq_false_iff_ne.2 h1, Bool.false_eq_true, if_false]
    exact ih (fun hc => h (List.mem_cons_of_mem _ hc))

/-- The list ends at the first `]`, when no range ends in one. -/
theorem skipListLoop_to : ∀ (n : Nat) (t r : Text), t.length ≤ n → 93 ∉ t →
    (∀ a b, t = a ++ [45] ++ b → b ≠ []) → skipListLoop (t ++ 93 :: r) = .next r
  | n, [], r, _, _, _ => by
    rcases r with _ | ⟨y, _ | ⟨z, r⟩⟩ <;> simp [skipListLoop]
  | 0, _ :: _, _, hn, _, _ => by simp at hn
  | n + 1, [x], r, _, h, hr => by
    have hx : (x == 93) = false := beq_eq_false_iff_ne.2 (fun e => h (by simp [e]))
    cases r with
    | nil =>
      show skipListLoop [x, 93] = _
      simp [skipListLoop, hx]
    | cons y r =>
      show skipListLoop (x :: 93 :: y :: r) = _
      rw [skipListLoop.eq_4]
      simp only [hx, Bool.false_eq_true, if_false]
      exact skipListLoop_to n [] (y :: r) (by simp) (by simp) (by simp)
  | n + 1, [x, y], r, hn, h, hr => by
    have hx : (x == 93) = false := beq_eq_false_iff_ne.2 (fun e => h (by simp [e]))
    have hy : (y == 45) = false := by
      refine beq_eq_false_iff_ne.2 (fun e => ?_)
      exact hr [x] [] (by simp [e]) rfl
    show skipListLoop (x :: y :: 93 :: r) = _
    rw [skipListLoop.eq_4]
    simp only [hx, hy, Bool.false_eq_true, if_false]
    refine skipListLoop_to n [y] r (by simp at hn ⊢; omega) (fun hc => h (List.mem_cons_of_mem _ hc)) ?_
    intro a b e
    exact hr (x :: a) b (by simp [e])
  | n + 1, x :: y :: z :: t, r, hn, h, hr => by
    have hx : (x == 93) = false := beq_eq_false_iff_ne.2 (fun e => h (by simp [e]))
    show skipListLoop (x :: y :: z :: (t ++ 93 :: r)) = _
    rw [skipListLoop.eq_4]
    simp only [hx, Bool.false_eq_true, if_false]
    by_cases hy : y = 45
    · simp only [hy, beq_self_eq_true, if_true]
      refine skipListLoop_to n t r (by simp at hn ⊢; omega) (fun hc => h (by simp [hc])) ?_
      intro a b e
      exact hr (x :: y :: z :: a) b (by simp [e])
    · simp only [beq_eq_false_iff_ne.2 hy, Bool.false_eq_true, if_false]
      refine skipListLoop_to n (y :: z :: t) r (by simp at hn ⊢; omega)
        (fun hc => h (List.mem_cons_of_mem _ hc)) ?_
      intro a b e
      exact hr (x :: a) b (by simp [e])

/-- C143: the jump over a field. Commands, a range, a list and a quoting in front of the number are
jumped over; the jump ends behind the `%` that closes the field, or behind the one digit. Missing: numbers
of two digits, on which it never ends (`C143_skip_violated`). -/
theorem C143_jump_partial (u r : Text) (hu : ∀ c ∈ u, Dull c) :
    (∀ f, skipPattern (f + 1 + u.length) (u ++ 37 :: r) = .next r) ∧
    (∀ f d, 48 ≤ d → d ≤ 57 →
      skipPattern (f + 1 + u.length) (u ++ d :: 37 :: r) = .next r ∧
      ∀ q, q ≠ 37 → (q < 48 ∨ 57 < q) →
        skipPattern (f + 1 + u.length) (u ++ d :: q :: r) = .next (q :: r)) ∧
    (∀ f t, 41 ∉ t → skipPattern (f + 1 + u.length) (u ++ 40 :: (t ++ 41 :: r)) = skipPattern f r) ∧
    (∀ f q e, skipPattern (f + 1 + u.length) (u ++ 39 :: q :: e :: r) = skipPattern f r) ∧
    (∀ f a t, a ≠ 42 → a ≠ 94 → a ≠ 93 → 93 ∉ t → (∀ x y, t = x ++ [45] ++ y → y ≠ []) →
      skipPattern (f + 1 + u.length) (u ++ 91 :: a :: (t ++ 93 :: r)) = skipPattern f r) := by
  refine ⟨?_, ?_, ?_, ?_, ?_⟩
  · intro f
    rw [skipPattern_dull u _ hu]; simp [skipPattern]
  · intro f d h1 h2
    have e1 : (d == 91) = false := by simp; omega
    have e2 : (d == 40) = false := by simp; omega
    have e3 : (d == 39) = false := by simp; omega
    have e4 : (d == 113) = false := by simp; omega
    have e5 : (d == 37) = false := by simp; omega
    have e6 : isDigit d = true := by simp [isDigit, h1, h2]
    refine ⟨?_, ?_⟩
    · rw [skipPattern_dull u _ hu]
      simp [skipPattern, e1, e2, e3, e4, e5, e6]
    · intro q hq hq2
      have e7 : isDigit q = false := by
        simp only [isDigit, Bool.and_eq_false_iff, decide_eq_false_iff_not]; omega
      rw [skipPattern_dull u _ hu]
      simp [skipPattern, e1, e2, e3, e4, e5, e6, e7, hq]
  · intro f t ht
    rw [skipPattern_dull u _ hu]
    simp [skipPattern, skipRange_to t r ht]
  · intro f q e
    rw [skipPattern_dull u _ hu]
    simp [skipPattern]
  · intro f a t h1 h2 h3 ht hr
    rw [skipPattern_dull u _ hu]
    simp only [skipPattern, skipList, beq_self_eq_true, if_true, beq_eq_false_iff_ne.2 h1,
      beq_eq_false_iff_ne.2 h2, beq_eq_false_iff_ne.2 h3, Bool.or_self, Bool.false_eq_true, if_false,
      skipListLoop_to _ t r (Nat.le_refl _) ht hr]

example : skipPattern 20 ("[a-z](1,2)d%rest".toList.map Char.toNat) = .next ("rest".toList.map Char.toNat) ∧
    skipPattern 20 ("[*^a]3,x".toList.map Char.toNat) = .next (",x".toList.map Char.toNat) := by
  decide +kernel

/-- C143 is violated: a list ends at the first `]` when it is read, but not when it is jumped over: there
a range takes the `]` as its end. The pattern `%<x%[ab-]1%%|z%>` reads `xb` and does not read `z`. -/
theorem C143_list_end_violated :
    skipList ("ab-]1%%|z%>".toList.map Char.toNat) ≠ .next (listRest ("ab-]1%%|z%>".toList.map Char.toNat)).2 ∧
    (scan ⟨[10], []⟩ ("%<x%[ab-]1%%|z%>".toList.map Char.toNat) ("xb".toList.map Char.toNat)).ans = .yes ∧
    (scan ⟨[10], []⟩ ("%<x%[ab-]1%%|z%>".toList.map Char.toNat) ("z".toList.map Char.toNat)).ans ≠ .yes ∧
    (scan ⟨[10], []⟩ ("%<x%[ab]1%%|z%>".toList.map Char.toNat) ("z".toList.map Char.toNat)).ans = .yes := by
  decide +kernel

theorem skipClose_plain (u r : Text) (h : ∀ c ∈ u, c ≠ 37) (f d : Nat) :
    skipClose (f + u.length) d (u ++ r) = skipClose f d r := by
  induction u with
  | nil => rfl
  | cons c u ih =>
    have e1 : (c == 37) = false := by simpa using h c (by simp)
    have e : f + (c :: u).length = (f + u.length) + 1 := by simp; omega
    rw [e]
    simp only [List.cons_append, skipClose, e1, Bool.false_eq_true, if_false]
    exact ih (fun d hd => h d (List.mem_cons_of_mem _ hd))

/-- Alternatives in alternatives: plain words, `%|`, `%%` and nested alternatives. -/
inductive Alt where
  | ch (c : Nat)
  | bar
  | pct
  | nest (l : List Alt)

mutual
/-- The text of one part. -/
def Alt.text : Alt → Text
  | .ch c => [c]
  | .bar => [37, 124]
  | .pct => [37, 37]
  | .nest l => 37 :: 60 :: (altsText l ++ [37, 62])
/-- The text of many. -/
def altsText : List Alt → Text
  | [] => []
  | a :: l => a.text ++ altsText l
end

mutual
/-- Plain characters are not `%`. -/
def Alt.Ok : Alt → Prop
  | .ch c => c ≠ 37
  | .nest l => altsOk l
  | _ => True
def altsOk : List Alt → Prop
  | [] => True
  | a :: l => a.Ok ∧ altsOk l
end

mutual
theorem skipClose_alt : ∀ (a : Alt), a.Ok → ∀ (f d : Nat) (r : Text),
    ∃ k, k ≤ a.text.length ∧ skipClose (f + k) d (a.text ++ r) = skipClose f d r
  | .ch c, h, f, d, r => by
    have h : c ≠ 37 := by simpa [Alt.Ok] using h
    exact ⟨1, by simp [Alt.text], by simp [Alt.text, skipClose, h]⟩
  | .bar, _, f, d, r => ⟨1, by simp [Alt.text], by simp [Alt.text, skipClose]⟩
  | .pct, _, f, d, r => ⟨1, by simp [Alt.text], by simp [Alt.text, skipClose]⟩
  | .nest l, h, f, d, r => by
    have h : altsOk l := by simpa [Alt.Ok] using h
    obtain ⟨k, hk, e⟩ := skipClose_alts l h (f + 1) (d + 1) (37 :: 62 :: r)
    refine ⟨k + 3, by simp [Alt.text]; omega, ?_⟩
    have e1 : f + (k + 3) = (f + 1 + k) + 1 + 1 := by omega
    rw [e1]
    simp only [Alt.text, List.cons_append, List.append_assoc, List.nil_append, skipClose]
    simp only [skipClose] at e
    simpa using e
theorem skipClose_alts : ∀ (l : List Alt), altsOk l → ∀ (f d : Nat) (r : Text),
    ∃ k, k ≤ (altsText l).length ∧ skipClose (f + k) d (altsText l ++ r) = skipClose f d r
  | [], _, f, d, r => ⟨0, by simp, by simp [altsText]⟩
  | a :: l, h, f, d, r => by
    have h : a.Ok ∧ altsOk l := by simpa [altsOk] using h
    obtain ⟨k, hk, e⟩ := skipClose_alts l h.2 f d r
    obtain ⟨k2, hk2, e2⟩ := skipClose_alt a h.1 (f + k) d (altsText l ++ r)
    refine ⟨k + k2, by simp [altsText]; omega, ?_⟩
    simp only [altsText, List.append_assoc]
    rw [← Nat.add_assoc, e2, e]
end

/-- More fuel does not change where the jump ends. -/
theorem skipClose_more : ∀ (f : Nat) (d : Nat) (p r : Text), skipClose f d p = .close r →
    skipClose (f + 1) d p = .close r := by
  intro f
  induction f with
  | zero => intro d p r h; simp [skipClose] at h
  | succ f ih =>
    intro d p r h
    cases p with
    | nil => simpa [skipClose] using h
    | cons c p =>
      by_cases hc : c = 37
      · subst hc
        cases p with
        | nil => simpa [skipClose] using h
        | cons e p =>
          by_cases h1 : e = 37
          · subst h1; simp only [skipClose, beq_self_eq_true, if_true] at h ⊢; exact ih _ _ _ h
          by_cases h2 : e = 124
          · subst h2
            simp only [skipClose, beq_self_eq_true, if_true, beq_eq_false_iff_ne.2 h1, Bool.false_eq_true, if_false] at h ⊢
            exact ih _ _ _ h
          by_cases h3 : e = 62
          · subst h3
            simp only [skipClose, beq_self_eq_true, if_true, beq_eq_false_iff_ne.2 h1, beq_eq_false_iff_ne.2 h2, Bool.false_eq_true, if_false] at h ⊢
            split at h
            next hd => rw [if_pos hd]; exact h
            next hd => rw [if_neg hd]; exact ih _ _ _ h
          by_cases h4 : e = 60
          · subst h4
            simp only [skipClose, beq_self_eq_true, if_true, beq_eq_false_iff_ne.2 h1, beq_eq_false_iff_ne.2 h2, beq_eq_false_iff_ne.2 h3, Bool.false_eq_true, if_false] at h ⊢
            exact ih _ _ _ h
          simp only [skipClose, beq_self_eq_true, if_true, beq_eq_false_iff_ne.2 h1, beq_eq_false_iff_ne.2 h2, beq_eq_false_iff_ne.2 h3, beq_eq_false_iff_ne.2 h4, Bool.false_eq_true, if_false] at h ⊢
          cases hs : skipPattern ((e :: p).length + 1) (e :: p) with
          | next q => rw [hs] at h; exact ih _ _ _ h
          | close q => rw [hs] at h; exact h
          | exn => rw [hs] at h; exact h
          | hang => rw [hs] at h; exact h
      · simp only [skipClose, beq_eq_false_iff_ne.2 hc, Bool.false_eq_true, if_false] at h ⊢
        exact ih _ _ _ h

/-- C143: the jump behind the end of the alternatives counts the nested ones: it ends behind the `%>` of its own
alternatives, whatever is nested in them. -/
theorem C143_nested (l : List Alt) (h : altsOk l) (r : Text) (f : Nat)
    (hf : (altsText l).length < f) : skipClose f 0 (altsText l ++ 37 :: 62 :: r) = .close r := by
  obtain ⟨k, hk, e⟩ := skipClose_alts l h 1 0 (37 :: 62 :: r)
  have e : skipClose (1 + k) 0 (altsText l ++ 37 :: 62 :: r) = .close r := by
    rw [e]; simp [skipClose]
  obtain ⟨n, rfl⟩ : ∃ n, f = 1 + k + n := ⟨f - (1 + k), by omega⟩
  clear hf
  induction n with
  | zero => exact e
  | succ n ih => exact skipClose_more _ _ _ _ ih

example : altsText [.ch 97, .nest [.ch 98, .bar, .ch 99], .bar, .ch 100] =
    "a%<b%|c%>%|d".toList.map Char.toNat ∧
    (scan ⟨[10], []⟩ ("%<a%|b%<c%|d%>e%>f".toList.map Char.toNat) ("af".toList.map Char.toNat)).ans = .yes := by
  decide +kernel

/-- C143: a number that stops behind its point is refused, and the point is taken. -/
theorem C143_point (max m : Nat) (src rest : Text) (st st' : St)
    (h : number 10 max true src st = (some m, 46 :: rest, st')) (hm : m ≠ 0)
    (hr : m = 1 ∨ rest = []) : float max src st = (false, rest, st'.add 46) := by
  have h0 : (m == 0) = false := beq_eq_false_iff_ne.2 hm
  unfold float
  rw [h]
  simp only [h0, Bool.false_eq_true, if_false, beq_self_eq_true, if_true]
  rcases hr with rfl | rfl <;> simp

example : float 100 ("5.".toList.map Char.toNat) ⟨[], []⟩ = (false, [], ⟨"5.".toList.map Char.toNat, []⟩) := by
  decide +kernel

/-- C143: a whole number that uses all the room is accepted, and nothing behind it is read. -/
theorem C143_room (max : Nat) (src rest : Text) (st st' : St)
    (h : number 10 max true src st = (some 0, rest, st')) : float max src st = (true, rest, st') := by
  unfold float
  rw [h]
  simp

example : number 10 2 true ("12.5".toList.map Char.toNat) ⟨[], []⟩ =
      (some 0, ".5".toList.map Char.toNat, ⟨"12".toList.map Char.toNat, []⟩) ∧
    float 2 ("12.5".toList.map Char.toNat) ⟨[], []⟩ =
      (true, ".5".toList.map Char.toNat, ⟨"12".toList.map Char.toNat, []⟩) := by decide +kernel

/-- C143: a list that ends in a minus allows the minus. -/
theorem C143_minus (p a : Nat) : (inList true p [a, 45] = true ↔ p = a ∨ p = 45) ∧
    (inList false p [a, 45] = false ↔ p = a ∨ p = 45) := by
  constructor <;> simp [inList] <;> grind

example : (scan ⟨[10], []⟩ ("%[a-]1%%".toList.map Char.toNat) ("a--".toList.map Char.toNat)).ans = .yes := by
  decide +kernel

theorem searched_loop (k : Text → St → Out) (ok : Nat → Bool) (lo hi : Nat) (st : St) (s : Text) (o : Out)
    (hn : o.ans ≠ .no) : ∀ (v u : Text), v ≠ [] → (∀ c ∈ v, ok c = true) → (u ++ v).length ≤ hi →
    lo ≤ (u ++ v).length →
    (∀ u' v', u ++ v = u' ++ v' → v' ≠ [] → lo ≤ u'.length →
      ∃ src' d, k (v' ++ s) ⟨st.data ++ u', st.frags⟩ = ⟨.no, src', ⟨st.data ++ u' ++ d, st.frags⟩⟩) →
    k s ⟨st.data ++ (u ++ v), st.frags⟩ = o →
    listLoop k ok true st.data.length lo hi (v ++ s) ⟨st.data ++ u, st.frags⟩ = o := by
  intro v
  induction v with
  | nil => intro u h; exact absurd rfl h
  | cons c v ih =>
    intro u _ hok hhi hlo hfail hk
    have e0 : diff (st.data ++ u).length st.data.length = u.length := by simp [diff]
    have e1 : diff ((st.data ++ u) ++ [c]).length st.data.length = u.length + 1 := by
      simp [diff]
    have hlen : (u ++ c :: v).length = u.length + 1 + v.length := by simp; omega
    have h1 : u.length < hi := by omega
    have hc : ok c = true := hok c (by simp)
    have ea : St.add ⟨st.data ++ u, st.frags⟩ c = ⟨st.data ++ (u ++ [c]), st.frags⟩ := by simp [St.add]
    have e2 : diff (st.data ++ (u ++ [c])).length st.data.length = u.length + 1 := by rw [← e1]; simp
    have eb : u ++ c :: v = (u ++ [c]) ++ v := by simp
    simp only [List.cons_append, listLoop, ea, e0, e2, h1, hc, decide_true, Bool.and_self, if_true, Bool.true_and,
      decide_eq_true_eq]
    cases v with
    | nil =>
      have : lo ≤ u.length + 1 := by simpa using hlo
      simp only [this, if_true, List.nil_append]
      have hk : k s ⟨st.data ++ (u ++ [c]), st.frags⟩ = o := hk
      rw [hk]
      simp [hn]
    | cons c2 v =>
      have ih' := ih (u ++ [c]) (by simp) (fun x hx => hok x (List.mem_cons_of_mem _ hx)) (by rw [← eb]; exact hhi)
        (by rw [← eb]; exact hlo) (by rw [← eb]; exact hfail) (by rw [← eb]; exact hk)
      by_cases hl : lo ≤ u.length + 1
      · obtain ⟨src', d, hf⟩ := hfail (u ++ [c]) (c2 :: v) eb (by simp) (by simpa using hl)
        simp only [hl, if_true]
        rw [hf]
        simp only [beq_self_eq_true, if_true, cut]
        rw [List.take_left]
        exact ih'
      · simp only [hl, if_false]
        exact ih'

/-- C143: a searched list. The rest of the pattern is tried behind every character from the lower limit on; the first
place where it does not fail counts, and the attempts before it leave nothing in the data. -/
theorem C143_searched (k : Text → St → Out) (ok : Nat → Bool) (lo hi : Nat) (st : St) (w s : Text) (o : Out)
    (hn : o.ans ≠ .no) (hok : ∀ c ∈ w, ok c = true) (hhi : w.length ≤ hi) (hlo : lo ≤ w.length)
    (hfail : ∀ u v, w = u ++ v → v ≠ [] → lo ≤ u.length →
      ∃ src' d, k (v ++ s) ⟨st.data ++ u, st.frags⟩ = ⟨.no, src', ⟨st.data ++ u ++ d, st.frags⟩⟩)
    (hk : k s ⟨st.data ++ w, st.frags⟩ = o) : charList k ok true lo hi (w ++ s) st = o := by
  have hst : st = ⟨st.data ++ [], st.frags⟩ := by cases st; simp
  unfold charList
  cases w with
  | nil =>
    have h0 : lo = 0 := by simpa using hlo
    rw [← hst] at hk
    subst h0
    simp only [Bool.true_and, beq_self_eq_true, if_true, List.nil_append]
    rw [hk]
    simp [hn]
  | cons c w =>
    have main := searched_loop k ok lo hi st s o hn (c :: w) [] (by simp) hok hhi hlo hfail hk
    rw [← hst] at main
    by_cases h0 : lo = 0
    · subst h0
      obtain ⟨src', d, hf⟩ := hfail [] (c :: w) rfl (by simp) (by simp)
      rw [← hst] at hf
      simp only [Bool.true_and, beq_self_eq_true, if_true]
      rw [hf]
      simp only [beq_self_eq_true, if_true, cut, List.append_nil]
      rw [List.take_left]
      exact main
    · simp only [Bool.true_and, beq_eq_false_iff_ne.2 h0, Bool.false_eq_true, if_false]
      exact main

example : (scan ⟨[10], []⟩ ("%[*a-z]1x%[0-9]2;".toList.map Char.toNat) ("axbx12;".toList.map Char.toNat)).ans = .yes ∧
    field (scan ⟨[10], []⟩ ("%[*a-z]1x%[0-9]2;".toList.map Char.toNat) ("axbx12;".toList.map Char.toNat)).st 1 =
      some ("axb".toList.map Char.toNat) ∧
    field (scan ⟨[10], []⟩ ("%[*a-z]1x%[0-9]2;".toList.map Char.toNat) ("axbx12;".toList.map Char.toNat)).st 2 =
      some ("12".toList.map Char.toNat) := by
  decide +kernel

end LS.TextPat

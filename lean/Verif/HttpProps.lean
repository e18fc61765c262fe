import Verif.Http
/-
C115: chunked bodies.  C116: bodies of known length and bodies until the end.  C117: heads.
-/
namespace LS.Http

/-! ## Chunked bodies as RFC 7230 (section 4.1) has them -/

/-- The value of a hexadecimal digit. -/
def hexDigit (c : Nat) : Option Nat :=
  if 48 ≤ c ∧ c ≤ 57 then some (c - 48)
  else if 65 ≤ c ∧ c ≤ 70 then some (c - 55)
  else if 97 ≤ c ∧ c ≤ 102 then some (c - 87)
  else none

def hexFold (v : Nat) (h : Str) : Nat := h.foldl (fun v c => 16 * v + (hexDigit c).getD 0) v

/-- `h` is a hexadecimal number with the value `n`. -/
def HexNum (h : Str) (n : Nat) : Prop := h ≠ [] ∧ (∀ c, c ∈ h → (hexDigit c).isSome = true) ∧ hexFold 0 h = n

/-- Extension of a chunk: nothing, or a semicolon and more on the same line. -/
def Ext (e : Str) : Prop := (e = [] ∨ e.head? = some 59) ∧ 10 ∉ e

/-- What is sent, the body, what follows the body.  `Ok` restricts the sizes, `Tr` the trailer. -/
inductive Chunked (Ok : Str → Prop) (Tr : List Str → Prop) : Str → Str → Str → Prop
  | last {z ext rest : Str} {tr : List Str} : HexNum z 0 → Ok z → Ext ext → Tr tr → (∀ l, l ∈ tr → l ≠ [] ∧ 10 ∉ l) →
      Chunked Ok Tr (z ++ ext ++ crlf ++ (tr.flatMap (· ++ crlf)) ++ crlf ++ rest) [] rest
  | chunk {h ext d w body rest : Str} {n : Nat} : HexNum h n → Ok h → Ext ext → 0 < n → d.length = n → Chunked Ok Tr w body rest →
      Chunked Ok Tr (h ++ ext ++ crlf ++ d ++ crlf ++ w) (d ++ body) rest

/-- No small letter between the first and the last digit. -/
def Good (h : Str) : Prop := ∀ c, c ∈ h.dropLast.tail → c < 97

/-! ## Calls -/

inductive Op where
  | has
  | peek
  | next
deriving DecidableEq, Repr

inductive Ev where
  | has (b : Bool)
  | peek (x : Option Nat)
  | next (x : Option Nat)
  /-- after the end was reported: input that is left -/
  | left (l : Str)
  /-- does not return, or undefined -/
  | bad
deriving DecidableEq, Repr

/-- Calls on a plain list until the end is reported. -/
def plainStop (rest : Str) : Str → List Op → List Ev
  | _, [] => []
  | [], .has :: _ => [.has false, .left rest]
  | [], .peek :: _ => [.peek none, .left rest]
  | [], .next :: _ => [.next none, .left rest]
  | x :: t, .has :: os => .has true :: plainStop rest (x :: t) os
  | x :: t, .peek :: os => .peek (some x) :: plainStop rest (x :: t) os
  | x :: t, .next :: os => .next (some x) :: plainStop rest t os

/-- Calls on a response until the end is reported. -/
def runStop : Resp → List Op → List Ev
  | _, [] => []
  | s, .has :: os =>
    match s.hasItems with
    | .ok true s => .has true :: runStop s os
    | .ok false s => [.has false, .left s.inp]
    | _ => [.bad]
  | s, .peek :: os =>
    match s.peek with
    | .ok x s => .peek (some x) :: runStop s os
    | .thrown s => [.peek none, .left s.inp]
    | _ => [.bad]
  | s, .next :: os =>
    match s.getNext with
    | .ok x s => .next (some x) :: runStop s os
    | .thrown s => [.next none, .left s.inp]
    | _ => [.bad]

/-- Calls on a plain list. -/
def plain : Str → List Op → List Ev
  | _, [] => []
  | t, .has :: os => .has (!t.isEmpty) :: plain t os
  | t, .peek :: os => .peek t.head? :: plain t os
  | t, .next :: os => .next t.head? :: plain t.tail os

/-- Calls on a response. -/
def run : Resp → List Op → List Ev
  | _, [] => []
  | s, .has :: os =>
    match s.hasItems with
    | .ok b s => .has b :: run s os
    | _ => [.bad]
  | s, .peek :: os =>
    match s.peek with
    | .ok x s => .peek (some x) :: run s os
    | .thrown s => .peek none :: run s os
    | _ => [.bad]
  | s, .next :: os =>
    match s.getNext with
    | .ok x s => .next (some x) :: run s os
    | .thrown s => .next none :: run s os
    | _ => [.bad]

/-! ## Numbers -/

theorem hexFold_ge (h : Str) : ∀ v, v ≤ hexFold v h := by
  induction h with
  | nil => intro v; exact Nat.le_refl v
  | cons c h ih =>
    intro v
    have := ih (16 * v + (hexDigit c).getD 0)
    have e : hexFold v (c :: h) = hexFold (16 * v + (hexDigit c).getD 0) h := rfl
    rw [e]; omega

theorem hexFold_cons (v c : Nat) (h : Str) : hexFold v (c :: h) = hexFold (16 * v + (hexDigit c).getD 0) h := rfl

theorem hexFold_append (v : Nat) (a b : Str) : hexFold v (a ++ b) = hexFold (hexFold v a) b := List.foldl_append

theorem hexDigit_cases {c : Nat} (h : (hexDigit c).isSome = true) :
    (48 ≤ c ∧ c ≤ 57 ∧ (hexDigit c).getD 0 = c - 48) ∨ (65 ≤ c ∧ c < 71 ∧ (hexDigit c).getD 0 = c - 65 + 10) ∨ (97 ≤ c ∧ c < 103 ∧ (hexDigit c).getD 0 = c - 97 + 10) := by
  unfold hexDigit at h ⊢
  by_cases h1 : 48 ≤ c ∧ c ≤ 57
  · simp only [h1, and_self, if_true, Option.getD_some, true_and, true_or]
  · by_cases h2 : 65 ≤ c ∧ c ≤ 70
    · simp only [h1, if_false, h2, and_self, if_true, Option.getD_some]
      exact .inr (.inl ⟨trivial, by omega, by omega⟩)
    · by_cases h3 : 97 ≤ c ∧ c ≤ 102
      · simp only [h1, if_false, h2, h3, and_self, if_true, Option.getD_some]
        exact .inr (.inr ⟨trivial, by omega, by omega⟩)
      · simp [h1, h2, h3] at h

/-- One step of the second loop. -/
theorem parseRest_cons {c v : Nat} {cs : Str} (h : (hexDigit c).isSome = true) (hv : 16 * v + (hexDigit c).getD 0 < 18446744073709551616) :
    parseRest 16 v (c :: cs) = if c < 97 then parseRest 16 (16 * v + (hexDigit c).getD 0) cs else 16 * v + (hexDigit c).getD 0 := by
  rcases hexDigit_cases h with ⟨h1, h2, h3⟩ | ⟨h1, h2, h3⟩ | ⟨h1, h2, h3⟩
  · rw [h3] at hv ⊢
    rw [parseRest, if_pos (by omega), if_pos (by omega), Nat.mul_comm v 16, Nat.mod_eq_of_lt hv]
  · rw [h3] at hv ⊢
    rw [parseRest, if_neg (by omega), if_pos (by omega), if_pos (by omega), Nat.mul_comm v 16, Nat.mod_eq_of_lt hv]
  · rw [h3] at hv ⊢
    rw [parseRest, if_neg (by omega), if_neg (by omega), if_pos (by omega), if_neg (by omega), Nat.mul_comm v 16, Nat.mod_eq_of_lt hv]

theorem parseRest_ext {v : Nat} {e : Str} (he : Ext e) : parseRest 16 v e = v := by
  rcases he.1 with rfl | h
  · rfl
  · cases e with
    | nil => cases h
    | cons c e =>
      simp only [List.head?_cons, Option.some.injEq] at h
      subst h
      rfl

/-- The second loop reads a part `a`; all when no small letter is in front of the last digit. -/
theorem parseRest_part {e : Str} (he : Ext e) : ∀ (h : Str) (v : Nat), (∀ c, c ∈ h → (hexDigit c).isSome = true) → hexFold v h < 18446744073709551616 →
    ∃ a b, h = a ++ b ∧ parseRest 16 v (h ++ e) = hexFold v a ∧ ((∀ c, c ∈ h.dropLast → c < 97) ↔ b = [])
  | [], v, _, _ => ⟨[], [], rfl, parseRest_ext he, by simp⟩
  | c :: h, v, hd, hv => by
    rw [hexFold_cons] at hv
    have h1 := hexFold_ge h (16 * v + (hexDigit c).getD 0)
    have hc := hd c List.mem_cons_self
    rw [List.cons_append, parseRest_cons hc (by omega)]
    by_cases h97 : c < 97
    · rw [if_pos h97]
      obtain ⟨a, b, h2, h3, h4⟩ := parseRest_part he h _ (fun c hc => hd c (List.mem_cons_of_mem _ hc)) hv
      refine ⟨c :: a, b, by rw [h2]; rfl, by rw [h3]; rfl, ?_⟩
      rw [← h4]
      cases h with
      | nil => simp
      | cons c' h =>
        rw [List.dropLast_cons_cons]
        constructor
        · intro q d hd; exact q d (List.mem_cons_of_mem _ hd)
        · intro q d hd
          rcases List.mem_cons.mp hd with rfl | hd
          · exact h97
          · exact q d hd
    · rw [if_neg h97]
      refine ⟨[c], h, rfl, rfl, ?_⟩
      cases h with
      | nil => simp
      | cons c' h =>
        constructor
        · intro q
          exact absurd (q c (by rw [List.dropLast_cons_cons]; exact List.mem_cons_self)) h97
        · intro q; cases q

theorem parseFirst_cons {c : Nat} {cs : Str} (h : (hexDigit c).isSome = true) : parseFirst 16 (c :: cs) = some ((hexDigit c).getD 0, cs) := by
  rcases hexDigit_cases h with ⟨h1, h2, h3⟩ | ⟨h1, h2, h3⟩ | ⟨h1, h2, h3⟩
  · rw [parseFirst, if_pos (by omega), h3]
  · rw [parseFirst, if_neg (by omega), if_pos (by omega), h3]
  · rw [parseFirst, if_neg (by omega), if_neg (by omega), if_pos (by omega), h3]

theorem parse_part {h e : Str} {n : Nat} (hh : HexNum h n) (hn : n < 18446744073709551616) (he : Ext e) :
    ∃ a b, h = a ++ b ∧ parseNumber (h ++ e) 16 = hexFold 0 a ∧ (Good h ↔ b = []) := by
  obtain ⟨h0, hd, rfl⟩ := hh
  cases h with
  | nil => exact absurd rfl h0
  | cons c h =>
    have hc := hd c List.mem_cons_self
    rw [hexFold_cons, Nat.mul_zero, Nat.zero_add] at hn
    obtain ⟨a, b, h1, h2, h3⟩ := parseRest_part he h _ (fun c hc => hd c (List.mem_cons_of_mem _ hc)) hn
    refine ⟨c :: a, b, by rw [h1]; rfl, ?_, ?_⟩
    · rw [List.cons_append, parseNumber, parseFirst_cons hc]
      simp only
      rw [h2, hexFold_cons, Nat.mul_zero, Nat.zero_add]
    · rw [← h3]
      unfold Good
      cases h with
      | nil => simp
      | cons c' h => rw [List.dropLast_cons_cons]; rfl

theorem parse_good {h e : Str} {n : Nat} (hh : HexNum h n) (hn : n < 18446744073709551616) (he : Ext e) (hg : Good h) : parseNumber (h ++ e) 16 = n := by
  obtain ⟨a, b, h1, h2, h3⟩ := parse_part hh hn he
  have := h3.mp hg
  subst this
  rw [List.append_nil] at h1
  subst h1
  rw [h2, hh.2.2]

/-! ## Lines -/

theorem lineLoop_ok : ∀ (l : Str) (prev : Nat) (acc r : Str), 10 ∉ l → lineLoop prev acc (l ++ 13 :: 10 :: r) = some (acc ++ l, r)
  | [], prev, acc, r, _ => by
    have h1 : ¬ (prev = 13 ∧ 13 = 10) := by omega
    rw [List.nil_append, lineLoop, if_neg h1, lineLoop, if_pos ⟨rfl, rfl⟩]
    simp
  | c :: l, prev, acc, r, h => by
    have hc : c ≠ 10 := fun e => h (by rw [e]; exact List.mem_cons_self)
    rw [List.cons_append, lineLoop, if_neg (fun q => hc q.2), lineLoop_ok l c _ r (fun q => h (List.mem_cons_of_mem _ q))]
    simp

theorem readLine_ok {s : Resp} {l r : Str} (he : s.eof = false) (hi : s.inp = l ++ crlf ++ r) (hl : 10 ∉ l) : s.readLine = (l, { s with inp := r }) := by
  unfold Resp.readLine
  rw [he, hi]
  have : l ++ crlf ++ r = l ++ 13 :: 10 :: r := by simp [crlf]
  rw [this, lineLoop_ok l 0 [] r hl]
  rfl

theorem fullLine_ok {s : Resp} {l r : Str} (n : Nat) (he : s.eof = false) (hi : s.inp = l ++ crlf ++ r) (hl : 10 ∉ l) (h0 : l ≠ []) :
    fullLine (n + 1) s = .ok l { s with inp := r } := by
  rw [fullLine, readLine_ok he hi hl]
  simp only [h0, if_false]

theorem fullLine_skip {s : Resp} {l r : Str} (n : Nat) (he : s.eof = false) (hi : s.inp = crlf ++ (l ++ crlf ++ r)) (hl : 10 ∉ l) (h0 : l ≠ []) :
    fullLine (n + 2) s = .ok l { s with inp := r } := by
  rw [fullLine, readLine_ok (l := []) he (by rw [hi]; rfl) (by simp)]
  simp only [if_true]
  exact fullLine_ok n (s := { s with inp := l ++ crlf ++ r }) he rfl hl h0

/-- In front of `w`, or in front of the end of the chunk before it. -/
def At (s : Resp) (w : Str) : Prop := s.inp = w ∨ s.inp = crlf ++ w

theorem at_line {s : Resp} {l r : Str} (he : s.eof = false) (ha : At s (l ++ crlf ++ r)) (hl : 10 ∉ l) (h0 : l ≠ []) : fullLine (s.inp.length + 2) s = .ok l { s with inp := r } := by
  rcases ha with hi | hi
  · exact fullLine_ok _ he hi hl h0
  · exact fullLine_skip _ he hi hl h0

theorem hex_line {h e : Str} {n : Nat} (hh : HexNum h n) (he : Ext e) : 10 ∉ h ++ e ∧ h ++ e ≠ [] := by
  refine ⟨fun q => ?_, fun q => hh.1 (List.append_eq_nil_iff.mp q).1⟩
  rcases List.mem_append.mp q with q | q
  · have := hh.2.1 10 q
    simp [hexDigit] at this
  · exact he.2 q

/-! ## C115: the receiver -/

abbrev Wire := Chunked Good (fun tr => tr = [])

theorem open_chunk {s : Resp} {h ext d w : Str} {n : Nat} (he : s.eof = false) (ha : At s (h ++ ext ++ crlf ++ d ++ crlf ++ w)) (hh : HexNum h n) (hg : Good h) (hx : Ext ext)
    (h0 : 0 < n) (hn : n < 18446744073709551616) : s.openChunk = .ok true { s with inp := d ++ crlf ++ w, readLen := n, cloaded := false } := by
  have hl := hex_line hh hx
  have ha' : At s (h ++ ext ++ crlf ++ (d ++ crlf ++ w)) := by simpa only [List.append_assoc] using ha
  unfold Resp.openChunk
  rw [at_line he ha' hl.1 hl.2]
  simp only [parse_good hh hn hx hg]
  rw [if_neg (by omega)]

theorem open_last {s : Resp} {z ext rest : Str} (he : s.eof = false) (ha : At s (z ++ ext ++ crlf ++ crlf ++ rest)) (hz : HexNum z 0) (hg : Good z) (hx : Ext ext) :
    s.openChunk = .ok false { s with inp := rest, readLen := 0, eof := true } := by
  have hl := hex_line hz hx
  have ha' : At s (z ++ ext ++ crlf ++ (crlf ++ rest)) := by simpa only [List.append_assoc] using ha
  unfold Resp.openChunk
  rw [at_line he ha' hl.1 hl.2]
  simp only [parse_good hz (by decide) hx hg, if_true]
  rw [readLine_ok (s := { s with inp := crlf ++ rest, readLen := 0 }) (l := []) he rfl (by simp)]

/-- The body that is still to come is `t`, then follows `rest`. -/
def Rel (s : Resp) (t rest : Str) : Prop :=
  s.mode = .chunked ∧ s.eof = false ∧ t.length < 18446744073709551616 ∧
  ((s.cloaded = false ∧ s.readLen = 0 ∧ ∃ w, At s w ∧ Wire w t rest) ∨
   (s.cloaded = false ∧ 0 < s.readLen ∧ ∃ d w body, s.inp = d ++ crlf ++ w ∧ d.length = s.readLen ∧ t = d ++ body ∧ Wire w body rest) ∨
   (s.cloaded = true ∧ ∃ d w body, s.inp = d ++ crlf ++ w ∧ d.length + 1 = s.readLen ∧ t = s.c :: (d ++ body) ∧ Wire w body rest))

/-- At the end: the last chunk. -/
theorem rel_nil {s : Resp} {rest : Str} (h : Rel s [] rest) : s.cloaded = false ∧ s.readLen = 0 ∧ s.openChunk = .ok false { s with inp := rest, readLen := 0, eof := true } := by
  obtain ⟨_, he, _, ⟨h1, h2, w, ha, hw⟩ | ⟨h1, h2, d, w, body, h3, h4, h5, h6⟩ | ⟨h1, d, w, body, h3, h4, h5, h6⟩⟩ := h
  · refine ⟨h1, h2, ?_⟩
    generalize ht : ([] : Str) = t at hw
    cases hw with
    | @last z ext _ tr hz hg hx htr _ =>
      subst htr
      exact open_last he (by simpa using ha) hz hg hx
    | chunk _ _ _ h0 hd _ =>
      have := List.append_eq_nil_iff.mp ht.symm
      rw [this.1] at hd
      simp at hd
      omega
  · have := List.append_eq_nil_iff.mp h5.symm
    rw [this.1] at h4
    simp at h4
    omega
  · cases h5

/-- Before the end: after opening the next chunk if there is none. -/
theorem rel_cons {s : Resp} {x : Nat} {t rest : Str} (h : Rel s (x :: t) rest) :
    (s.cloaded = true ∧ s.c = x ∧ 0 < s.readLen ∧ ∃ d w body, s.inp = d ++ crlf ++ w ∧ d.length + 1 = s.readLen ∧ t = d ++ body ∧ Wire w body rest) ∨
    (s.cloaded = false ∧ ∃ s', (if s.readLen = 0 then s.openChunk else .ok true s) = .ok true s' ∧ s'.cloaded = false ∧ s'.mode = .chunked ∧ s'.eof = false ∧ 0 < s'.readLen ∧
      ∃ d w body, s'.inp = x :: (d ++ crlf ++ w) ∧ d.length + 1 = s'.readLen ∧ t = d ++ body ∧ Wire w body rest) := by
  obtain ⟨hm, he, hlen, ⟨h1, h2, w, ha, hw⟩ | ⟨h1, h2, d, w, body, h3, h4, h5, h6⟩ | ⟨h1, d, w, body, h3, h4, h5, h6⟩⟩ := h
  · right
    refine ⟨h1, ?_⟩
    rw [if_pos h2]
    generalize ht : x :: t = t' at hw hlen
    cases hw with
    | last => cases ht
    | @chunk hx ext d w body _ n hh hg hx h0 hd hw' =>
      cases d with
      | nil => simp at hd; omega
      | cons y d =>
        rw [List.cons_append] at ht
        injection ht with e1 e2
        subst e1
        have hn : n < 18446744073709551616 := by
          rw [List.length_append, hd] at hlen; omega
        exact ⟨_, open_chunk he ha hh hg hx h0 hn, rfl, hm, he, h0, d, w, body, rfl, hd, e2, hw'⟩
  · right
    refine ⟨h1, s, by rw [if_neg (by omega)], h1, hm, he, h2, ?_⟩
    cases d with
    | nil => simp at h4; omega
    | cons y d =>
      rw [List.cons_append] at h5
      injection h5 with e1 e2
      subst e1
      exact ⟨d, w, body, h3, h4, e2, h6⟩
  · left
    injection h5 with e1 e2
    exact ⟨h1, e1.symm, by omega, d, w, body, h3, h4, e2, h6⟩

theorem rel_tail {s : Resp} {x : Nat} {t rest d w body : Str} (hm : s.mode = .chunked) (he : s.eof = false) (hl : (x :: t).length < 18446744073709551616) (hc : s.cloaded = false)
    (hi : s.inp = d ++ crlf ++ w) (hr : d.length = s.readLen) (ht : t = d ++ body) (hw : Wire w body rest) : Rel s t rest := by
  refine ⟨hm, he, by simp at hl; omega, ?_⟩
  by_cases h0 : s.readLen = 0
  · left
    have : d = [] := List.length_eq_zero_iff.mp (by omega)
    subst this
    refine ⟨hc, h0, w, .inr ?_, by rw [ht]; exact hw⟩
    rw [hi]; rfl
  · right; left
    exact ⟨hc, by omega, d, w, body, hi, hr, ht, hw⟩

theorem dec_pos {n : Nat} (h : 0 < n) : dec n = n - 1 := by unfold dec; rw [if_neg (by omega)]

/-- C115: for every chunked body with good sizes and without trailer, every sequence of calls until the end is reported gives the bytes of the body, and leaves what follows.
Missing: sizes with small letters inside, trailers, calls after the end (violated below). -/
theorem C115_receive_partial : ∀ (os : List Op) {s : Resp} {t rest : Str}, Rel s t rest → runStop s os = plainStop rest t os
  | [], _, t, _, _ => by cases t <;> rfl
  | o :: os, s, [], rest, h => by
    obtain ⟨h1, h2, h3⟩ := rel_nil h
    have hm := h.1
    cases o with
    | has => simp only [runStop, Resp.hasItems, hm, h1, h2, h3, plainStop]; rfl
    | peek => simp only [runStop, Resp.peek, hm, h1, h2, h3, plainStop]; rfl
    | next => simp only [runStop, Resp.getNext, hm, h1, h2, h3, plainStop]; rfl
  | o :: os, s, x :: t, rest, h => by
    have hm := h.1
    have he := h.2.1
    have hlen := h.2.2.1
    rcases rel_cons h with ⟨h1, rfl, h0, d, w, body, h3, h4, h5, h6⟩ | ⟨h1, s', e, c1, c2, c3, c4, d, w, body, h3, h4, h5, h6⟩
    · cases o with
      | has =>
        simp only [runStop, Resp.hasItems, hm, h1, Bool.true_or, if_true, plainStop, C115_receive_partial os h]
      | peek =>
        simp only [runStop, Resp.peek, hm, h1, if_true, plainStop, C115_receive_partial os h]
      | next =>
        have : Rel { s with readLen := dec s.readLen, cloaded := false } t rest :=
          rel_tail hm he hlen rfl h3 (by show d.length = dec s.readLen; rw [dec_pos h0]; omega) h5 h6
        have hg : s.getNext = .ok s.c { s with readLen := dec s.readLen, cloaded := false } := by unfold Resp.getNext; split <;> simp_all
        rw [runStop, hg]
        simp only [plainStop]
        rw [C115_receive_partial os this]
    · have hf : s'.fetch = (true, { s' with inp := d ++ crlf ++ w, c := x, cloaded := true }) := by
        unfold Resp.fetch; rw [h3]
      cases o with
      | has =>
        have hr : Rel s' (x :: t) rest := ⟨c2, c3, hlen, .inr (.inl ⟨c1, c4, x :: d, w, body, h3, h4, by rw [h5]; rfl, h6⟩)⟩
        by_cases hz : s.readLen = 0
        · rw [if_pos hz] at e
          have hg : s.hasItems = .ok true s' := by unfold Resp.hasItems; split <;> simp_all
          rw [runStop, hg]
          simp only [plainStop]
          rw [C115_receive_partial os hr]
        · rw [if_neg hz] at e
          injection e with _ e2
          subst e2
          have hz' : 0 < s.readLen := by omega
          simp only [runStop, Resp.hasItems, hm, h1, hz', decide_true, Bool.or_true, if_true, plainStop, C115_receive_partial os hr]
      | peek =>
        have hr : Rel { s' with inp := d ++ crlf ++ w, c := x, cloaded := true } (x :: t) rest :=
          ⟨c2, c3, hlen, .inr (.inr ⟨rfl, d, w, body, rfl, h4, by rw [h5], h6⟩)⟩
        have hg : s.peek = .ok x { s' with inp := d ++ crlf ++ w, c := x, cloaded := true } := by
          unfold Resp.peek
          rw [hm]
          simp only [h1, Bool.false_eq_true, if_false, e, hf, if_true]
          rw [if_neg (fun q => by rw [c3] at q; exact absurd q.2 (by decide))]
        rw [runStop, hg]
        simp only [plainStop]
        rw [C115_receive_partial os hr]
      | next =>
        have hr : Rel { s' with inp := d ++ crlf ++ w, c := x, readLen := dec s'.readLen, cloaded := false } t rest :=
          rel_tail c2 c3 hlen rfl rfl (by show d.length = dec s'.readLen; rw [dec_pos c4]; omega) h5 h6
        simp only [runStop, Resp.getNext, hm, h1, e, hf, plainStop]
        simp only [Bool.false_eq_true, if_false, if_true, C115_receive_partial os hr]

/-! ## C115: the sender -/

theorem hexDigit_of {x : Nat} (h : x < 16) : hexDigit (if x > 9 then 97 + x - 10 else 48 + x) = some x := by
  unfold hexDigit
  by_cases h9 : x > 9
  · rw [if_pos h9, if_neg (by omega), if_neg (by omega), if_pos (by omega)]
    congr 1; omega
  · rw [if_neg h9, if_pos (by omega)]
    congr 1; omega

theorem digits_hex : ∀ (f v : Nat), v < 16 ^ f → 0 < f → HexNum (digits 16 f v) v
  | f + 1, v, h, _ => by
    have hx := hexDigit_of (Nat.mod_lt v (by decide : 0 < 16))
    rw [digits]
    by_cases hv : v ≥ 16
    · rw [if_pos hv]
      have h1 : v / 16 < 16 ^ f := by rw [Nat.pow_succ, Nat.mul_comm] at h; exact Nat.div_lt_of_lt_mul h
      have hf : 0 < f := by
        cases f with
        | zero => simp at h1; omega
        | succ f => omega
      obtain ⟨i1, i2, i3⟩ := digits_hex f (v / 16) h1 hf
      refine ⟨by simp, fun c hc => ?_, ?_⟩
      · rcases List.mem_append.mp hc with hc | hc
        · exact i2 c hc
        · rw [List.mem_singleton] at hc
          rw [hc, hx]; rfl
      · rw [hexFold_append, i3, hexFold_cons, hx]
        show 16 * (v / 16) + v % 16 = v
        omega
    · rw [if_neg hv]
      refine ⟨by simp, fun c hc => ?_, ?_⟩
      · rw [List.mem_singleton] at hc
        rw [hc, hx]; rfl
      · rw [hexFold_cons, hx]
        show 16 * 0 + v % 16 = v
        omega

theorem toStr_hex {n : Nat} (h : n < 18446744073709551616) : HexNum (toStr 16 n) n := by
  unfold toStr
  by_cases h0 : n = 0
  · rw [if_pos h0, h0]
    exact ⟨by simp, by decide, by decide⟩
  · rw [if_neg h0]
    exact digits_hex 64 n (Nat.lt_of_lt_of_le h (by decide)) (by decide)

/-- One chunk as it is sent. -/
def enc (c : Str) : Str := toStr 16 c.length ++ crlf ++ c ++ crlf

inductive WOp where
  | put (b : Nat)
  | flush
  | setMax (n : Nat)
deriving DecidableEq, Repr

def WOp.step (s : Req) : WOp → Req
  | .put b => s.write b
  | .flush => s.flush
  | .setMax n => s.setMax n

/-- The bytes that are written. -/
def written : List WOp → Str
  | [] => []
  | .put b :: os => b :: written os
  | _ :: os => written os

theorem flush_inv {s : Req} {o : Str} {cs : List Str} (h1 : s.headersSent = true) (h2 : s.out = o ++ cs.flatMap enc) (h3 : ∀ c, c ∈ cs → c ≠ []) :
    ∃ cs' : List Str, s.flush.headersSent = true ∧ s.flush.out = o ++ cs'.flatMap enc ∧ (∀ c, c ∈ cs' → c ≠ []) ∧ s.flush.buf = [] ∧ cs'.flatten = cs.flatten ++ s.buf ∧ s.flush.max = s.max ∧
      ∀ c, c ∈ cs' → c ∈ cs ∨ c = s.buf := by
  unfold Req.flush
  simp only [h1, if_true]
  by_cases hb : s.buf = []
  · rw [if_neg (fun q => q hb)]
    exact ⟨cs, h1, h2, h3, hb, by rw [hb, List.append_nil], rfl, fun c hc => .inl hc⟩
  · rw [if_pos hb]
    refine ⟨cs ++ [s.buf], h1, ?_, ?_, rfl, by simp, rfl, ?_⟩
    · show s.out ++ toStr 16 s.buf.length ++ crlf ++ s.buf ++ crlf = _
      rw [h2]; simp [enc]
    · intro c hc
      rcases List.mem_append.mp hc with hc | hc
      · exact h3 c hc
      · rw [List.mem_singleton] at hc; rw [hc]; exact hb
    · intro c hc
      rcases List.mem_append.mp hc with hc | hc
      · exact .inl hc
      · rw [List.mem_singleton] at hc; exact .inr hc

/-- What was sent consists of chunks; with the bytes still in the buffer they are all that was written. -/
theorem send_inv {o : Str} {m : Nat} : ∀ (os : List WOp) (s : Req) (cs : List Str), s.headersSent = true → s.out = o ++ cs.flatMap enc → (∀ c, c ∈ cs → c ≠ []) →
    ∃ cs' : List Str, (os.foldl WOp.step s).headersSent = true ∧ (os.foldl WOp.step s).out = o ++ cs'.flatMap enc ∧ (∀ c, c ∈ cs' → c ≠ []) ∧
      cs'.flatten ++ (os.foldl WOp.step s).buf = cs.flatten ++ s.buf ++ written os ∧
      ((∀ n, WOp.setMax n ∉ os) → s.max = m → s.buf.length < m → (∀ c, c ∈ cs → c.length ≤ m) → (∀ c, c ∈ cs' → c.length ≤ m) ∧ (os.foldl WOp.step s).buf.length < m)
  | [], s, cs, h1, h2, h3 => ⟨cs, h1, h2, h3, by simp [written], fun _ _ hb hc => ⟨hc, hb⟩⟩
  | .put b :: os, s, cs, h1, h2, h3 => by
    rw [List.foldl_cons]
    by_cases hm : (s.buf ++ [b]).length = s.max
    · have e : WOp.step s (.put b) = ({ s with buf := s.buf ++ [b] } : Req).flush := by
        show Req.write s b = _
        unfold Req.write
        simp only [hm, if_true]
      rw [e]
      obtain ⟨c1, f1, f2, f3, f4, f5, f6, f7⟩ := flush_inv (s := { s with buf := s.buf ++ [b] }) h1 h2 h3
      obtain ⟨c2, g1, g2, g3, g4, g5⟩ := send_inv (m := m) os _ c1 f1 f2 f3
      refine ⟨c2, g1, g2, g3, by rw [g4, f5, f4]; simp [written], fun hs hmx hb hc => g5 (fun n q => hs n (List.mem_cons_of_mem _ q)) (by rw [f6]; exact hmx) (by rw [f4]; exact Nat.lt_of_le_of_lt (Nat.zero_le _) hb) ?_⟩
      intro c hc'
      rcases f7 c hc' with q | q
      · exact hc c q
      · have : c.length = s.max := by rw [q]; exact hm
        omega
    · have e : WOp.step s (.put b) = ({ s with buf := s.buf ++ [b] } : Req) := by
        show Req.write s b = _
        unfold Req.write
        simp only [hm, if_false]
      rw [e]
      obtain ⟨c2, g1, g2, g3, g4, g5⟩ := send_inv (m := m) os { s with buf := s.buf ++ [b] } cs h1 h2 h3
      refine ⟨c2, g1, g2, g3, by rw [g4]; simp [written], fun hs hmx hb hc => g5 (fun n q => hs n (List.mem_cons_of_mem _ q)) hmx ?_ hc⟩
      show (s.buf ++ [b]).length < m
      rw [List.length_append] at hm ⊢
      simp only [List.length_singleton] at hm ⊢
      omega
  | .flush :: os, s, cs, h1, h2, h3 => by
    rw [List.foldl_cons]
    obtain ⟨c1, f1, f2, f3, f4, f5, f6, f7⟩ := flush_inv h1 h2 h3
    have e : WOp.step s .flush = s.flush := rfl
    rw [e]
    obtain ⟨c2, g1, g2, g3, g4, g5⟩ := send_inv (m := m) os _ c1 f1 f2 f3
    refine ⟨c2, g1, g2, g3, by rw [g4, f5, f4]; simp [written], fun hs hmx hb hc => g5 (fun n q => hs n (List.mem_cons_of_mem _ q)) (by rw [f6]; exact hmx) (by rw [f4]; exact Nat.lt_of_le_of_lt (Nat.zero_le _) hb) ?_⟩
    intro c hc'
    rcases f7 c hc' with q | q
    · exact hc c q
    · rw [q]; omega
  | .setMax n :: os, s, cs, h1, h2, h3 => by
    rw [List.foldl_cons]
    obtain ⟨c2, g1, g2, g3, g4, _⟩ := send_inv (m := m) os (WOp.step s (.setMax n)) cs h1 h2 h3
    exact ⟨c2, g1, g2, g3, by rw [g4]; rfl, fun hs => absurd List.mem_cons_self (hs n)⟩

/-- Everything behind the head: chunks and the last chunk. -/
theorem send_all {s : Req} (h1 : s.headersSent = true) (h2 : s.buf = []) (os : List WOp) {m : Nat} :
    ∃ cs : List Str, (os.foldl WOp.step s).reset.out = s.out ++ cs.flatMap enc ++ enc [] ∧ (∀ c, c ∈ cs → c ≠ []) ∧ cs.flatten = written os ∧
      ((∀ n, WOp.setMax n ∉ os) → s.max = m → 0 < m → ∀ c, c ∈ cs → c.length ≤ m) := by
  obtain ⟨c1, g1, g2, g3, g4, g5⟩ := send_inv (o := s.out) (m := m) os s [] h1 (by simp) (by simp)
  obtain ⟨c2, f1, f2, f3, f4, f5, f6, f7⟩ := flush_inv g1 g2 g3
  refine ⟨c2, ?_, f3, ?_, ?_⟩
  · unfold Req.reset
    simp only [g1, if_true, Req.sendChunk, f2, f4]
    simp [enc]
  · rw [f5, g4, h2]; simp
  · intro hs hm h0 c hc
    have := g5 hs hm (by rw [h2]; exact h0) (by simp)
    rcases f7 c hc with q | q
    · exact this.1 c q
    · rw [q]; omega

theorem ext_nil : Ext [] := ⟨.inl rfl, by simp⟩

theorem chunks_wire {Ok : Str → Prop} {Tr : List Str → Prop} (htr : Tr []) (rest : Str) : ∀ (cs : List Str), (∀ c, c ∈ cs → c ≠ []) → (∀ c, c ∈ cs → Ok (toStr 16 c.length)) → Ok [48] →
    cs.flatten.length < 18446744073709551616 → Chunked Ok Tr (cs.flatMap enc ++ enc [] ++ rest) cs.flatten rest
  | [], _, _, h0, _ => by
    have := Chunked.last (Ok := Ok) (Tr := Tr) (z := [48]) (ext := []) (rest := rest) (tr := []) ⟨by simp, by decide, by decide⟩ h0 ext_nil htr (by simp)
    exact this
  | c :: cs, h1, h2, h0, hl => by
    rw [List.flatten_cons, List.length_append] at hl
    have hc : 0 < c.length := List.length_pos_iff.mpr (h1 c List.mem_cons_self)
    have := Chunked.chunk (ext := []) (toStr_hex (n := c.length) (by omega)) (h2 c List.mem_cons_self) ext_nil hc rfl
      (chunks_wire htr rest cs (fun c hc => h1 c (List.mem_cons_of_mem _ hc)) (fun c hc => h2 c (List.mem_cons_of_mem _ hc)) h0 (by omega))
    simpa [enc, List.append_assoc] using this

/-- C115: in whatever pieces the body is written and flushed and whatever limits of the chunks are set on the way, what is sent behind the head is the body in the chunked encoding. -/
theorem C115_send {s : Req} (h1 : s.headersSent = true) (h2 : s.buf = []) (os : List WOp) (hl : (written os).length < 18446744073709551616) :
    ∃ w, (os.foldl WOp.step s).reset.out = s.out ++ w ∧ ∀ rest, Chunked (fun _ => True) (fun tr => tr = []) (w ++ rest) (written os) rest := by
  obtain ⟨cs, e, h3, h4, _⟩ := send_all h1 h2 os (m := 0)
  refine ⟨cs.flatMap enc ++ enc [], by rw [e]; simp, fun rest => ?_⟩
  rw [← h4] at hl ⊢
  exact chunks_wire (Ok := fun _ => True) (Tr := fun tr => tr = []) rfl rest cs h3 (fun _ _ => trivial) trivial hl

/-! ## Which sizes are read right -/

theorem digits_ne (b f v : Nat) : digits b (f + 1) v ≠ [] := by
  rw [digits]
  split <;> simp

theorem digits_tail : ∀ (f m : Nat), m < 16 ^ f → ((∀ c, c ∈ (digits 16 f m).tail → c < 97) ↔ ∀ k, 16 ^ (k + 1) ≤ m → m / 16 ^ k % 16 < 10)
  | 0, m, h => by
    simp at h
    subst h
    simp [digits]
  | f + 1, m, h => by
    rw [digits]
    by_cases hm : m ≥ 16
    · rw [if_pos hm]
      have h1 : m / 16 < 16 ^ f := by rw [Nat.pow_succ, Nat.mul_comm] at h; exact Nat.div_lt_of_lt_mul h
      have hf : ∃ g, f = g + 1 := by
        cases f with
        | zero => simp at h1; omega
        | succ g => exact ⟨g, rfl⟩
      obtain ⟨g, rfl⟩ := hf
      rw [List.tail_append_of_ne_nil (digits_ne 16 g _)]
      have ih := digits_tail (g + 1) (m / 16) h1
      have hd : ∀ x, x < 16 → ((if x > 9 then 97 + x - 10 else 48 + x) < 97 ↔ x < 10) := by
        intro x hx
        by_cases h9 : x > 9
        · rw [if_pos h9]; omega
        · rw [if_neg h9]; omega
      have hd := hd (m % 16) (Nat.mod_lt _ (by decide))
      constructor
      · intro q k hk
        cases k with
        | zero =>
          rw [Nat.pow_zero, Nat.div_one]
          exact hd.mp (q _ (List.mem_append_right _ (List.mem_singleton.mpr rfl)))
        | succ k =>
          have := ih.mp (fun c hc => q c (List.mem_append_left _ hc)) k (by rw [Nat.le_div_iff_mul_le (by decide), ← Nat.pow_succ]; exact hk)
          rw [Nat.div_div_eq_div_mul] at this
          rw [Nat.pow_succ, Nat.mul_comm]
          exact this
      · intro q c hc
        rcases List.mem_append.mp hc with hc | hc
        · refine ih.mpr (fun k hk => ?_) c hc
          have := q (k + 1) (by rw [Nat.pow_succ]; exact (Nat.le_div_iff_mul_le (by decide)).mp hk)
          rw [Nat.div_div_eq_div_mul, Nat.mul_comm, ← Nat.pow_succ]
          exact this
        · rw [List.mem_singleton] at hc
          rw [hc]
          have := q 0 (by simpa using hm)
          rw [Nat.pow_zero, Nat.div_one] at this
          exact hd.mpr this
    · rw [if_neg hm]
      simp
      intro k hk
      have : 16 ≤ 16 ^ (k + 1) := by rw [Nat.pow_succ]; exact Nat.le_mul_of_pos_left _ (Nat.pow_pos (by decide))
      omega

/-- No digit from ten on but the first and the last. -/
def SizeOk (n : Nat) : Prop := ∀ k, 1 ≤ k → 16 ^ (k + 1) ≤ n → n / 16 ^ k % 16 < 10

theorem good_size {n : Nat} (h : n < 18446744073709551616) : Good (toStr 16 n) ↔ SizeOk n := by
  unfold toStr
  by_cases h0 : n = 0
  · rw [if_pos h0, h0]
    constructor
    · intro _ k _ hk
      have : 0 < 16 ^ (k + 1) := Nat.pow_pos (by decide)
      omega
    · intro _ c hc; simp at hc
  · rw [if_neg h0, digits]
    by_cases hn : n ≥ 16
    · rw [if_pos hn]
      unfold Good
      rw [List.dropLast_concat, digits_tail 63 (n / 16) (by rw [Nat.div_lt_iff_lt_mul (by decide)]; exact Nat.lt_of_lt_of_le h (by decide))]
      constructor
      · intro q k h1 hk
        obtain ⟨k, rfl⟩ : ∃ j, k = j + 1 := ⟨k - 1, by omega⟩
        have := q k (by rw [Nat.le_div_iff_mul_le (by decide), ← Nat.pow_succ]; exact hk)
        rw [Nat.div_div_eq_div_mul] at this
        rw [Nat.pow_succ, Nat.mul_comm]
        exact this
      · intro q k hk
        have := q (k + 1) (by omega) (by rw [Nat.pow_succ]; exact (Nat.le_div_iff_mul_le (by decide)).mp hk)
        rw [Nat.div_div_eq_div_mul, Nat.mul_comm, ← Nat.pow_succ]
        exact this
    · rw [if_neg hn]
      constructor
      · intro _ k _ hk
        have : 16 ≤ 16 ^ (k + 1) := by rw [Nat.pow_succ]; exact Nat.le_mul_of_pos_left _ (Nat.pow_pos (by decide))
        omega
      · intro _ c hc; simp at hc

/-- C115: the receiver understands exactly these sizes as the sender writes them. -/
theorem C115_sizes {n : Nat} (h : n < 18446744073709551616) : parseNumber (toStr 16 n) 16 = n ↔ SizeOk n := by
  have hh := toStr_hex h
  rw [← good_size h]
  constructor
  · intro hp
    obtain ⟨a, b, h1, h2, h3⟩ := parse_part hh h ext_nil
    rw [List.append_nil, hp] at h2
    refine h3.mpr ?_
    cases b with
    | nil => rfl
    | cons c b =>
      exfalso
      have h4 := hh.2.2
      rw [h1, hexFold_append, ← h2, hexFold_cons] at h4
      have h5 := hexFold_ge b (16 * n + (hexDigit c).getD 0)
      have hn0 : n = 0 := by omega
      rw [hn0] at h1
      have h6 : toStr 16 0 = [48] := rfl
      rw [h6] at h1
      cases a with
      | nil =>
        rw [hn0] at hp
        injection h1 with e1 e2
        subst e1
        subst e2
        have := h3
        rw [hn0, h6] at this
        have := this.mp (by intro c hc; simp at hc)
        cases this
      | cons a0 a =>
        injection h1 with e1 e2
        have := List.append_eq_nil_iff.mp e2.symm
        cases this.2
  · intro hg
    have := parse_good hh h ext_nil hg
    rwa [List.append_nil] at this

/-- All sizes below 416 are right. -/
theorem small_ok {n : Nat} (h : n < 416) : SizeOk n := by
  intro k hk hkn
  have h2 : k = 1 := by
    by_cases h2 : k = 1
    · exact h2
    · have : 16 ^ 3 ≤ 16 ^ (k + 1) := Nat.pow_le_pow_right (by decide) (by omega)
      omega
  subst h2
  have : 16 ^ (1 + 1) = 256 := rfl
  rw [Nat.pow_one]
  omega

/-- C115: with chunks of at most 415 bytes the response reads what the request sent.  Missing: larger chunks (violated below). -/
theorem C115_trip_partial {s : Req} (h1 : s.headersSent = true) (h2 : s.buf = []) (hm : 0 < s.max ∧ s.max < 416) (os : List WOp) (hs : ∀ n, WOp.setMax n ∉ os)
    (hl : (written os).length < 18446744073709551616) : ∃ w, (os.foldl WOp.step s).reset.out = s.out ++ w ∧
      ∀ rest ops, runStop { inp := w ++ rest, eof := false, mode := .chunked } ops = plainStop rest (written os) ops := by
  obtain ⟨cs, e, h3, h4, h5⟩ := send_all h1 h2 os (m := s.max)
  have h5 := h5 hs rfl hm.1
  refine ⟨cs.flatMap enc ++ enc [], by rw [e]; simp, fun rest ops => C115_receive_partial ops ⟨rfl, rfl, hl, .inl ⟨rfl, rfl, _, .inl rfl, ?_⟩⟩⟩
  rw [← h4] at hl ⊢
  refine chunks_wire (Ok := Good) (Tr := fun tr => tr = []) rfl rest cs h3 (fun c hc => ?_) (by intro c hc; simp at hc) hl
  have := h5 c hc
  exact (good_size (by omega)).mpr (small_ok (by omega))

/-! ## What is wrong -/

/-- Reads until the end. -/
def readAll : Nat → Resp → Str × Bool
  | 0, _ => ([], false)
  | n + 1, s =>
    match s.hasItems with
    | .ok true s =>
      match s.getNext with
      | .ok x s => (x :: (readAll n s).1, (readAll n s).2)
      | _ => ([], false)
    | .ok false _ => ([], true)
    | _ => ([], false)

/-- A body of 416 bytes, sent in one chunk `1a0`: the response reads 26 bytes and takes this as the whole body. -/
theorem C115_size_violated : readAll 1000 { inp := (((List.replicate 416 120).map WOp.put).foldl WOp.step { headersSent := true }).reset.out, eof := false, mode := .chunked } =
    (List.replicate 26 120, true) := by decide +kernel

theorem fullLine_eof : ∀ (n : Nat) {s : Resp}, s.eof = true → fullLine n s = .hang
  | 0, _, _ => rfl
  | n + 1, s, h => by
    rw [fullLine]
    have : s.readLine = ([], s) := by unfold Resp.readLine; rw [h]; rfl
    rw [this]
    exact fullLine_eof n h

/-- After the end was reported, no call returns. -/
theorem C115_again_violated {s : Resp} (hm : s.mode = .chunked) (he : s.eof = true) (hc : s.cloaded = false) (hr : s.readLen = 0) :
    s.hasItems = .hang ∧ s.getNext = .hang ∧ s.peek = .hang := by
  have h : s.openChunk = .hang := by unfold Resp.openChunk; rw [fullLine_eof _ he]
  refine ⟨?_, ?_, ?_⟩
  · simp [Resp.hasItems, hm, hc, hr, h]
  · simp [Resp.getNext, hm, hc, hr, h]
  · simp [Resp.peek, hm, hc, hr, h]

/-- So `reset` after the whole body was read does not return. -/
theorem C115_reset_violated {s : Resp} (ho : s.opened = true) (hp : s.parsed = true) (hm : s.mode = .chunked) (he : s.eof = true) (hc : s.cloaded = false) (hr : s.readLen = 0) :
    s.reset = .hang := by
  have h := (C115_again_violated hm he hc hr).1
  have hn : s.readLen ≠ null := by rw [hr]; decide
  simp only [Resp.reset, ho, hp, if_true, hn, ne_eq, not_false_eq_true]
  rw [drain, h]

/-- Nor any call when the connection ends between two chunks. -/
theorem C115_cut_violated {s : Resp} (hm : s.mode = .chunked) (hi : s.inp = []) (hc : s.cloaded = false) (hr : s.readLen = 0) : s.hasItems = .hang ∧ s.getNext = .hang := by
  cases he : s.eof with
  | true => exact ⟨(C115_again_violated hm he hc hr).1, (C115_again_violated hm he hc hr).2.1⟩
  | false =>
    have h : s.openChunk = .hang := by
      unfold Resp.openChunk
      rw [fullLine]
      have : s.readLine = ([], { s with inp := [], eof := true }) := by
        unfold Resp.readLine
        rw [he, hi]; rfl
      rw [this]
      simp only [if_true]
      rw [fullLine_eof _ rfl]
    refine ⟨?_, ?_⟩
    · simp [Resp.hasItems, hm, hc, hr, h]
    · simp [Resp.getNext, hm, hc, hr, h]

/-- Of a trailer only one line is read: the rest stays in front of the next response. -/
theorem C115_trailer_violated : Chunked (fun _ => True) (fun _ => True) ([48] ++ crlf ++ [65, 58, 49] ++ crlf ++ [66, 58, 50] ++ crlf ++ crlf) [] [] ∧
    runStop { inp := [48] ++ crlf ++ [65, 58, 49] ++ crlf ++ [66, 58, 50] ++ crlf ++ crlf, eof := false, mode := .chunked } [.has] = [.has false, .left ([66, 58, 50] ++ crlf ++ crlf)] := by
  refine ⟨?_, by decide⟩
  have := Chunked.last (Ok := fun _ => True) (Tr := fun _ => True) (z := [48]) (ext := []) (rest := []) (tr := [[65, 58, 49], [66, 58, 50]]) ⟨by simp, by decide, by decide⟩ trivial ext_nil trivial
    (by decide)
  exact this

/-- The claim in full: what the request sends the response reads, `hasItems` may be asked again at the end. -/
def Claim115 : Prop := ∀ (bs : Str), (∀ b, b ∈ bs → b < 256) → readAll (bs.length + 1) { inp := ((bs.map WOp.put).foldl WOp.step { headersSent := true }).reset.out, eof := false, mode := .chunked } = (bs, true)

theorem C115_violated : ¬ Claim115 := by
  intro h
  have := h (List.replicate 416 120) (by intro b hb; rw [List.eq_of_mem_replicate hb]; decide)
  have h2 := congrArg (fun p => p.1.length) this
  revert h2
  decide +kernel

/-- `reset` of a request whose head was not sent keeps the bytes written: they are sent with the next request. -/
theorem C115_stale_violated : (((({} : Req).write 97).reset.beginBody.write 98).reset).out =
    [32, 32, 72, 84, 84, 80, 47, 49, 46, 49] ++ crlf ++ teName ++ [58, 32] ++ chunkedName ++ crlf ++ crlf ++ enc [97, 98] ++ enc [] := by decide

/-- `flush` without `beginBody` sends chunks under a head that does not announce them. -/
theorem C115_flush_violated : (({} : Req).write 97).flush.reset.out = [32, 32, 72, 84, 84, 80, 47, 49, 46, 49] ++ crlf ++ crlf ++ enc [97] ++ enc [] := by decide

/-- Concrete cases. -/
example : runStop { inp := [51, 59, 120] ++ crlf ++ [97, 98, 99] ++ crlf ++ [65] ++ crlf ++ List.replicate 10 100 ++ crlf ++ [48] ++ crlf ++ crlf ++ [72], eof := false, mode := .chunked }
    [.has, .next, .peek, .next, .next, .next, .has] = [.has true, .next (some 97), .peek (some 98), .next (some 98), .next (some 99), .next (some 100), .has true] := by decide
example : (([.put 1, .put 2, .flush, .put 3].foldl WOp.step { headersSent := true }).reset).out = [50] ++ crlf ++ [1, 2] ++ crlf ++ [49] ++ crlf ++ [3] ++ crlf ++ [48] ++ crlf ++ crlf := by decide
example : ¬ SizeOk 416 := by intro h; exact absurd (h 1 (by decide) (by decide)) (by decide)
example : SizeOk 65536 := by
  intro k hk h
  have h2 : k < 4 := by
    by_cases h2 : k < 4
    · exact h2
    · have : 16 ^ 5 ≤ 16 ^ (k + 1) := Nat.pow_le_pow_right (by decide) (by omega)
      omega
  obtain rfl | rfl | rfl : k = 1 ∨ k = 2 ∨ k = 3 := by omega
  all_goals decide

end LS.Http

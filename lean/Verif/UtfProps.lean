import Verif.Utf
/-! # Property C09: UTF-8 -/

namespace LS.Utf
open LS.Base64 (cell)

/-! ## Specification: RFC 3629, section 3 -/

/-- Standard UTF-8 form of one code point (below `0x110000`). -/
def utf8 (c : Nat) : List Nat :=
  if c < 0x80 then [c]
  else if c < 0x800 then [0xC0 + c / 64, 0x80 + c % 64]
  else if c < 0x10000 then [0xE0 + c / 4096, 0x80 + c / 64 % 64, 0x80 + c % 64]
  else [0xF0 + c / 262144, 0x80 + c / 4096 % 64, 0x80 + c / 64 % 64, 0x80 + c % 64]

/-! ## Helper lemmas -/

/-- `k` continuation bytes for the low `6k` bits of `c`, most significant first. -/
def conts : Nat → Nat → List Nat
  | 0, _ => []
  | k + 1, c => (0x80 + c / 64 ^ k % 64) :: conts k c

theorem conts_snoc (k c : Nat) : conts (k + 1) c = conts k (c / 64) ++ [0x80 + c % 64] := by
  induction k with
  | zero => simp [conts]
  | succ k ih =>
    rw [conts, ih, conts, Nat.div_div_eq_div_mul, Nat.pow_succ', List.cons_append]

theorem conts_length (k c : Nat) : (conts k c).length = k := by
  induction k with
  | zero => rfl
  | succ k ih => simp [conts, ih]

theorem putTail_spec (k : Nat) : ∀ (c : Nat) (o : List (Option Nat)) (r : Nat), k ≤ r →
    r ≤ o.length → (putTail k c o r).2 = r - k ∧ (putTail k c o r).1.length = o.length ∧
      (putTail k c o r).1.drop (r - k) = (conts k c).map some ++ o.drop r := by
  induction k with
  | zero => intro c o r _ _; simp [putTail, conts]
  | succ k ih =>
    intro c o r h1 h2
    obtain ⟨i1, i2, i3⟩ := ih (c >>> 6) (o.set (r - 1) (some (0x80 ||| (c &&& 0x3F)))) (r - 1)
      (by omega) (by simp; omega)
    rw [putTail]
    refine ⟨by omega, by simpa using i2, ?_⟩
    rw [show r - (k + 1) = r - 1 - k by omega, i3, conts_snoc, List.map_append, List.append_assoc]
    congr 1
    · rw [Nat.shiftRight_eq_div_pow]
    · obtain ⟨q, rfl⟩ : ∃ q, r = q + 1 := ⟨r - 1, by omega⟩
      have e : 0x80 ||| (c &&& 0x3F) = 0x80 + c % 64 := by
        rw [and_63]; exact or_add (k := 7) 1 rfl (by omega)
      rw [Nat.add_sub_cancel, e, List.drop_eq_getElem_cons (by simp; omega)]
      simp [List.drop_set]

theorem enc_drain (l : List Nat) : ∀ (s : Enc) (r k : Nat), s.rdpos = some r →
    s.outchars.length = 10 → r + l.length = 10 →
    s.outchars.drop r = l.map some → s.hasItems = !decide (r = 10) →
    ∃ s', enc.drain (k + l.length) s = some (l, s') ∧ s'.outchars.length = 10 ∧
      s'.hasItems = false := by
  induction l with
  | nil =>
    intro s r k hr hl hrl hd hi
    have h : s.hasItems = false := by simp at hrl; simp [hi, hrl]
    exact ⟨s, enc.drain_idle h, hl, h⟩
  | cons x l ih =>
    intro s r k hr hl hrl hd hi
    simp only [List.length_cons] at hrl
    have hc : cell s.outchars r = some x := by
      have := congrArg (·[0]?) hd
      simp at this
      simp [cell, this]
    have hd' : s.outchars.drop (r + 1) = l.map some := by
      have := congrArg List.tail hd
      simpa using this
    obtain ⟨s', h1, h2, h3⟩ := ih (s.setPos (r + 1)) (r + 1) k rfl hl (by omega) hd' rfl
    refine ⟨s', enc.drain_step ?_ ?_ h1, h2, h3⟩
    · show s.hasItems = true
      rw [hi]; simp; omega
    · simp only [enc, Enc.getNext, hr, hc]

theorem lead_parts (c : Nat) : (lead c).2 ≤ 6 := by
  unfold lead; repeat' split
  all_goals simp

theorem enc_item {s : Enc} {k c : Nat} (hl : s.outchars.length = 10) (hi : s.hasItems = false) :
    ∃ s', enc.writeToIter (k + 7) s c = some ((lead c).1 :: conts (lead c).2 c, s') ∧
      s'.outchars.length = 10 ∧ s'.hasItems = false := by
  have hp := lead_parts c
  obtain ⟨i1, i2, i3⟩ := putTail_spec (lead c).2 c s.outchars 10 (by omega) (by omega)
  obtain ⟨s', h1, h2, h3⟩ := enc_drain ((lead c).1 :: conts (lead c).2 c) (s.write c)
    (9 - (lead c).2) (k + (6 - (lead c).2)) (by simp only [Enc.write, Enc.setPos, i1]; congr 1; omega)
    (by simp only [Enc.write, Enc.setPos, List.length_set, i2, hl])
    (by simp only [List.length_cons, conts_length]; omega)
    (by
      simp only [Enc.write, Enc.setPos, i1]
      rw [show 10 - (lead c).2 - 1 = 9 - (lead c).2 by omega,
        List.drop_eq_getElem_cons (by simp [i2]; omega)]
      rw [show 10 - (lead c).2 = 9 - (lead c).2 + 1 by omega] at i3
      simp only [List.getElem_set_self, List.drop_set, Nat.lt_add_one, if_true, i3, List.map_cons]
      rw [List.drop_of_length_le (by omega)]; simp)
    (by
      simp only [Enc.write, Enc.setPos, i1]
      congr 2; apply propext; omega)
  refine ⟨s', enc.writeToIter_of hi rfl ?_, h2, h3⟩
  have : k + (6 - (lead c).2) + ((lead c).1 :: conts (lead c).2 c).length = k + 7 := by
    simp only [List.length_cons, conts_length]; omega
  rw [← this]; exact h1

theorem enc_run (k : Nat) (cs : List Nat) : ∀ (s : Enc), s.outchars.length = 10 →
    s.hasItems = false →
    enc.run (k + 7) s cs = some (cs.flatMap fun c => (lead c).1 :: conts (lead c).2 c) := by
  induction cs with
  | nil =>
    intro s _ hi
    rw [enc.run_nil]
    show (enc.drain (k + 7) s).map _ = _
    rw [enc.drain_idle hi]
    rfl
  | cons c cs ih =>
    intro s hl hi
    obtain ⟨s', h1, h2, h3⟩ := enc_item (k := k) (c := c) hl hi
    rw [enc.run_cons h1, ih s' h2 h3]
    rfl

/-! ### Decoder -/

/-- Between characters. -/
def idle (s : Dec) : Prop := s.state = 0xff ∧ s.hasItems = false

/-- Inside a character with `n` continuation bytes missing. -/
def inside (s : Dec) (n x : Nat) : Prop := s.state = n ∧ s.outchar = some x ∧ s.hasItems = false

theorem dec_emit {s : Dec} {k x : Nat} (h : s.outchar = some x) (hi : s.hasItems = true) :
    dec.drain (k + 1) s = some ([x], { s with state := 0xff }.upd) :=
  dec.drain_step hi (by simp only [dec, Dec.getNext, h]) (dec.drain_idle rfl)

theorem dec_cont {s : Dec} {k n x a : Nat} (h : inside s (n + 1) x) (hn : n < 6)
    (hx : x * 64 < 2147483648) (ha : a < 64) (rest : List Nat) :
    (n = 0 → ∃ s', idle s' ∧ dec.run (k + 1) s ((0x80 + a) :: rest) =
        (dec.run (k + 1) s' rest).map ([x * 64 + a] ++ ·)) ∧
    (0 < n → ∃ s', inside s' n (x * 64 + a) ∧ dec.run (k + 1) s ((0x80 + a) :: rest) =
        dec.run (k + 1) s' rest) := by
  obtain ⟨h1, h2, h3⟩ := h
  have e : (x <<< 6) ||| ((0x80 + a) &&& 0x3F) = x * 64 + a := by
    rw [and_63, show (0x80 + a) % 64 = a by omega, shl_or x a 6 (by omega)]
  have hw : dec.write s (0x80 + a) = some { s with outchar := some (x * 64 + a), state := n }.upd := by
    have e2 : x <<< 6 = x * 64 := Nat.shiftLeft_eq _ _
    simp only [dec, Dec.write, h1, h2, e]
    rw [if_neg (by omega), if_neg (by omega), if_pos (by omega), if_neg (by omega)]
    rfl
  constructor
  · rintro rfl
    refine ⟨_, ⟨rfl, rfl⟩, dec.run_cons (dec.writeToIter_of h3 hw (dec_emit rfl rfl)) _⟩
  · intro hp
    have hidle : ({ s with outchar := some (x * 64 + a), state := n }.upd).hasItems = false := by
      simp [Dec.upd, hp]
    refine ⟨_, ⟨rfl, rfl, hidle⟩, ?_⟩
    rw [dec.run_cons (dec.writeToIter_of h3 hw (dec.drain_idle hidle))]
    cases dec.run (k + 1) _ rest <;> simp

theorem dec_conts (n : Nat) : ∀ (s : Dec) (k x c : Nat) (rest : List Nat), n < 6 →
    inside s (n + 1) x → (x * 64 ^ (n + 1) + c % 64 ^ (n + 1)) < 2147483648 →
    ∃ s', idle s' ∧ dec.run (k + 1) s (conts (n + 1) c ++ rest) =
      (dec.run (k + 1) s' rest).map ([x * 64 ^ (n + 1) + c % 64 ^ (n + 1)] ++ ·) := by
  induction n with
  | zero =>
    intro s k x c rest _ h hb
    obtain ⟨s', h1, h2⟩ := (dec_cont (k := k) h (by omega) (by simp at hb; omega)
      (Nat.mod_lt c (show 0 < 64 by decide)) rest).1 rfl
    refine ⟨s', h1, ?_⟩
    simpa [conts] using h2
  | succ n ih =>
    intro s k x c rest hn h hb
    have e : c % 64 ^ (n + 1 + 1) = c / 64 ^ (n + 1) % 64 * 64 ^ (n + 1) + c % 64 ^ (n + 1) := by
      rw [Nat.pow_succ, Nat.mod_mul]; rw [Nat.mul_comm]; omega
    have e2 : x * 64 ^ (n + 1 + 1) + c % 64 ^ (n + 1 + 1) =
        (x * 64 + c / 64 ^ (n + 1) % 64) * 64 ^ (n + 1) + c % 64 ^ (n + 1) := by
      rw [e, Nat.add_mul, Nat.pow_succ 64 (n + 1), Nat.mul_assoc, Nat.mul_comm 64, Nat.add_assoc]
    have hx : x * 64 < 2147483648 := by
      have hp : 0 < 64 ^ (n + 1) := Nat.pow_pos (by decide)
      have h1 := Nat.le_mul_of_pos_right (x * 64 + c / 64 ^ (n + 1) % 64) hp
      rw [e2] at hb
      generalize (x * 64 + c / 64 ^ (n + 1) % 64) * 64 ^ (n + 1) = y at h1 hb
      omega
    obtain ⟨s1, h1, h2⟩ := (dec_cont (k := k) h (by omega) hx
      (Nat.mod_lt (c / 64 ^ (n + 1)) (show 0 < 64 by decide)) (conts (n + 1) c ++ rest)).2 (by omega)
    obtain ⟨s', h3, h4⟩ := ih s1 k (x * 64 + c / 64 ^ (n + 1) % 64) c rest (by omega) h1
      (by rw [← e2]; exact hb)
    refine ⟨s', h3, ?_⟩
    rw [e2, ← h4, ← h2]
    rfl

theorem dec_lead {s : Dec} {k n x : Nat} {a : Nat} (h : idle s) (hn : 0 < n)
    (hw : s.write a = some { s with outchar := some x, state := n }.upd) (rest : List Nat) :
    ∃ s', inside s' n x ∧ dec.run k s (a :: rest) = dec.run k s' rest := by
  have hidle : ({ s with outchar := some x, state := n }.upd).hasItems = false := by
    simp [Dec.upd, hn]
  refine ⟨_, ⟨rfl, rfl, hidle⟩, ?_⟩
  rw [dec.run_cons (dec.writeToIter_of h.2 hw (dec.drain_idle hidle))]
  cases dec.run k _ rest <;> simp

/-- The lead bytes `mark + x`, `x < bound`, announcing `n` continuation bytes. -/
inductive Mark : Nat → Nat → Nat → Prop
  | m1 : Mark 1 0xC0 32
  | m2 : Mark 2 0xE0 16
  | m3 : Mark 3 0xF0 8
  | m4 : Mark 4 0xF8 4
  | m5 : Mark 5 0xFC 2
  | m6 : Mark 6 0xFE 1

theorem dec_mark {s : Dec} {n mark bound x : Nat} (h : idle s) (hm : Mark n mark bound)
    (hx : x < bound) :
    s.write (mark + x) = some { s with outchar := some x, state := n }.upd := by
  unfold Dec.write
  rw [if_neg (by rw [h.1]; decide), if_pos h.1]
  cases hm with
  | m1 =>
    rw [if_neg (by omega), if_neg (by omega), if_pos (by omega), and_31]
    rw [show (0xC0 + x) % 32 = x by omega]
  | m2 =>
    rw [if_neg (by omega), if_neg (by omega), if_neg (by omega), if_pos (by omega), and_15]
    rw [show (0xE0 + x) % 16 = x by omega]
  | m3 =>
    rw [if_neg (by omega), if_neg (by omega), if_neg (by omega), if_neg (by omega),
      if_pos (by omega), and_7]
    rw [show (0xF0 + x) % 8 = x by omega]
  | m4 =>
    rw [if_neg (by omega), if_neg (by omega), if_neg (by omega), if_neg (by omega),
      if_neg (by omega), if_pos (by omega), and_3]
    rw [show (0xF8 + x) % 4 = x by omega]
  | m5 =>
    rw [if_neg (by omega), if_neg (by omega), if_neg (by omega), if_neg (by omega),
      if_neg (by omega), if_neg (by omega), if_pos (by omega), and_1]
    rw [show (0xFC + x) % 2 = x by omega]
  | m6 =>
    rw [if_neg (by omega), if_neg (by omega), if_neg (by omega), if_neg (by omega),
      if_neg (by omega), if_neg (by omega), if_neg (by omega), if_pos (by omega)]
    rw [show x = 0 by omega]

/-- One multi-byte character. -/
theorem dec_multi {s : Dec} {n mark bound x k c : Nat} (h : idle s) (hm : Mark n mark bound)
    (hx : x < bound) (hc : c = x * 64 ^ n + c % 64 ^ n) (hb : c < 2147483648) (rest : List Nat) :
    ∃ s', idle s' ∧ dec.run (k + 1) s ((mark + x) :: conts n c ++ rest) =
      (dec.run (k + 1) s' rest).map ([c] ++ ·) := by
  have hn : 0 < n ∧ n < 7 := by cases hm <;> decide
  obtain ⟨n, rfl⟩ : ∃ m, n = m + 1 := ⟨n - 1, by omega⟩
  obtain ⟨s1, h1, h2⟩ := dec_lead (k := k + 1) h hn.1 (dec_mark h hm hx) (conts (n + 1) c ++ rest)
  obtain ⟨s2, h3, h4⟩ := dec_conts n s1 k x c rest (by omega) h1 (by rw [← hc]; exact hb)
  refine ⟨s2, h3, ?_⟩
  rw [List.cons_append, h2, h4, ← hc]

/-- One ASCII character. -/
theorem dec_ascii {s : Dec} {k c : Nat} (h : idle s) (hc : c < 128) (rest : List Nat) :
    ∃ s', idle s' ∧ dec.run (k + 1) s (c :: rest) = (dec.run (k + 1) s' rest).map ([c] ++ ·) := by
  have hw : dec.write s c = some { s with outchar := some c, state := 0 }.upd := by
    show Dec.write s c = _
    unfold Dec.write
    rw [if_neg (by rw [h.1]; decide), if_pos h.1, if_pos hc]
  exact ⟨_, ⟨rfl, rfl⟩, dec.run_cons (dec.writeToIter_of h.2 hw (dec_emit rfl rfl)) _⟩

theorem dec_nil {s : Dec} (k : Nat) (h : idle s) : dec.run k s [] = some [] := by
  rw [dec.run_nil]
  show (dec.drain k s).map _ = _
  rw [dec.drain_idle h.2]
  rfl

/-- A text whose characters are each decoded one by one is decoded. -/
theorem dec_flat (f : Nat → List Nat) (k : Nat) (P : Nat → Prop)
    (hf : ∀ c, P c → ∀ s, idle s → ∀ rest, ∃ s', idle s' ∧
      dec.run (k + 1) s (f c ++ rest) = (dec.run (k + 1) s' rest).map ([c] ++ ·))
    (cs : List Nat) (hc : ∀ c ∈ cs, P c) : ∀ s, idle s →
    dec.run (k + 1) s (cs.flatMap f) = some cs := by
  induction cs with
  | nil => intro s h; exact dec_nil _ h
  | cons c cs ih =>
    intro s h
    obtain ⟨s', h1, h2⟩ := hf c (hc c (by simp)) s h (cs.flatMap f)
    rw [List.flatMap_cons, h2, ih (fun d hd => hc d (by simp [hd])) s' h1]
    rfl

theorem lead_or {a m k : Nat} (q : Nat) (hm : m = q * 2 ^ k) (ha : a < 2 ^ k) (h256 : a < 256) :
    (a % 256) ||| m = m + a := by
  rw [Nat.mod_eq_of_lt h256, Nat.or_comm, or_add q hm ha]

theorem split_pow (c n : Nat) : c = c / 64 ^ n * 64 ^ n + c % 64 ^ n := by
  rw [Nat.mul_comm]; exact (Nat.div_add_mod c _).symm

theorem dec_own {c : Nat} (hc : c < 2147483648) (k : Nat) (s : Dec) (h : idle s) (rest : List Nat) :
    ∃ s', idle s' ∧ dec.run (k + 1) s ((lead c).1 :: conts (lead c).2 c ++ rest) =
      (dec.run (k + 1) s' rest).map ([c] ++ ·) := by
  unfold lead
  simp only [Nat.shiftRight_eq_div_pow]
  split
  · exact dec_ascii h (by omega) rest
  split
  · rw [lead_or 6 (k := 5) rfl (by omega) (by omega)]
    exact dec_multi h .m1 (by omega) (split_pow c 1) hc rest
  split
  · rw [lead_or 14 (k := 4) rfl (by omega) (by omega)]
    exact dec_multi h .m2 (by omega) (split_pow c 2) hc rest
  split
  · rw [lead_or 30 (k := 3) rfl (by omega) (by omega)]
    exact dec_multi h .m3 (by omega) (split_pow c 3) hc rest
  split
  · rw [lead_or 62 (k := 2) rfl (by omega) (by omega)]
    exact dec_multi h .m4 (by omega) (split_pow c 4) hc rest
  split
  · rw [lead_or 126 (k := 1) rfl (by omega) (by omega)]
    exact dec_multi h .m5 (by omega) (split_pow c 5) hc rest
  · exact dec_multi (x := 0) h .m6 (by omega) (by rw [Nat.mod_eq_of_lt (by omega)]; omega) hc rest

theorem dec_std {c : Nat} (hc : c < 0x110000) (k : Nat) (s : Dec) (h : idle s) (rest : List Nat) :
    ∃ s', idle s' ∧ dec.run (k + 1) s (utf8 c ++ rest) =
      (dec.run (k + 1) s' rest).map ([c] ++ ·) := by
  unfold utf8
  split
  · exact dec_ascii h (by omega) rest
  split
  · have := dec_multi (k := k) h .m1 (x := c / 64) (by omega) (split_pow c 1) (by omega) rest
    simpa [conts] using this
  split
  · have := dec_multi (k := k) h .m2 (x := c / 4096) (by omega) (split_pow c 2) (by omega) rest
    simpa [conts] using this
  · have := dec_multi (k := k) h .m3 (x := c / 262144) (by omega) (split_pow c 3) (by omega) rest
    simpa [conts] using this

theorem own_eq_std {c : Nat} (hc : c < 0x110000) (h1 : c ≠ 0x7FF) (h2 : c ≠ 0xFFFF) :
    (lead c).1 :: conts (lead c).2 c = utf8 c := by
  unfold lead utf8
  simp only [Nat.shiftRight_eq_div_pow]
  by_cases a1 : c < 0x80
  · rw [if_pos a1, if_pos a1]; rfl
  rw [if_neg a1, if_neg a1]
  by_cases a2 : c < 0x7ff
  · have b : c < 0x800 := by omega
    rw [if_pos a2, if_pos b, lead_or 6 (k := 5) rfl (by omega) (by omega)]
    simp [conts]
  have b2 : ¬ c < 0x800 := by omega
  rw [if_neg a2, if_neg b2]
  by_cases a3 : c < 0xffff
  · have b : c < 0x10000 := by omega
    rw [if_pos a3, if_pos b, lead_or 14 (k := 4) rfl (by omega) (by omega)]
    simp [conts]
  have b3 : ¬ c < 0x10000 := by omega
  have b4 : c < 0x1fffff := by omega
  rw [if_neg a3, if_neg b3, if_pos b4, lead_or 30 (k := 3) rfl (by omega) (by omega)]
  simp [conts]

/-! ## Property theorems -/

/-- C09: converting any sequence of code points (indeed any non-negative `wchar_t` values) to
UTF-8 and back gives the same sequence. -/
theorem C09_roundtrip (cs : List Nat) (h : ∀ c ∈ cs, c < 2 ^ 31) {fuel : Nat} (hf : 7 ≤ fuel) :
    ∃ text, enc.run fuel {} cs = some text ∧ dec.run fuel {} text = some cs := by
  obtain ⟨k, rfl⟩ : ∃ k, fuel = k + 7 := ⟨fuel - 7, by omega⟩
  exact ⟨_, enc_run k cs {} rfl rfl,
    dec_flat _ (k + 6) (· < 2147483648) (fun c hc s hs rest => dec_own hc (k + 6) s hs rest) cs h {}
      ⟨rfl, rfl⟩⟩

/-- C09: standard UTF-8 text of any Unicode code points is decoded to these code points. -/
theorem C09_decode (cs : List Nat) (h : ∀ c ∈ cs, c < 0x110000) {fuel : Nat} (hf : 1 ≤ fuel) :
    dec.run fuel {} (cs.flatMap utf8) = some cs := by
  obtain ⟨k, rfl⟩ : ∃ k, fuel = k + 1 := ⟨fuel - 1, by omega⟩
  exact dec_flat _ k (· < 0x110000) (fun c hc s hs rest => dec_std hc k s hs rest) cs h {}
    ⟨rfl, rfl⟩

/-- C09 (part that holds): the encoder emits standard UTF-8 for texts without the code points
U+07FF and U+FFFF. Missing: these two, see `C09_standard_form_violated`. -/
theorem C09_standard_form_partial (cs : List Nat)
    (h : ∀ c ∈ cs, c < 0x110000 ∧ c ≠ 0x7FF ∧ c ≠ 0xFFFF) {fuel : Nat} (hf : 7 ≤ fuel) :
    enc.run fuel {} cs = some (cs.flatMap utf8) := by
  obtain ⟨k, rfl⟩ : ∃ k, fuel = k + 7 := ⟨fuel - 7, by omega⟩
  rw [enc_run k cs {} rfl rfl]
  congr 1
  induction cs with
  | nil => rfl
  | cons c cs ih =>
    rw [List.flatMap_cons, List.flatMap_cons, ih (fun d hd => h d (by simp [hd])),
      own_eq_std (h c (by simp)).1 (h c (by simp)).2.1 (h c (by simp)).2.2]

/-- C09 is false for the code at U+07FF: a three-byte over-long form instead of `DF BF`. -/
theorem C09_standard_form_violated :
    enc.run 7 {} [0x7FF] = some [0xE0, 0x9F, 0xBF] ∧ utf8 0x7FF = [0xDF, 0xBF] ∧
    enc.run 7 {} [0xFFFF] = some [0xF0, 0x8F, 0xBF, 0xBF] ∧ utf8 0xFFFF = [0xEF, 0xBF, 0xBF] := by
  decide +kernel

/-! Concrete cases: "aé€😀" -/
example : enc.run 7 {} [0x61, 0xE9, 0x20AC, 0x1F600] =
    some [0x61, 0xC3, 0xA9, 0xE2, 0x82, 0xAC, 0xF0, 0x9F, 0x98, 0x80] := by decide +kernel
example : ∀ c ∈ [0x61, 0xE9, 0x20AC, 0x1F600], c < 0x110000 ∧ c ≠ 0x7FF ∧ c ≠ 0xFFFF := by decide
example : dec.run 1 {} [0x61, 0xC3, 0xA9, 0xE2, 0x82, 0xAC] = some [0x61, 0xE9, 0x20AC] := by
  decide +kernel
/-- An unexpected continuation byte is reported. -/
example : dec.run 1 {} [0x61, 0x80] = none := by decide +kernel

end LS.Utf

import Verif.Base85
/-! # Property C07: Base85 -/

namespace LS.Base85
open LS.Base64 (cell)

/-! ## Specification (ZeroMQ RFC 32 alphabet and groups, Ascii85-style short last group) -/

/-- The Z85 alphabet. -/
def alphabet : List Nat :=
  "0123456789abcdefghijklmnopqrstuvwxyzABCDEFGHIJKLMNOPQRSTUVWXYZ.-:+=^!/*?&<>()[]{}@%$#".toList.map
    Char.toNat

/-- The base-85 digit of `v` with weight `p`, as a character. -/
def dig (v p : Nat) : Nat := alphabet.getD (v / p % 85) 0

/-- 32-bit big-endian groups, five base-85 digits each; a last group of `r` bytes is filled with
zero bytes and gives `r + 1` digits. -/
def z85 : List Nat → List Nat
  | a :: b :: c :: d :: rest =>
    let v := ((a * 256 + b) * 256 + c) * 256 + d
    [dig v 52200625, dig v 614125, dig v 7225, dig v 85, dig v 1] ++ z85 rest
  | [a, b, c] =>
    let v := ((a * 256 + b) * 256 + c) * 256
    [dig v 52200625, dig v 614125, dig v 7225, dig v 85]
  | [a, b] =>
    let v := (a * 256 + b) * 65536
    [dig v 52200625, dig v 614125, dig v 7225]
  | [a] =>
    let v := a * 16777216
    [dig v 52200625, dig v 614125]
  | [] => []

/-! ## Helper lemmas: encoder -/

theorem encoder_eq : alphabet = encoder := by decide +kernel

theorem lookup {i : Nat} (hi : i < 85) : encoder[i]? = some (alphabet.getD i 0) := by
  rw [encoder_eq, List.getD_eq_getElem?_getD, List.getElem?_eq_getElem (show i < encoder.length from hi)]; rfl

theorem digits_eq (v : Nat) : digits v =
    [some (dig v 52200625), some (dig v 614125), some (dig v 7225), some (dig v 85), some (dig v 1)] := by
  simp only [digits, dig]
  rw [lookup (Nat.mod_lt _ (by decide)), lookup (Nat.mod_lt _ (by decide)),
    lookup (Nat.mod_lt _ (by decide)), lookup (Nat.mod_lt _ (by decide)),
    lookup (Nat.mod_lt _ (by decide))]

def est (acc w m : Nat) (o : List (Option Nat)) : Enc :=
  { accum := acc, wrpos := w, maxreadpos := m, outchars := o }

theorem acc_step {a b : Nat} (ha : a < 16777216) (hb : b < 256) :
    ((a <<< 8) ||| b) % 4294967296 = a * 256 + b := by
  rw [shl_or a b 8 (by omega)]
  omega

theorem enc_small {acc w m b k : Nat} {o : List (Option Nat)} (ha : acc < 16777216) (hb : b < 256)
    (hw : w < 3) :
    enc.writeToIter (k + 5) (est acc w m o) b = some ([], est (acc * 256 + b) (w + 1) m o) := by
  refine enc.writeToIter_of rfl (s1 := est (acc * 256 + b) (w + 1) m o) ?_ (enc.drain_idle rfl)
  simp only [enc, Enc.write, est, Bool.false_eq_true, if_false, acc_step ha hb]
  rw [if_neg (by omega)]

/-- Reading `m` prepared characters. -/
theorem enc_drain (l : List Nat) : ∀ (r : Nat) (s : Enc), l ≠ [] →
    s.readpos = r → s.maxreadpos = r + l.length → r + l.length < 256 → s.hasItems = true →
    (∃ tl, s.outchars.drop r = l.map some ++ tl) →
    enc.drain (k + l.length) s = some (l, s.reset) := by
  induction l with
  | nil => intro r s h; exact absurd rfl h
  | cons x l ih =>
    rintro r s _ hr hm hlt hi ⟨tl, ho⟩
    have hc : cell s.outchars s.readpos = some x := by
      have : s.outchars[r]? = some (some x) := by
        have := congrArg (·[0]?) ho
        simpa using this
      simp [cell, hr, this]
    have ho' : s.outchars.drop (r + 1) = l.map some ++ tl := by
      have := congrArg List.tail ho
      simpa using this
    simp only [List.length_cons] at hm hlt
    have hmod : (s.readpos + 1) % 256 = r + 1 := by omega
    cases l with
    | nil =>
      refine enc.drain_step hi (s1 := s.reset) ?_ (enc.drain_idle rfl)
      simp only [enc, Enc.getNext, hc, hmod]
      rw [if_pos (by simpa using hm.symm)]
      rfl
    | cons y l =>
      simp only [List.length_cons] at hm hlt
      have h := ih (r + 1) { s with readpos := r + 1 } (by simp) rfl
        (by simp only [List.length_cons]; omega) (by simp only [List.length_cons]; omega) hi ⟨tl, ho'⟩
      refine enc.drain_step hi ?_ h
      simp only [enc, Enc.getNext, hc, hmod]
      rw [if_neg (by omega)]

theorem enc_full {acc m b k : Nat} {o : List (Option Nat)} (ha : acc < 16777216) (hb : b < 256)
    (ho : o.length = 6) :
    ∃ o', o'.length = 6 ∧ enc.writeToIter (k + 5) (est acc 3 m o) b =
      some ([dig (acc * 256 + b) 52200625, dig (acc * 256 + b) 614125, dig (acc * 256 + b) 7225,
        dig (acc * 256 + b) 85, dig (acc * 256 + b) 1], est 0 0 5 o') := by
  have hw : enc.write (est acc 3 m o) b = some { est (acc * 256 + b) 4 5
      (digits (acc * 256 + b) ++ o.drop 5) with needItems := false, hasItems := true } := by
    simp only [enc, Enc.write, est, Bool.false_eq_true, if_false, acc_step ha hb]
    rfl
  have h := enc_drain (k := k)
    [dig (acc * 256 + b) 52200625, dig (acc * 256 + b) 614125, dig (acc * 256 + b) 7225,
        dig (acc * 256 + b) 85, dig (acc * 256 + b) 1] 0
    { est (acc * 256 + b) 4 5 (digits (acc * 256 + b) ++ o.drop 5) with
      needItems := false, hasItems := true } (by simp) rfl rfl (by simp) rfl
    ⟨o.drop 5, by simp only [est, digits_eq]; rfl⟩
  exact ⟨digits (acc * 256 + b) ++ o.drop 5, by simp [digits, ho], enc.writeToIter_of rfl hw h⟩

theorem enc_tail {acc w m k : Nat} {o : List (Option Nat)} (hw : 0 < w) (h3 : w ≤ 3)
    (ha : acc < 256 ^ w) (l : List Nat)
    (hl : l = ([dig (acc * 256 ^ (4 - w)) 52200625, dig (acc * 256 ^ (4 - w)) 614125,
      dig (acc * 256 ^ (4 - w)) 7225, dig (acc * 256 ^ (4 - w)) 85].take (w + 1))) :
    ∃ s, enc.flushToIter (k + 5) (est acc w m o) = some (l, s) := by
  have key : ∃ s, enc.flush (est acc w m o) = some s ∧ s.readpos = 0 ∧ s.maxreadpos = w + 1 ∧
      s.hasItems = true ∧ ∃ tl, s.outchars = digits (acc * 256 ^ (4 - w)) ++ tl := by
    have hz : ∀ {a}, a < 16777216 → (a <<< 8 ||| 0) % 4294967296 = a * 256 :=
      fun {a} h => by have := acc_step h (b := 0) (by decide); simpa using this
    have : w = 1 ∨ w = 2 ∨ w = 3 := by omega
    rcases this with rfl | rfl | rfl
    · have e1 := hz (a := acc) (by omega)
      have e2 := hz (a := acc * 256) (by omega)
      have e3 := hz (a := acc * 256 * 256) (by omega)
      refine ⟨_, rfl, ?_, ?_, ?_, ?_⟩ <;>
        simp only [est, ne_eq, Nat.reduceSub, Enc.writeZeros, Enc.write, Bool.false_eq_true,
          if_false, e1, e2, e3, if_true, Nat.reduceAdd, gt_iff_lt, Nat.reduceLT]
      · rfl
      · rfl
      · exact ⟨_, by rw [show acc * 256 ^ 3 = acc * 256 * 256 * 256 by omega]; rfl⟩
    · have e1 := hz (a := acc) (by omega)
      have e2 := hz (a := acc * 256) (by omega)
      refine ⟨_, rfl, ?_, ?_, ?_, ?_⟩ <;>
        simp only [est, ne_eq, Nat.reduceSub, Enc.writeZeros, Enc.write, Bool.false_eq_true,
          if_false, e1, e2, if_true, Nat.reduceAdd, gt_iff_lt, Nat.reduceLT]
      · rfl
      · rfl
      · exact ⟨_, by rw [show acc * 256 ^ 2 = acc * 256 * 256 by omega]; rfl⟩
    · have e1 := hz (a := acc) (by omega)
      refine ⟨_, rfl, ?_, ?_, ?_, ?_⟩ <;>
        simp only [est, ne_eq, Nat.reduceSub, Enc.writeZeros, Enc.write, Bool.false_eq_true,
          if_false, e1, if_true, Nat.reduceAdd, gt_iff_lt, Nat.reduceLT]
      · rfl
      · rfl
      · exact ⟨_, by rw [show acc * 256 ^ 1 = acc * 256 by omega]; rfl⟩
  obtain ⟨s, hs, hr, hm, hi, tl, ho⟩ := key
  rw [digits_eq] at ho
  have hlen : l.length = w + 1 := by
    rw [hl, List.length_take]; simp; omega
  have h := enc_drain (k := k + (4 - w)) l 0 s
    (by intro h; rw [h] at hlen; simp at hlen) hr (by omega) (by omega) hi (by
      have : w = 1 ∨ w = 2 ∨ w = 3 := by omega
      rw [ho, hl]
      rcases this with rfl | rfl | rfl <;> exact ⟨_, rfl⟩)
  rw [show k + (4 - w) + l.length = k + 5 by omega] at h
  rw [Conv.flushToIter, hs]
  exact ⟨_, h⟩

theorem enc_run (k : Nat) (bs : List Nat) : ∀ (m : Nat) (o : List (Option Nat)), o.length = 6 →
    Bytes bs → bs.length % 4 ≠ 0 → enc.run (k + 5) (est 0 0 m o) bs = some (z85 bs) := by
  fun_induction z85 bs with
  | case1 a b c d rest v ih =>
    intro m o ho hb hl
    simp only [Bytes_cons] at hb
    obtain ⟨ha, hb, hc, hd, hr⟩ := hb
    obtain ⟨o', ho', h4⟩ := enc_full (k := k) (acc := ((0 * 256 + a) * 256 + b) * 256 + c) (m := m)
      (b := d) (by omega) hd ho
    rw [enc.run_cons (enc_small (by omega) ha (by omega)),
      enc.run_cons (enc_small (by omega) hb (by omega)),
      enc.run_cons (enc_small (by omega) hc (by omega)), enc.run_cons h4,
      ih 5 o' ho' hr (by simp only [List.length_cons] at hl; omega)]
    simp only [Nat.zero_mul, Nat.zero_add]
    rfl
  | case2 a b c v =>
    intro m o ho hb hl
    simp only [Bytes_cons] at hb
    obtain ⟨ha, hb, hc, -⟩ := hb
    obtain ⟨s, hs⟩ := enc_tail (k := k) (acc := ((0 * 256 + a) * 256 + b) * 256 + c) (w := 3)
      (m := m) (o := o) (by omega) (by omega) (by omega) _ rfl
    rw [enc.run_cons (enc_small (by omega) ha (by omega)),
      enc.run_cons (enc_small (by omega) hb (by omega)),
      enc.run_cons (enc_small (by omega) hc (by omega)), enc.run_nil, hs]
    simp only [Nat.zero_mul, Nat.zero_add]
    rfl
  | case3 a b v =>
    intro m o ho hb hl
    simp only [Bytes_cons] at hb
    obtain ⟨ha, hb, -⟩ := hb
    obtain ⟨s, hs⟩ := enc_tail (k := k) (acc := (0 * 256 + a) * 256 + b) (w := 2)
      (m := m) (o := o) (by omega) (by omega) (by omega) _ rfl
    rw [enc.run_cons (enc_small (by omega) ha (by omega)),
      enc.run_cons (enc_small (by omega) hb (by omega)), enc.run_nil, hs]
    simp only [Nat.zero_mul, Nat.zero_add]
    rfl
  | case4 a v =>
    intro m o ho hb hl
    simp only [Bytes_cons] at hb
    obtain ⟨ha, -⟩ := hb
    obtain ⟨s, hs⟩ := enc_tail (k := k) (acc := 0 * 256 + a) (w := 1)
      (m := m) (o := o) (by omega) (by omega) (by omega) _ rfl
    rw [enc.run_cons (enc_small (by omega) ha (by omega)), enc.run_nil, hs]
    simp only [Nat.zero_mul, Nat.zero_add]
    rfl
  | case5 => intro m o _ _ hl; exact absurd rfl hl

/-! ## Helper lemmas: decoder -/

theorem dec_table : ∀ i < 85, ¬ (alphabet.getD i 0 < 33 ∨ 128 ≤ alphabet.getD i 0) ∧
    decoder[alphabet.getD i 0 - 32]? = some i := by decide +kernel

def dst (acc w : Nat) (m : Option Nat) (o : List (Option Nat)) : Dec :=
  { accum := acc, wrpos := w, maxreadpos := m, outBytes := o }

theorem dec_write {v p w : Nat} {m : Option Nat} {o : List (Option Nat)} (hp : 0 < p)
    (hv : v / p < 4294967296) (hw : w < 4) :
    (dst (v / (p * 85)) w m o).write (dig v p) = some (dst (v / p) (w + 1) m o) := by
  have hi : v / p % 85 < 85 := Nat.mod_lt _ (by decide)
  obtain ⟨h1, h2⟩ := dec_table _ hi
  have e : (v / (p * 85) * 85 + v / p % 85) % 4294967296 = v / p := by
    rw [← Nat.div_div_eq_div_mul]; omega
  simp only [Dec.write, dst, dig, h1, h2, if_false, Bool.false_eq_true, e]
  rw [if_neg (by omega)]

/-- The four bytes of a 32-bit word. -/
def outs (v : Nat) : List (Option Nat) :=
  [some (v / 16777216 % 256), some (v / 65536 % 256), some (v / 256 % 256), some (v % 256)]

theorem dec_write5 {v : Nat} {m : Option Nat} {o : List (Option Nat)}
    (hv : v < 4294967296) :
    (dst (v / 85) 4 m o).write (dig v 1) =
      some { dst v 5 (some 4) (outs v) with hasItems := true, needItems := false } := by
  have hi : v % 85 < 85 := Nat.mod_lt _ (by decide)
  obtain ⟨h1, h2⟩ := dec_table _ hi
  have e : (v / 85 * 85 + v % 85) % 4294967296 = v := by omega
  simp only [Dec.write, dst, dig, Nat.div_one, h1, h2, if_false, Bool.false_eq_true, e, if_true,
    Nat.shiftRight_eq_div_pow, Nat.reduceAdd, Nat.reducePow, Nat.div_one, outs]

theorem dec_small {v p w k : Nat} {m : Option Nat} {o : List (Option Nat)} (hp : 0 < p)
    (hv : v / p < 4294967296) (hw : w < 4) :
    dec.writeToIter (k + 4) (dst (v / (p * 85)) w m o) (dig v p) =
      some ([], dst (v / p) (w + 1) m o) :=
  dec.writeToIter_of rfl (dec_write hp hv hw) (dec.drain_idle rfl)

/-- Reading the prepared bytes. -/
theorem dec_drain (l : List Nat) : ∀ (r : Nat) (s : Dec), l ≠ [] →
    s.readpos = r → s.maxreadpos = some (r + l.length) → r + l.length < 256 → s.hasItems = true →
    (∃ tl, s.outBytes.drop r = l.map some ++ tl) →
    dec.drain (k + l.length) s = some (l, s.reset) := by
  induction l with
  | nil => intro r s h; exact absurd rfl h
  | cons x l ih =>
    rintro r s _ hr hm hlt hi ⟨tl, ho⟩
    have hc : cell s.outBytes s.readpos = some x := by
      have : s.outBytes[r]? = some (some x) := by
        have := congrArg (·[0]?) ho
        simpa using this
      simp [cell, hr, this]
    have ho' : s.outBytes.drop (r + 1) = l.map some ++ tl := by
      have := congrArg List.tail ho
      simpa using this
    simp only [List.length_cons] at hm hlt
    have hmod : (s.readpos + 1) % 256 = r + 1 := by omega
    cases l with
    | nil =>
      refine dec.drain_step hi (s1 := s.reset) ?_ (dec.drain_idle rfl)
      simp only [dec, Dec.getNext, hc, hmod, hm]
      rw [if_pos (by simp)]
      simp only [Dec.reset, ← hm]
    | cons y l =>
      simp only [List.length_cons] at hm hlt
      have h := ih (r + 1) { s with readpos := r + 1 } (by simp) rfl
        (by simp only [List.length_cons, hm]; congr 1; omega)
        (by simp only [List.length_cons]; omega) hi ⟨tl, ho'⟩
      refine dec.drain_step hi ?_ h
      simp only [dec, Dec.getNext, hc, hmod, hm]
      rw [if_neg (by omega)]

theorem dec_full {v k : Nat} {m : Option Nat} {o : List (Option Nat)} (hv : v < 4294967296) :
    dec.writeToIter (k + 4) (dst (v / 85) 4 m o) (dig v 1) =
      some ([v / 16777216 % 256, v / 65536 % 256, v / 256 % 256, v % 256],
        dst 0 0 (some 4) (outs v)) :=
  dec.writeToIter_of rfl (dec_write5 hv)
    (dec_drain (k := k) [v / 16777216 % 256, v / 65536 % 256, v / 256 % 256, v % 256] 0
      { dst v 5 (some 4) (outs v) with hasItems := true, needItems := false }
      (by simp) rfl rfl (by simp) rfl ⟨[], rfl⟩)

/-- One padding character. -/
theorem dec_pad {a w : Nat} {m : Option Nat} {o : List (Option Nat)}
    (ha : a * 85 + 84 < 4294967296) (hw : w < 4) :
    (dst a w m o).write 35 = some (dst (a * 85 + 84) (w + 1) m o) := by
  have e : (a * 85 + 84) % 4294967296 = a * 85 + 84 := by omega
  have h2 : decoder[35 - 32]? = some 84 := by decide
  simp only [Dec.write, dst, h2, if_false, Bool.false_eq_true, e, Nat.reduceLT, Nat.reduceLeDiff,
    or_self]
  rw [if_neg (by omega)]

theorem dec_pad5 {a : Nat} {m : Option Nat} {o : List (Option Nat)}
    (ha : a * 85 + 84 < 4294967296) :
    (dst a 4 m o).write 35 = some { dst (a * 85 + 84) 5 (some 4) (outs (a * 85 + 84)) with
      hasItems := true, needItems := false } := by
  have e : (a * 85 + 84) % 4294967296 = a * 85 + 84 := by omega
  have h2 : decoder[35 - 32]? = some 84 := by decide
  simp only [Dec.write, dst, h2, if_false, Bool.false_eq_true, e, Nat.reduceLT, Nat.reduceLeDiff,
    or_self, if_true, Nat.shiftRight_eq_div_pow, Nat.reduceAdd, Nat.reducePow, Nat.div_one, outs]

theorem flush_of {a w n : Nat} {m : Option Nat} {o : List (Option Nat)} {s : Dec}
    (hw : w ≠ 0) (h : Dec.writePad (5 - w) (dst a w m o) = some s) (hm : s.maxreadpos = some n) :
    dec.flush (dst a w m o) =
      some { s with maxreadpos := some ((n + 256 - (5 - w)) % 256), eolb := true } := by
  have e : (dst a w m o).wrpos = w := rfl
  simp only [dec, Dec.flush, e, h, hm, ne_eq, hw, not_false_eq_true, if_true]

theorem bytes4 {x a b c d : Nat} (hx : x = ((a * 256 + b) * 256 + c) * 256 + d)
    (ha : a < 256) (hb : b < 256) (hc : c < 256) (hd : d < 256) :
    x / 16777216 % 256 = a ∧ x / 65536 % 256 = b ∧ x / 256 % 256 = c ∧ x % 256 = d := by
  omega

theorem dec_tail3 {a k : Nat} {m : Option Nat} {o : List (Option Nat)}
    (ha : a * 85 + 84 < 4294967296) :
    ∃ s, dec.flushToIter (k + 4) (dst a 4 m o) =
      some ([(a * 85 + 84) / 16777216 % 256, (a * 85 + 84) / 65536 % 256,
        (a * 85 + 84) / 256 % 256], s) := by
  have hf : dec.flush (dst a 4 m o) = some { dst (a * 85 + 84) 5 (some 3) (outs (a * 85 + 84)) with
      hasItems := true, needItems := false, eolb := true } := by
    exact flush_of (w := 4) (a := a) (m := m) (o := o) (s := { dst (a * 85 + 84) 5 (some 4) (outs (a * 85 + 84)) with hasItems := true, needItems := false })
      (by decide) (by simp only [Dec.writePad, dec_pad5 ha]) rfl
  exact ⟨_, by
    rw [Conv.flushToIter, hf]
    exact dec_drain (k := k + 1) [(a * 85 + 84) / 16777216 % 256, (a * 85 + 84) / 65536 % 256,
        (a * 85 + 84) / 256 % 256] 0 _ (by simp) rfl rfl (by simp) rfl ⟨_, rfl⟩⟩

theorem dec_tail2 {a k : Nat} {m : Option Nat} {o : List (Option Nat)}
    (ha : (a * 85 + 84) * 85 + 84 < 4294967296) :
    ∃ s, dec.flushToIter (k + 4) (dst a 3 m o) =
      some ([((a * 85 + 84) * 85 + 84) / 16777216 % 256,
        ((a * 85 + 84) * 85 + 84) / 65536 % 256], s) := by
  have hf : dec.flush (dst a 3 m o) = some { dst ((a * 85 + 84) * 85 + 84) 5 (some 2)
      (outs ((a * 85 + 84) * 85 + 84)) with hasItems := true, needItems := false, eolb := true } := by
    exact flush_of (w := 3) (a := a) (m := m) (o := o) (s := { dst ((a * 85 + 84) * 85 + 84) 5 (some 4) (outs ((a * 85 + 84) * 85 + 84)) with hasItems := true, needItems := false })
      (by decide) (by
      simp only [Dec.writePad, dec_pad (a := a) (w := 3) (by omega) (by omega), dec_pad5 ha]) rfl
  exact ⟨_, by
    rw [Conv.flushToIter, hf]
    exact dec_drain (k := k + 2) [((a * 85 + 84) * 85 + 84) / 16777216 % 256,
      ((a * 85 + 84) * 85 + 84) / 65536 % 256] 0 _ (by simp) rfl rfl (by simp) rfl ⟨_, rfl⟩⟩

theorem dec_tail1 {a k : Nat} {m : Option Nat} {o : List (Option Nat)}
    (ha : ((a * 85 + 84) * 85 + 84) * 85 + 84 < 4294967296) :
    ∃ s, dec.flushToIter (k + 4) (dst a 2 m o) =
      some ([(((a * 85 + 84) * 85 + 84) * 85 + 84) / 16777216 % 256], s) := by
  have aux : ∀ y, y * 85 + 84 < 4294967296 → y < 4294967296 := by
    clear ha; omega
  have h2 := aux _ ha
  have h1 := aux _ h2
  have hf : dec.flush (dst a 2 m o) = some { dst (((a * 85 + 84) * 85 + 84) * 85 + 84) 5 (some 1)
      (outs (((a * 85 + 84) * 85 + 84) * 85 + 84)) with
      hasItems := true, needItems := false, eolb := true } := by
    exact flush_of (w := 2) (a := a) (m := m) (o := o) (s := { dst (((a * 85 + 84) * 85 + 84) * 85 + 84) 5 (some 4) (outs (((a * 85 + 84) * 85 + 84) * 85 + 84)) with hasItems := true, needItems := false })
      (by decide) (by
      have p1 : (dst a 2 m o).write 35 = some (dst (a * 85 + 84) 3 m o) :=
        dec_pad h1 (by decide)
      have p2 : (dst (a * 85 + 84) 3 m o).write 35 = some (dst ((a * 85 + 84) * 85 + 84) 4 m o) :=
        dec_pad h2 (by decide)
      simp only [Dec.writePad, p1, p2, dec_pad5 ha]) rfl
  exact ⟨_, by
    rw [Conv.flushToIter, hf]
    exact dec_drain (k := k + 3) [(((a * 85 + 84) * 85 + 84) * 85 + 84) / 16777216 % 256] 0 _
      (by simp) rfl rfl (by simp) rfl ⟨_, rfl⟩⟩

theorem dec_first {v k : Nat} {m : Option Nat} {o : List (Option Nat)} (hv : v < 4294967296) :
    dec.writeToIter (k + 4) (dst 0 0 m o) (dig v 52200625) =
      some ([], dst (v / 52200625) 1 m o) := by
  have := dec_small (v := v) (p := 52200625) (w := 0) (k := k) (m := m) (o := o) (by decide)
    (by omega) (by decide)
  rwa [show v / (52200625 * 85) = 0 by omega] at this

theorem dec_run (k : Nat) (bs : List Nat) : ∀ (m : Option Nat) (o : List (Option Nat)),
    Bytes bs → dec.run (k + 4) (dst 0 0 m o) (z85 bs) = some bs := by
  fun_induction z85 bs with
  | case1 a b c d rest v ih =>
    intro m o hb
    simp only [Bytes_cons] at hb
    obtain ⟨ha, hb, hc, hd, hr⟩ := hb
    have hv : v < 4294967296 := by omega
    simp only [List.cons_append, List.nil_append]
    rw [dec.run_cons (dec_first hv),
      dec.run_cons (dec_small (p := 614125) (by decide) (by omega) (by decide)),
      dec.run_cons (dec_small (p := 7225) (by decide) (by omega) (by decide)),
      dec.run_cons (dec_small (p := 85) (by decide) (by omega) (by decide)),
      dec.run_cons (dec_full hv), ih _ _ hr]
    simp only [Option.map_some, List.nil_append, List.cons_append]
    rw [show v / 16777216 % 256 = a by omega, show v / 65536 % 256 = b by omega,
      show v / 256 % 256 = c by omega, show v % 256 = d by omega]
  | case2 a b c v =>
    intro m o hb
    simp only [Bytes_cons] at hb
    obtain ⟨ha, hb, hc, -⟩ := hb
    have hv : v < 4294967296 := by omega
    obtain ⟨s, hs⟩ := dec_tail3 (a := v / 85) (k := k) (m := m) (o := o) (by omega)
    rw [dec.run_cons (dec_first hv),
      dec.run_cons (dec_small (p := 614125) (by decide) (by omega) (by decide)),
      dec.run_cons (dec_small (p := 7225) (by decide) (by omega) (by decide)),
      dec.run_cons (dec_small (p := 85) (by decide) (by omega) (by decide)), dec.run_nil, hs]
    simp only [Option.map_some, List.nil_append]
    obtain ⟨r, hr, hx⟩ : ∃ r, r < 256 ∧ v / 85 * 85 + 84 = ((a * 256 + b) * 256 + c) * 256 + r :=
      ⟨84 - v % 85, by omega, by omega⟩
    obtain ⟨e1, e2, e3, -⟩ := bytes4 hx ha hb hc hr
    rw [e1, e2, e3]
  | case3 a b v =>
    intro m o hb
    simp only [Bytes_cons] at hb
    obtain ⟨ha, hb, -⟩ := hb
    have hv : v < 4294967296 := by omega
    obtain ⟨s, hs⟩ := dec_tail2 (a := v / 7225) (k := k) (m := m) (o := o) (by omega)
    rw [dec.run_cons (dec_first hv),
      dec.run_cons (dec_small (p := 614125) (by decide) (by omega) (by decide)),
      dec.run_cons (dec_small (p := 7225) (by decide) (by omega) (by decide)), dec.run_nil, hs]
    simp only [Option.map_some, List.nil_append]
    obtain ⟨r, hr, hx⟩ : ∃ r, r < 65536 ∧
        (v / 7225 * 85 + 84) * 85 + 84 = (a * 256 + b) * 65536 + r :=
      ⟨7224 - v % 7225, by omega, by omega⟩
    obtain ⟨e1, e2, -⟩ := bytes4 (x := (a * 256 + b) * 65536 + r) (a := a) (b := b) (c := r / 256)
      (d := r % 256) (by clear hx; omega) ha hb (by clear hx; omega) (by clear hx; omega)
    rw [hx, e1, e2]
  | case4 a v =>
    intro m o hb
    simp only [Bytes_cons] at hb
    obtain ⟨ha, -⟩ := hb
    have hv : v < 4294967296 := by omega
    obtain ⟨s, hs⟩ := dec_tail1 (a := v / 614125) (k := k) (m := m) (o := o) (by omega)
    rw [dec.run_cons (dec_first hv),
      dec.run_cons (dec_small (p := 614125) (by decide) (by omega) (by decide)), dec.run_nil, hs]
    simp only [Option.map_some, List.nil_append]
    obtain ⟨r, hr, hx⟩ : ∃ r, r < 16777216 ∧
        ((v / 614125 * 85 + 84) * 85 + 84) * 85 + 84 = a * 16777216 + r :=
      ⟨614124 - v % 614125, by omega, by omega⟩
    rw [hx]
    congr 2
    clear hx hv hs v
    omega
  | case5 => intro m o _; rfl

/-! ## Property theorems -/

/-- C07 (part that holds): when the number of bytes is not a multiple of four, the encoder
produces the Z85 text of the input. Missing for the full property: lengths divisible by four,
where the encoder is wrong (`C07_multiple_of_four_violated`, `C07_empty_violated`). -/
theorem C07_encode_partial (bs : List Nat) (h : Bytes bs) (hl : bs.length % 4 ≠ 0) :
    enc.run 5 {} bs = some (z85 bs) :=
  enc_run 0 bs 0 _ rfl h hl

/-- C07: the decoder inverts Z85 for every byte string. -/
theorem C07_decode (bs : List Nat) (h : Bytes bs) : dec.run 4 {} (z85 bs) = some bs :=
  dec_run 0 bs none _ h

/-- C07 (part that holds): round trip when the length is not a multiple of four. -/
theorem C07_roundtrip_partial (bs : List Nat) (h : Bytes bs) (hl : bs.length % 4 ≠ 0) :
    (enc.run 5 {} bs).bind (dec.run 4 {}) = some bs := by
  rw [C07_encode_partial bs h hl]; exact C07_decode bs h

/-- C07 is false for the code: four bytes come back as eight. -/
theorem C07_multiple_of_four_violated :
    Bytes [1, 2, 3, 4] ∧ (enc.run 5 {} [1, 2, 3, 4]).bind (dec.run 4 {}) =
      some [1, 2, 3, 4, 1, 2, 3, 4] := by
  decide +kernel

/-- C07 is false for the code: encoding nothing reads an uninitialised character. -/
theorem C07_empty_violated (k : Nat) : enc.run (k + 1) {} [] = none := rfl

example : enc.run 5 {} [0x86, 0x4f, 0xd2, 0x6f, 0xb5, 0x59] = some (z85 [0x86, 0x4f, 0xd2, 0x6f, 0xb5, 0x59]) :=
  C07_encode_partial _ (by decide) (by decide)
example : (z85 [0x86, 0x4f, 0xd2, 0x6f, 0xb5, 0x59, 0xf7, 0x5b]).map Char.ofNat = "HelloWorld".toList := by
  decide +kernel
example : dec.run 4 {} (z85 [0x86, 0x4f, 0xd2, 0x6f]) = some [0x86, 0x4f, 0xd2, 0x6f] :=
  C07_decode _ (by decide)

end LS.Base85

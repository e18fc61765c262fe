import Verif.Base32
/-! # Property C05: Base32 -/

namespace LS.Base32
open LS.Base64 (cell)

/-! ## Specification (RFC 4648 section 6), independent of the converters -/

def rfcPad (pad n : Nat) : List Nat := if pad = 0 then [] else List.replicate n pad

/-- The base-32 digit of `v` with weight `p`, as a character. -/
def dig (t : List Nat) (v p : Nat) : Nat := t.getD (v / p % 32) 0

/-- RFC 4648: 40-bit groups, eight 5-bit digits each; a short last group is filled with zero
bits, only digits that carry data are written, then padding up to eight characters. -/
def rfc4648 (t : List Nat) (pad : Nat) : List Nat → List Nat
  | a :: b :: c :: d :: e :: rest =>
    let v := (((a * 256 + b) * 256 + c) * 256 + d) * 256 + e
    [dig t v 34359738368, dig t v 1073741824, dig t v 33554432, dig t v 1048576,
      dig t v 32768, dig t v 1024, dig t v 32, dig t v 1] ++ rfc4648 t pad rest
  | [a, b, c, d] =>
    let v := (((a * 256 + b) * 256 + c) * 256 + d) * 256
    [dig t v 34359738368, dig t v 1073741824, dig t v 33554432, dig t v 1048576,
      dig t v 32768, dig t v 1024, dig t v 32] ++ rfcPad pad 1
  | [a, b, c] =>
    let v := ((a * 256 + b) * 256 + c) * 65536
    [dig t v 34359738368, dig t v 1073741824, dig t v 33554432, dig t v 1048576,
      dig t v 32768] ++ rfcPad pad 3
  | [a, b] =>
    let v := (a * 256 + b) * 16777216
    [dig t v 34359738368, dig t v 1073741824, dig t v 33554432, dig t v 1048576] ++ rfcPad pad 4
  | [a] =>
    let v := a * 4294967296
    [dig t v 34359738368, dig t v 1073741824] ++ rfcPad pad 6
  | [] => []

/-- A usable alphabet: 32 different 7-bit characters, none of them the padding character. -/
structure Alphabet (t : List Nat) (pad : Nat) : Prop where
  len : t.length = 32
  nodup : t.Nodup
  ascii : ∀ c ∈ t, c < 128
  nopad : pad ∉ t

/-! ## Helper lemmas: encoder -/

theorem lookup {t : List Nat} (ht : t.length = 32) {i : Nat} (hi : i < 32) :
    t[i]? = some (t.getD i 0) := by
  rw [List.getD_eq_getElem?_getD, List.getElem?_eq_getElem (by omega)]; rfl

def est (t : List Nat) (pad w r : Nat) (o : List (Option Nat)) : Enc :=
  { table := t, padChar := pad, wrbyte := w, readpos := r, outchars := o }

variable {t : List Nat} {pad k : Nat} {x0 x1 x2 x3 x4 x5 x6 x7 : Option Nat}

theorem enc_write1 (ht : t.length = 32) {a : Nat} (ha : a < 256) :
    enc.writeToIter (k + 8) (est t pad 0 0 [x0, x1, x2, x3, x4, x5, x6, x7]) a =
      some ([t.getD (a / 8) 0],
        est t pad 1 1 [some (t.getD (a / 8) 0), some (a % 8 * 4), x2, x3, x4, x5, x6, x7]) := by
  have h : t[a >>> 3]? = some (t.getD (a / 8) 0) := by
    rw [Nat.shiftRight_eq_div_pow]; exact lookup ht (by omega)
  have h2 : (a &&& 7) <<< 2 = a % 8 * 4 := by rw [and_7, Nat.shiftLeft_eq]
  simp [Conv.writeToIter, Conv.drain, enc, est, Enc.write, Enc.getNext, h, h2, cell]

theorem enc_write2 (ht : t.length = 32) {a b : Nat} (hb : b < 256) :
    enc.writeToIter (k + 8) (est t pad 1 1 [x0, some (a % 8 * 4), x2, x3, x4, x5, x6, x7]) b =
      some ([t.getD (a % 8 * 4 + b / 64) 0, t.getD (b / 2 % 32) 0],
        est t pad 2 3 [x0, some (t.getD (a % 8 * 4 + b / 64) 0), some (t.getD (b / 2 % 32) 0),
          some (b % 2 * 16), x4, x5, x6, x7]) := by
  have h : t[a % 8 * 4 ||| b >>> 6]? = some (t.getD (a % 8 * 4 + b / 64) 0) := by
    have := shl_or (a % 8) (b >>> 6) 2 (by rw [Nat.shiftRight_eq_div_pow]; omega)
    rw [Nat.shiftLeft_eq] at this
    rw [show a % 8 * 4 ||| b >>> 6 = a % 8 * 4 + b >>> 6 from this, Nat.shiftRight_eq_div_pow]
    exact lookup ht (by omega)
  have h2 : t[(b >>> 1) &&& 31]? = some (t.getD (b / 2 % 32) 0) := by
    rw [and_31, Nat.shiftRight_eq_div_pow]; exact lookup ht (by omega)
  have h3 : (b % 2) <<< 4 = b % 2 * 16 := by rw [Nat.shiftLeft_eq]
  simp [Conv.writeToIter, Conv.drain, enc, est, Enc.write, Enc.getNext, h, h2, h3, cell]

theorem enc_write3 (ht : t.length = 32) {b c : Nat} (hc : c < 256) :
    enc.writeToIter (k + 8) (est t pad 2 3 [x0, x1, x2, some (b % 2 * 16), x4, x5, x6, x7]) c =
      some ([t.getD (b % 2 * 16 + c / 16) 0],
        est t pad 3 4 [x0, x1, x2, some (t.getD (b % 2 * 16 + c / 16) 0), some (c % 16 * 2),
          x5, x6, x7]) := by
  have h : t[b % 2 * 16 ||| c >>> 4]? = some (t.getD (b % 2 * 16 + c / 16) 0) := by
    have := shl_or (b % 2) (c >>> 4) 4 (by rw [Nat.shiftRight_eq_div_pow]; omega)
    rw [Nat.shiftLeft_eq] at this
    rw [show b % 2 * 16 ||| c >>> 4 = b % 2 * 16 + c >>> 4 from this, Nat.shiftRight_eq_div_pow]
    exact lookup ht (by omega)
  have h3 : (c &&& 15) <<< 1 = c % 16 * 2 := by rw [and_15, Nat.shiftLeft_eq]
  simp [Conv.writeToIter, Conv.drain, enc, est, Enc.write, Enc.getNext, h, h3, cell]

theorem enc_write4 (ht : t.length = 32) {c d : Nat} (hd : d < 256) :
    enc.writeToIter (k + 8) (est t pad 3 4 [x0, x1, x2, x3, some (c % 16 * 2), x5, x6, x7]) d =
      some ([t.getD (c % 16 * 2 + d / 128) 0, t.getD (d / 4 % 32) 0],
        est t pad 4 6 [x0, x1, x2, x3, some (t.getD (c % 16 * 2 + d / 128) 0),
          some (t.getD (d / 4 % 32) 0), some (d % 4 * 8), x7]) := by
  have h : t[c % 16 * 2 ||| d >>> 7]? = some (t.getD (c % 16 * 2 + d / 128) 0) := by
    have := shl_or (c % 16) (d >>> 7) 1 (by rw [Nat.shiftRight_eq_div_pow]; omega)
    rw [Nat.shiftLeft_eq] at this
    rw [show c % 16 * 2 ||| d >>> 7 = c % 16 * 2 + d >>> 7 from this, Nat.shiftRight_eq_div_pow]
    exact lookup ht (by omega)
  have h2 : t[(d >>> 2) &&& 31]? = some (t.getD (d / 4 % 32) 0) := by
    rw [and_31, Nat.shiftRight_eq_div_pow]; exact lookup ht (by omega)
  have h3 : (d &&& 3) <<< 3 = d % 4 * 8 := by rw [and_3, Nat.shiftLeft_eq]
  simp [Conv.writeToIter, Conv.drain, enc, est, Enc.write, Enc.getNext, h, h2, h3, cell]

theorem enc_write5 (ht : t.length = 32) {d e : Nat} (he : e < 256) :
    enc.writeToIter (k + 8) (est t pad 4 6 [x0, x1, x2, x3, x4, x5, some (d % 4 * 8), x7]) e =
      some ([t.getD (d % 4 * 8 + e / 32) 0, t.getD (e % 32) 0],
        est t pad 0 0 [x0, x1, x2, x3, x4, x5, some (t.getD (d % 4 * 8 + e / 32) 0),
          some (t.getD (e % 32) 0)]) := by
  have h : t[d % 4 * 8 ||| e >>> 5]? = some (t.getD (d % 4 * 8 + e / 32) 0) := by
    have := shl_or (d % 4) (e >>> 5) 3 (by rw [Nat.shiftRight_eq_div_pow]; omega)
    rw [Nat.shiftLeft_eq] at this
    rw [show d % 4 * 8 ||| e >>> 5 = d % 4 * 8 + e >>> 5 from this, Nat.shiftRight_eq_div_pow]
    exact lookup ht (by omega)
  have h2 : t[e &&& 31]? = some (t.getD (e % 32) 0) := by
    rw [and_31]; exact lookup ht (by omega)
  simp [Conv.writeToIter, Conv.drain, enc, est, Enc.write, Enc.getNext, h, h2, cell]

theorem enc_flush0 :
    ∃ s, enc.flushToIter (k + 8) (est t pad 0 0 [x0, x1, x2, x3, x4, x5, x6, x7]) = some ([], s) := by
  simp [Conv.flushToIter, Conv.drain, enc, est, Enc.flush]

/-- Encoder state after a padded flush. -/
def fin (t : List Nat) (pad r : Nat) (o : List (Option Nat)) : Enc :=
  { table := t, padChar := pad, wrbyte := 5, readpos := r, outchars := o, eolb := true,
    needItems := false, hasItems := true }

theorem drain_fin (l : List Nat) : ∀ (r : Nat) (o : List (Option Nat)),
    o.drop r = l.map some → l ≠ [] → r + l.length = 8 →
    ∃ s, enc.drain (k + l.length) (fin t pad r o) = some (l, s) := by
  induction l with
  | nil => intro r o _ h _; exact absurd rfl h
  | cons x l ih =>
    intro r o ho _ hr
    have hc : cell o r = some x := by
      have : o[r]? = some (some x) := by
        have := congrArg (·[0]?) ho
        simpa using this
      simp [cell, this]
    have ho' : o.drop (r + 1) = l.map some := by
      have := congrArg List.tail ho
      simpa using this
    cases l with
    | nil =>
      simp only [List.length_cons, List.length_nil] at hr
      have hg : enc.getNext (fin t pad r o) =
          some (x, { fin t pad 0 o with wrbyte := 0, needItems := true, hasItems := false }) := by
        simp only [enc, Enc.getNext, fin, hc]
        rw [if_pos (by omega)]
      exact ⟨_, enc.drain_step rfl hg (enc.drain_idle rfl)⟩
    | cons y l =>
      simp only [List.length_cons] at hr
      have hg : enc.getNext (fin t pad r o) = some (x, fin t pad (r + 1) o) := by
        simp only [enc, Enc.getNext, fin, hc]
        rw [if_neg (by omega), decide_eq_true (by omega : r + 1 < 5 * 8 / 5)]
      obtain ⟨s, hs⟩ := ih (r + 1) o ho' (by simp) (by simp only [List.length_cons]; omega)
      exact ⟨s, enc.drain_step rfl hg hs⟩

theorem enc_flush1 (ht : t.length = 32) (hp : pad ≠ 0) {a : Nat} :
    ∃ s, enc.flushToIter (k + 8) (est t pad 1 1 [x0, some (a % 8 * 4), x2, x3, x4, x5, x6, x7]) =
      some (t.getD (a % 8 * 4) 0 :: rfcPad pad 6, s) := by
  have h : t[a % 8 * 4]? = some (t.getD (a % 8 * 4) 0) := lookup ht (by omega)
  generalize t.getD (a % 8 * 4) 0 = c at *
  have hf : enc.flush (est t pad 1 1 [x0, some (a % 8 * 4), x2, x3, x4, x5, x6, x7]) =
      some (fin t pad 1 [x0, some c, some pad, some pad, some pad, some pad, some pad, some pad]) := by
    simp [enc, est, Enc.flush, h, cell, hp, padFrom, fin]
  rw [Conv.flushToIter, hf, rfcPad, if_neg hp]
  exact drain_fin (k := k + 1) [c, pad, pad, pad, pad, pad, pad] 1 _ rfl (by simp) rfl

theorem enc_flush2 (ht : t.length = 32) (hp : pad ≠ 0) {a : Nat} :
    ∃ s, enc.flushToIter (k + 8) (est t pad 2 3 [x0, x1, x2, some (a % 2 * 16), x4, x5, x6, x7]) =
      some (t.getD (a % 2 * 16) 0 :: rfcPad pad 4, s) := by
  have h : t[a % 2 * 16]? = some (t.getD (a % 2 * 16) 0) := lookup ht (by omega)
  generalize t.getD (a % 2 * 16) 0 = c at *
  have hf : enc.flush (est t pad 2 3 [x0, x1, x2, some (a % 2 * 16), x4, x5, x6, x7]) =
      some (fin t pad 3 [x0, x1, x2, some c, some pad, some pad, some pad, some pad]) := by
    simp [enc, est, Enc.flush, h, cell, hp, padFrom, fin]
  rw [Conv.flushToIter, hf, rfcPad, if_neg hp]
  exact drain_fin (k := k + 3) [c, pad, pad, pad, pad] 3 _ rfl (by simp) rfl

theorem enc_flush3 (ht : t.length = 32) (hp : pad ≠ 0) {a : Nat} :
    ∃ s, enc.flushToIter (k + 8) (est t pad 3 4 [x0, x1, x2, x3, some (a % 16 * 2), x5, x6, x7]) =
      some (t.getD (a % 16 * 2) 0 :: rfcPad pad 3, s) := by
  have h : t[a % 16 * 2]? = some (t.getD (a % 16 * 2) 0) := lookup ht (by omega)
  generalize t.getD (a % 16 * 2) 0 = c at *
  have hf : enc.flush (est t pad 3 4 [x0, x1, x2, x3, some (a % 16 * 2), x5, x6, x7]) =
      some (fin t pad 4 [x0, x1, x2, x3, some c, some pad, some pad, some pad]) := by
    simp [enc, est, Enc.flush, h, cell, hp, padFrom, fin]
  rw [Conv.flushToIter, hf, rfcPad, if_neg hp]
  exact drain_fin (k := k + 4) [c, pad, pad, pad] 4 _ rfl (by simp) rfl

theorem enc_flush4 (ht : t.length = 32) (hp : pad ≠ 0) {a : Nat} :
    ∃ s, enc.flushToIter (k + 8) (est t pad 4 6 [x0, x1, x2, x3, x4, x5, some (a % 4 * 8), x7]) =
      some (t.getD (a % 4 * 8) 0 :: rfcPad pad 1, s) := by
  have h : t[a % 4 * 8]? = some (t.getD (a % 4 * 8) 0) := lookup ht (by omega)
  generalize t.getD (a % 4 * 8) 0 = c at *
  have hf : enc.flush (est t pad 4 6 [x0, x1, x2, x3, x4, x5, some (a % 4 * 8), x7]) =
      some (fin t pad 6 [x0, x1, x2, x3, x4, x5, some c, some pad]) := by
    simp [enc, est, Enc.flush, h, cell, hp, padFrom, fin]
  rw [Conv.flushToIter, hf, rfcPad, if_neg hp]
  exact drain_fin (k := k + 6) [c, pad] 6 _ rfl (by simp) rfl

theorem enc_run (ht : t.length = 32) (pad k : Nat) (bs : List Nat) :
    ∀ (x0 x1 x2 x3 x4 x5 x6 x7 : Option Nat), Bytes bs → (pad ≠ 0 ∨ bs.length % 5 = 0) →
    enc.run (k + 8) (est t pad 0 0 [x0, x1, x2, x3, x4, x5, x6, x7]) bs =
      some (rfc4648 t pad bs) := by
  fun_induction rfc4648 t pad bs with
  | case1 a b c d e rest v ih =>
    intro x0 x1 x2 x3 x4 x5 x6 x7 hb hl
    simp only [Bytes_cons] at hb
    obtain ⟨ha, hb, hc, hd, he, hr⟩ := hb
    have e0 : v / 34359738368 % 32 = a / 8 := by omega
    have e1 : v / 1073741824 % 32 = a % 8 * 4 + b / 64 := by omega
    have e2 : v / 33554432 % 32 = b / 2 % 32 := by omega
    have e3 : v / 1048576 % 32 = b % 2 * 16 + c / 16 := by omega
    have e4 : v / 32768 % 32 = c % 16 * 2 + d / 128 := by omega
    have e5 : v / 1024 % 32 = d / 4 % 32 := by omega
    have e6 : v / 32 % 32 = d % 4 * 8 + e / 32 := by omega
    have e7 : v / 1 % 32 = e % 32 := by omega
    rw [enc.run_cons (enc_write1 ht ha), enc.run_cons (enc_write2 ht hb), enc.run_cons (enc_write3 ht hc), enc.run_cons (enc_write4 ht hd), enc.run_cons (enc_write5 ht he),
      ih _ _ _ _ _ _ _ _ hr (by simp only [List.length_cons] at hl; omega)]
    simp only [dig, e0, e1, e2, e3, e4, e5, e6, e7]
    rfl
  | case2 a b c d v =>
    intro x0 x1 x2 x3 x4 x5 x6 x7 hb hl
    simp only [Bytes_cons] at hb
    obtain ⟨ha, hb, hc, hd, -⟩ := hb
    have e0 : v / 34359738368 % 32 = a / 8 := by omega
    have e1 : v / 1073741824 % 32 = a % 8 * 4 + b / 64 := by omega
    have e2 : v / 33554432 % 32 = b / 2 % 32 := by omega
    have e3 : v / 1048576 % 32 = b % 2 * 16 + c / 16 := by omega
    have e4 : v / 32768 % 32 = c % 16 * 2 + d / 128 := by omega
    have e5 : v / 1024 % 32 = d / 4 % 32 := by omega
    have e6 : v / 32 % 32 = d % 4 * 8 := by omega
    have hp : pad ≠ 0 := by
      rcases hl with h | h
      · exact h
      · simp at h
    obtain ⟨s, hs⟩ := enc_flush4 (k := k) ht hp (a := d)
      (x0 := some (t.getD (a / 8) 0))
      (x1 := some (t.getD (a % 8 * 4 + b / 64) 0))
      (x2 := some (t.getD (b / 2 % 32) 0))
      (x3 := some (t.getD (b % 2 * 16 + c / 16) 0))
      (x4 := some (t.getD (c % 16 * 2 + d / 128) 0))
      (x5 := some (t.getD (d / 4 % 32) 0)) (x7 := x7)
    rw [enc.run_cons (enc_write1 ht ha), enc.run_cons (enc_write2 ht hb), enc.run_cons (enc_write3 ht hc), enc.run_cons (enc_write4 ht hd), enc.run_nil, hs]
    simp only [dig, e0, e1, e2, e3, e4, e5, e6]
    rfl
  | case3 a b c v =>
    intro x0 x1 x2 x3 x4 x5 x6 x7 hb hl
    simp only [Bytes_cons] at hb
    obtain ⟨ha, hb, hc, -⟩ := hb
    have e0 : v / 34359738368 % 32 = a / 8 := by omega
    have e1 : v / 1073741824 % 32 = a % 8 * 4 + b / 64 := by omega
    have e2 : v / 33554432 % 32 = b / 2 % 32 := by omega
    have e3 : v / 1048576 % 32 = b % 2 * 16 + c / 16 := by omega
    have e4 : v / 32768 % 32 = c % 16 * 2 := by omega
    have hp : pad ≠ 0 := by
      rcases hl with h | h
      · exact h
      · simp at h
    obtain ⟨s, hs⟩ := enc_flush3 (k := k) ht hp (a := c)
      (x0 := some (t.getD (a / 8) 0))
      (x1 := some (t.getD (a % 8 * 4 + b / 64) 0))
      (x2 := some (t.getD (b / 2 % 32) 0))
      (x3 := some (t.getD (b % 2 * 16 + c / 16) 0)) (x5 := x5) (x6 := x6) (x7 := x7)
    rw [enc.run_cons (enc_write1 ht ha), enc.run_cons (enc_write2 ht hb), enc.run_cons (enc_write3 ht hc), enc.run_nil, hs]
    simp only [dig, e0, e1, e2, e3, e4]
    rfl
  | case4 a b v =>
    intro x0 x1 x2 x3 x4 x5 x6 x7 hb hl
    simp only [Bytes_cons] at hb
    obtain ⟨ha, hb, -⟩ := hb
    have e0 : v / 34359738368 % 32 = a / 8 := by omega
    have e1 : v / 1073741824 % 32 = a % 8 * 4 + b / 64 := by omega
    have e2 : v / 33554432 % 32 = b / 2 % 32 := by omega
    have e3 : v / 1048576 % 32 = b % 2 * 16 := by omega
    have hp : pad ≠ 0 := by
      rcases hl with h | h
      · exact h
      · simp at h
    obtain ⟨s, hs⟩ := enc_flush2 (k := k) ht hp (a := b)
      (x0 := some (t.getD (a / 8) 0))
      (x1 := some (t.getD (a % 8 * 4 + b / 64) 0))
      (x2 := some (t.getD (b / 2 % 32) 0)) (x4 := x4) (x5 := x5) (x6 := x6) (x7 := x7)
    rw [enc.run_cons (enc_write1 ht ha), enc.run_cons (enc_write2 ht hb), enc.run_nil, hs]
    simp only [dig, e0, e1, e2, e3]
    rfl
  | case5 a v =>
    intro x0 x1 x2 x3 x4 x5 x6 x7 hb hl
    simp only [Bytes_cons] at hb
    obtain ⟨ha, -⟩ := hb
    have e0 : v / 34359738368 % 32 = a / 8 := by omega
    have e1 : v / 1073741824 % 32 = a % 8 * 4 := by omega
    have hp : pad ≠ 0 := by
      rcases hl with h | h
      · exact h
      · simp at h
    obtain ⟨s, hs⟩ := enc_flush1 (k := k) ht hp (a := a)
      (x0 := some (t.getD (a / 8) 0)) (x2 := x2) (x3 := x3) (x4 := x4) (x5 := x5) (x6 := x6) (x7 := x7)
    rw [enc.run_cons (enc_write1 ht ha), enc.run_nil, hs]
    simp only [dig, e0, e1]
    rfl
  | case6 =>
    intro x0 x1 x2 x3 x4 x5 x6 x7 _ _
    obtain ⟨s, hs⟩ := enc_flush0 (t := t) (pad := pad) (k := k) (x0 := x0) (x1 := x1) (x2 := x2)
      (x3 := x3) (x4 := x4) (x5 := x5) (x6 := x6) (x7 := x7)
    rw [enc.run_nil, hs]; rfl

/-! ## Helper lemmas: decoder -/

/-- What the proofs need to know about a decoder table. -/
structure Table (cells : List (Option Nat)) (t : List Nat) (pad : Nat) : Prop where
  hit : ∀ i, i < 32 → cell cells (t.getD i 0) = some i
  nopad : ∀ i, i < 32 → t.getD i 0 ≠ pad

variable {cells : List (Option Nat)}

def dst (cells : List (Option Nat)) (pad w r : Nat) (o : List (Option Nat)) : Dec :=
  { table := cells, padChar := pad, wrpos := w, readpos := r, outBytes := o }

theorem dec_write_eq (h : Table cells t pad) {w r i : Nat} {o o' : List (Option Nat)}
    (hi : i < 32) (ho : Dec.store o w i = some o') :
    dec.write (dst cells pad w r o) (t.getD i 0) =
      some { dst cells pad (w + 1) r o' with hasItems := decide (r < (w + 1) * 5 / 8) } := by
  simp only [dec, Dec.write, dst, if_neg (h.nopad i hi), Bool.false_eq_true, if_false,
    h.hit i hi, ho]

/-- A character that completes no byte. -/
theorem dec_silent (h : Table cells t pad) {w r i : Nat} {o o' : List (Option Nat)}
    (hi : i < 32) (ho : Dec.store o w i = some o') (hr : (w + 1) * 5 / 8 ≤ r) :
    dec.writeToIter (k + 1) (dst cells pad w r o) (t.getD i 0) =
      some ([], dst cells pad (w + 1) r o') := by
  have hw := dec_write_eq h hi ho (r := r)
  rw [decide_eq_false (by omega)] at hw
  exact dec.writeToIter_of rfl hw (dec.drain_idle rfl)

/-- A character that completes byte `r`. -/
theorem dec_emit (h : Table cells t pad) {w r i x : Nat} {o o' : List (Option Nat)}
    (hi : i < 32) (ho : Dec.store o w i = some o') (hr : (w + 1) * 5 / 8 = r + 1) (h4 : r < 4)
    (hc : cell o' r = some x) :
    dec.writeToIter (k + 1) (dst cells pad w r o) (t.getD i 0) =
      some ([x], dst cells pad (w + 1) (r + 1) o') := by
  have hw := dec_write_eq h hi ho (r := r)
  rw [decide_eq_true (by omega)] at hw
  refine dec.writeToIter_of rfl hw (dec.drain_step rfl ?_ (dec.drain_idle rfl))
  simp only [dec, Dec.getNext, dst, hc]
  rw [if_neg (by omega), decide_eq_false (by omega)]

/-- The eighth character completes byte 4 and the group. -/
theorem dec_last (h : Table cells t pad) {i x : Nat} {o o' : List (Option Nat)}
    (hi : i < 32) (ho : Dec.store o 7 i = some o') (hc : cell o' 4 = some x) :
    dec.writeToIter (k + 1) (dst cells pad 7 4 o) (t.getD i 0) =
      some ([x], dst cells pad 0 0 o') := by
  have hw := dec_write_eq h hi ho (r := 4)
  refine dec.writeToIter_of rfl hw (dec.drain_step rfl ?_ (dec.drain_idle rfl))
  simp only [dec, Dec.getNext, dst, hc]
  rfl

section store
variable {y0 y1 y2 y3 y4 : Option Nat} {v b : Nat}

theorem store0 (hv : v < 32) : Dec.store [y0, y1, y2, y3, y4] 0 v =
    some [some (v * 8), y1, y2, y3, y4] := by
  have : (v <<< 3) &&& 255 = v * 8 := by rw [and_255, Nat.shiftLeft_eq]; omega
  simp [Dec.store, this]

theorem store1 (hv : v < 32) (hb : b < 32) : Dec.store [some (b * 8), y1, y2, y3, y4] 1 v =
    some [some (b * 8 + v / 4), some (v % 4 * 64), y2, y3, y4] := by
  have h1 : (b * 8 ||| v >>> 2) &&& 255 = b * 8 + v / 4 := by
    rw [and_255, Nat.shiftRight_eq_div_pow, or_add (k := 3) b rfl (by omega)]; omega
  have h2 : (v <<< 6) &&& 255 = v % 4 * 64 := by rw [and_255, Nat.shiftLeft_eq]; omega
  simp [Dec.store, orCell, cell, h1, h2]

theorem store2 (hv : v < 32) : Dec.store [y0, some (b % 4 * 64), y2, y3, y4] 2 v =
    some [y0, some (b % 4 * 64 + v * 2), y2, y3, y4] := by
  have h1 : (b % 4 * 64 ||| v <<< 1) &&& 255 = b % 4 * 64 + v * 2 := by
    rw [and_255, Nat.shiftLeft_eq, or_add (k := 6) (b % 4) rfl (by omega)]; omega
  simp [Dec.store, orCell, cell, h1]

theorem store3 {c : Nat} (hv : v < 32) (hc : c < 32) :
    Dec.store [y0, some (b % 4 * 64 + c * 2), y2, y3, y4] 3 v =
    some [y0, some (b % 4 * 64 + c * 2 + v / 16), some (v % 16 * 16), y3, y4] := by
  have h1 : (b % 4 * 64 + c * 2 ||| v >>> 4) &&& 255 = b % 4 * 64 + c * 2 + v / 16 := by
    rw [and_255, Nat.shiftRight_eq_div_pow,
      or_add (k := 1) (b % 4 * 32 + c) (by omega) (by omega)]; omega
  have h2 : (v <<< 4) &&& 255 = v % 16 * 16 := by rw [and_255, Nat.shiftLeft_eq]; omega
  simp [Dec.store, orCell, cell, h1, h2]

theorem store4 (hv : v < 32) : Dec.store [y0, y1, some (b % 16 * 16), y3, y4] 4 v =
    some [y0, y1, some (b % 16 * 16 + v / 2), some (v % 2 * 128), y4] := by
  have h1 : (b % 16 * 16 ||| v >>> 1) &&& 255 = b % 16 * 16 + v / 2 := by
    rw [and_255, Nat.shiftRight_eq_div_pow, or_add (k := 4) (b % 16) rfl (by omega)]; omega
  have h2 : (v <<< 7) &&& 255 = v % 2 * 128 := by rw [and_255, Nat.shiftLeft_eq]; omega
  simp only [Dec.store, orCell, cell, h1, h2]
  simp [h1]

theorem store5 (hv : v < 32) : Dec.store [y0, y1, y2, some (b % 2 * 128), y4] 5 v =
    some [y0, y1, y2, some (b % 2 * 128 + v * 4), y4] := by
  have h1 : (b % 2 * 128 ||| v <<< 2) &&& 255 = b % 2 * 128 + v * 4 := by
    rw [and_255, Nat.shiftLeft_eq, or_add (k := 7) (b % 2) rfl (by omega)]; omega
  simp [Dec.store, orCell, cell, h1]

theorem store6 {c : Nat} (hv : v < 32) (hc : c < 32) :
    Dec.store [y0, y1, y2, some (b % 2 * 128 + c * 4), y4] 6 v =
    some [y0, y1, y2, some (b % 2 * 128 + c * 4 + v / 8), some (v % 8 * 32)] := by
  have h1 : (b % 2 * 128 + c * 4 ||| v >>> 3) &&& 255 = b % 2 * 128 + c * 4 + v / 8 := by
    rw [and_255, Nat.shiftRight_eq_div_pow,
      or_add (k := 2) (b % 2 * 32 + c) (by omega) (by omega)]; omega
  have h2 : (v <<< 5) &&& 255 = v % 8 * 32 := by rw [and_255, Nat.shiftLeft_eq]; omega
  simp [Dec.store, orCell, cell, h1, h2]

theorem store7 (hv : v < 32) : Dec.store [y0, y1, y2, y3, some (b % 8 * 32)] 7 v =
    some [y0, y1, y2, y3, some (b % 8 * 32 + v)] := by
  have h1 : (b % 8 * 32 ||| v) &&& 255 = b % 8 * 32 + v := by
    rw [and_255, or_add (k := 5) (b % 8) rfl (by omega)]; omega
  simp [Dec.store, orCell, cell, h1]
end store

theorem dec_tail0 (s : Dec) (hs : s.hasItems = false) : dec.run (k + 1) s [] = some [] := by
  rw [dec.run_nil]
  have : dec.flushToIter (k + 1) s = some ([], { s with eolb := true }) := by
    have hf : dec.flush s = some { s with eolb := true } := rfl
    rw [Conv.flushToIter, hf]
    exact dec.drain_idle hs
  rw [this]; rfl

theorem dec_tail1 (n : Nat) : ∀ (s : Dec), s.hasItems = false →
    dec.run (k + 1) s (List.replicate n s.padChar) = some [] := by
  induction n with
  | zero => intro s hs; exact dec_tail0 s hs
  | succ n ih =>
    intro s hs
    have e : dec.writeToIter (k + 1) s s.padChar = some ([], { s with eolb := true }) := by
      refine dec.writeToIter_of (s1 := { s with eolb := true }) hs ?_ (dec.drain_idle hs)
      simp only [dec, Dec.write, if_pos]
    rw [List.replicate_succ, dec.run_cons e]
    have := ih { s with eolb := true } hs
    simp only at this
    rw [this]; rfl

theorem dec_tail {pad : Nat} (s : Dec) (hs : s.hasItems = false) (hp : s.padChar = pad) (n : Nat) :
    dec.run (k + 1) s (rfcPad pad n) = some [] := by
  subst hp
  unfold rfcPad
  split
  · exact dec_tail0 s hs
  · exact dec_tail1 n s hs

section chars
variable {y0 y1 y2 y3 y4 : Option Nat} {v b c : Nat} (h : Table cells t pad)
include h

theorem dec_c0 (hv : v < 32) : dec.writeToIter (k + 1) (dst cells pad 0 0 [y0, y1, y2, y3, y4])
    (t.getD v 0) = some ([], dst cells pad 1 0 [some (v * 8), y1, y2, y3, y4]) :=
  dec_silent h hv (store0 hv) (by decide)
theorem dec_c1 (hv : v < 32) (hb : b < 32) : dec.writeToIter (k + 1)
    (dst cells pad 1 0 [some (b * 8), y1, y2, y3, y4]) (t.getD v 0) =
    some ([b * 8 + v / 4], dst cells pad 2 1 [some (b * 8 + v / 4), some (v % 4 * 64), y2, y3, y4]) :=
  dec_emit h hv (store1 hv hb) (by decide) (by decide) rfl
theorem dec_c2 (hv : v < 32) : dec.writeToIter (k + 1)
    (dst cells pad 2 1 [y0, some (b % 4 * 64), y2, y3, y4]) (t.getD v 0) =
    some ([], dst cells pad 3 1 [y0, some (b % 4 * 64 + v * 2), y2, y3, y4]) :=
  dec_silent h hv (store2 hv) (by decide)
theorem dec_c3 (hv : v < 32) (hc : c < 32) : dec.writeToIter (k + 1)
    (dst cells pad 3 1 [y0, some (b % 4 * 64 + c * 2), y2, y3, y4]) (t.getD v 0) =
    some ([b % 4 * 64 + c * 2 + v / 16],
      dst cells pad 4 2 [y0, some (b % 4 * 64 + c * 2 + v / 16), some (v % 16 * 16), y3, y4]) :=
  dec_emit h hv (store3 hv hc) (by decide) (by decide) rfl
theorem dec_c4 (hv : v < 32) : dec.writeToIter (k + 1)
    (dst cells pad 4 2 [y0, y1, some (b % 16 * 16), y3, y4]) (t.getD v 0) =
    some ([b % 16 * 16 + v / 2],
      dst cells pad 5 3 [y0, y1, some (b % 16 * 16 + v / 2), some (v % 2 * 128), y4]) :=
  dec_emit h hv (store4 hv) (by decide) (by decide) rfl
theorem dec_c5 (hv : v < 32) : dec.writeToIter (k + 1)
    (dst cells pad 5 3 [y0, y1, y2, some (b % 2 * 128), y4]) (t.getD v 0) =
    some ([], dst cells pad 6 3 [y0, y1, y2, some (b % 2 * 128 + v * 4), y4]) :=
  dec_silent h hv (store5 hv) (by decide)
theorem dec_c6 (hv : v < 32) (hc : c < 32) : dec.writeToIter (k + 1)
    (dst cells pad 6 3 [y0, y1, y2, some (b % 2 * 128 + c * 4), y4]) (t.getD v 0) =
    some ([b % 2 * 128 + c * 4 + v / 8],
      dst cells pad 7 4 [y0, y1, y2, some (b % 2 * 128 + c * 4 + v / 8), some (v % 8 * 32)]) :=
  dec_emit h hv (store6 hv hc) (by decide) (by decide) rfl
theorem dec_c7 (hv : v < 32) : dec.writeToIter (k + 1)
    (dst cells pad 7 4 [y0, y1, y2, y3, some (b % 8 * 32)]) (t.getD v 0) =
    some ([b % 8 * 32 + v], dst cells pad 0 0 [y0, y1, y2, y3, some (b % 8 * 32 + v)]) :=
  dec_last h hv (store7 hv) rfl
end chars

theorem dec_run (h : Table cells t pad) (k : Nat) (bs : List Nat) :
    ∀ (y0 y1 y2 y3 y4 : Option Nat), Bytes bs →
    dec.run (k + 1) (dst cells pad 0 0 [y0, y1, y2, y3, y4]) (rfc4648 t pad bs) = some bs := by
  fun_induction rfc4648 t pad bs with
  | case1 a b c d e rest v ih =>
    intro y0 y1 y2 y3 y4 hb
    simp only [Bytes_cons] at hb
    obtain ⟨ha, hb, hc, hd, he, hr⟩ := hb
    have e0 : v / 34359738368 % 32 * 8 + v / 1073741824 % 32 / 4 = a := by omega
    have e1 : v / 1073741824 % 32 % 4 * 64 + v / 33554432 % 32 * 2 + v / 1048576 % 32 / 16 = b := by omega
    have e2 : v / 1048576 % 32 % 16 * 16 + v / 32768 % 32 / 2 = c := by omega
    have e3 : v / 32768 % 32 % 2 * 128 + v / 1024 % 32 * 4 + v / 32 % 32 / 8 = d := by omega
    have e4 : v / 32 % 32 % 8 * 32 + v / 1 % 32 = e := by omega
    simp only [dig, List.cons_append, List.nil_append]
    rw [dec.run_cons (dec_c0 h (Nat.mod_lt _ (by decide))),
      dec.run_cons (dec_c1 h (Nat.mod_lt _ (by decide)) (Nat.mod_lt _ (by decide))),
      dec.run_cons (dec_c2 h (Nat.mod_lt _ (by decide))),
      dec.run_cons (dec_c3 h (Nat.mod_lt _ (by decide)) (Nat.mod_lt _ (by decide))),
      dec.run_cons (dec_c4 h (Nat.mod_lt _ (by decide))),
      dec.run_cons (dec_c5 h (Nat.mod_lt _ (by decide))),
      dec.run_cons (dec_c6 h (Nat.mod_lt _ (by decide)) (Nat.mod_lt _ (by decide))),
      dec.run_cons (dec_c7 h (Nat.mod_lt _ (by decide))),
      ih _ _ _ _ _ hr, e0, e1, e2, e3, e4]
    rfl
  | case2 a b c d v =>
    intro y0 y1 y2 y3 y4 hb
    simp only [Bytes_cons] at hb
    obtain ⟨ha, hb, hc, hd, -⟩ := hb
    have e0 : v / 34359738368 % 32 * 8 + v / 1073741824 % 32 / 4 = a := by omega
    have e1 : v / 1073741824 % 32 % 4 * 64 + v / 33554432 % 32 * 2 + v / 1048576 % 32 / 16 = b := by omega
    have e2 : v / 1048576 % 32 % 16 * 16 + v / 32768 % 32 / 2 = c := by omega
    have e3 : v / 32768 % 32 % 2 * 128 + v / 1024 % 32 * 4 + v / 32 % 32 / 8 = d := by omega
    simp only [dig, List.cons_append, List.nil_append]
    rw [dec.run_cons (dec_c0 h (Nat.mod_lt _ (by decide))),
      dec.run_cons (dec_c1 h (Nat.mod_lt _ (by decide)) (Nat.mod_lt _ (by decide))),
      dec.run_cons (dec_c2 h (Nat.mod_lt _ (by decide))),
      dec.run_cons (dec_c3 h (Nat.mod_lt _ (by decide)) (Nat.mod_lt _ (by decide))),
      dec.run_cons (dec_c4 h (Nat.mod_lt _ (by decide))),
      dec.run_cons (dec_c5 h (Nat.mod_lt _ (by decide))),
      dec.run_cons (dec_c6 h (Nat.mod_lt _ (by decide)) (Nat.mod_lt _ (by decide))),
      dec_tail (pad := pad) (dst cells pad _ _ _) rfl rfl, e0, e1, e2, e3]
    rfl
  | case3 a b c v =>
    intro y0 y1 y2 y3 y4 hb
    simp only [Bytes_cons] at hb
    obtain ⟨ha, hb, hc, -⟩ := hb
    have e0 : v / 34359738368 % 32 * 8 + v / 1073741824 % 32 / 4 = a := by omega
    have e1 : v / 1073741824 % 32 % 4 * 64 + v / 33554432 % 32 * 2 + v / 1048576 % 32 / 16 = b := by omega
    have e2 : v / 1048576 % 32 % 16 * 16 + v / 32768 % 32 / 2 = c := by omega
    simp only [dig, List.cons_append, List.nil_append]
    rw [dec.run_cons (dec_c0 h (Nat.mod_lt _ (by decide))),
      dec.run_cons (dec_c1 h (Nat.mod_lt _ (by decide)) (Nat.mod_lt _ (by decide))),
      dec.run_cons (dec_c2 h (Nat.mod_lt _ (by decide))),
      dec.run_cons (dec_c3 h (Nat.mod_lt _ (by decide)) (Nat.mod_lt _ (by decide))),
      dec.run_cons (dec_c4 h (Nat.mod_lt _ (by decide))),
      dec_tail (pad := pad) (dst cells pad _ _ _) rfl rfl, e0, e1, e2]
    rfl
  | case4 a b v =>
    intro y0 y1 y2 y3 y4 hb
    simp only [Bytes_cons] at hb
    obtain ⟨ha, hb, -⟩ := hb
    have e0 : v / 34359738368 % 32 * 8 + v / 1073741824 % 32 / 4 = a := by omega
    have e1 : v / 1073741824 % 32 % 4 * 64 + v / 33554432 % 32 * 2 + v / 1048576 % 32 / 16 = b := by omega
    simp only [dig, List.cons_append, List.nil_append]
    rw [dec.run_cons (dec_c0 h (Nat.mod_lt _ (by decide))),
      dec.run_cons (dec_c1 h (Nat.mod_lt _ (by decide)) (Nat.mod_lt _ (by decide))),
      dec.run_cons (dec_c2 h (Nat.mod_lt _ (by decide))),
      dec.run_cons (dec_c3 h (Nat.mod_lt _ (by decide)) (Nat.mod_lt _ (by decide))),
      dec_tail (pad := pad) (dst cells pad _ _ _) rfl rfl, e0, e1]
    rfl
  | case5 a v =>
    intro y0 y1 y2 y3 y4 hb
    simp only [Bytes_cons] at hb
    obtain ⟨ha, -⟩ := hb
    have e0 : v / 34359738368 % 32 * 8 + v / 1073741824 % 32 / 4 = a := by omega
    simp only [dig, List.cons_append, List.nil_append]
    rw [dec.run_cons (dec_c0 h (Nat.mod_lt _ (by decide))),
      dec.run_cons (dec_c1 h (Nat.mod_lt _ (by decide)) (Nat.mod_lt _ (by decide))),
      dec_tail (pad := pad) (dst cells pad _ _ _) rfl rfl, e0]
    rfl
  | case6 =>
    intro y0 y1 y2 y3 y4 _
    exact dec_tail0 _ rfl

/-! ### Table construction -/

theorem initTable_aux (t : List Nat) : ∀ (n : Nat) (cells : List (Option Nat)),
    t.Nodup → (∀ c ∈ t, c < cells.length) →
    let r := (t.zipIdx n).foldl (fun acc (p : Nat × Nat) =>
      if false = true then
        (acc.set (toUpper p.1) (some (p.2 &&& 31))).set (toLower p.1) (some (p.2 &&& 31))
      else acc.set p.1 (some (p.2 &&& 31))) cells
    (∀ i (h : i < t.length), cell r t[i] = some ((n + i) &&& 31)) ∧
    (∀ x, x ∉ t → cell r x = cell cells x) := by
  induction t with
  | nil => intro n cells _ _; simp
  | cons a t ih =>
    intro n cells hn hl
    simp only [List.nodup_cons] at hn
    obtain ⟨hna, hn⟩ := hn
    have hl2 : ∀ c ∈ t, c < (cells.set a (some (n &&& 31))).length := by
      intro c hc; rw [List.length_set]; exact hl c (List.mem_cons_of_mem _ hc)
    obtain ⟨h1, h2⟩ := ih (n + 1) (cells.set a (some (n &&& 31))) hn hl2
    simp only [List.zipIdx_cons, List.foldl_cons]
    have ha : a < cells.length := hl a (List.mem_cons_self ..)
    constructor
    · intro i hi
      cases i with
      | zero =>
        simp only [List.getElem_cons_zero]
        refine (h2 a hna).trans ?_
        simp [cell, ha]
      | succ i =>
        simp only [List.getElem_cons_succ]
        rw [show n + (i + 1) = n + 1 + i by omega]
        exact h1 i (by simpa using hi)
    · intro x hx
      simp only [List.mem_cons, not_or] at hx
      refine (h2 x hx.2).trans ?_
      simp only [cell]
      rw [List.getElem?_set_ne (fun h => hx.1 h.symm)]

theorem initTable_table (h : Alphabet t pad) :
    Table (initTable t false (List.replicate 256 none)) t pad := by
  have h1 := (initTable_aux t 0 (List.replicate 256 none) h.nodup
    (by intro c hc; have := h.ascii c hc; rw [List.length_replicate]; omega)).1
  have hg : ∀ i (hi : i < 32), t.getD i 0 = t[i]'(by have := h.len; omega) := by
    intro i hi
    rw [List.getD_eq_getElem?_getD, List.getElem?_eq_getElem (by have := h.len; omega)]; rfl
  constructor
  · intro i hi
    have := h1 i (by have := h.len; omega)
    rw [hg i hi]
    unfold initTable
    refine this.trans ?_
    rw [and_31]; congr 1; omega
  · intro i hi he
    rw [hg i hi] at he
    exact h.nopad (he ▸ List.getElem_mem _)

/-! ## Property theorems -/

/-- C05 (encoding half): with a padding character the encoder writes exactly the RFC 4648
text; without one it does so for lengths that are multiples of five. -/
theorem C05_encode_is_rfc4648_partial (h : Alphabet t pad) {bs : List Nat} (hb : Bytes bs)
    (hp : pad ≠ 0 ∨ bs.length % 5 = 0) {fuel : Nat} (hf : 8 ≤ fuel) :
    enc.run fuel (Enc.new t pad) bs = some (rfc4648 t pad bs) := by
  obtain ⟨k, rfl⟩ : ∃ k, fuel = k + 8 := ⟨fuel - 8, by omega⟩
  exact enc_run h.len pad k bs none none none none none none none none hb hp

/-- C05 restricted to padded mode, or unpadded input of whole groups. Missing for the full
claim: unpadded mode with a partial last group, which the code gets wrong, see
`C05_unpadded_violated`. -/
theorem C05_roundtrip_partial (h : Alphabet t pad) {bs : List Nat} (hb : Bytes bs)
    (hp : pad ≠ 0 ∨ bs.length % 5 = 0) {fuel : Nat} (hf : 8 ≤ fuel) :
    ∃ text, enc.run fuel (Enc.new t pad) bs = some text ∧
      dec.run fuel (Dec.new t pad false) text = some bs := by
  refine ⟨_, C05_encode_is_rfc4648_partial h hb hp hf, ?_⟩
  obtain ⟨k, rfl⟩ : ∃ k, fuel = k + 1 := ⟨fuel - 1, by omega⟩
  exact dec_run (initTable_table h) k bs none none none none none hb

theorem alphabet_standard : Alphabet standardTable 61 :=
  ⟨by decide, by decide +kernel, by decide, by decide⟩
theorem alphabet_standard_nopad : Alphabet standardTable 0 :=
  ⟨by decide, by decide +kernel, by decide, by decide⟩

/-- The encoder's text in lower case. -/
def lower (text : List Nat) : List Nat := text.map toLower

theorem rfc4648_map (f : Nat → Nat) (hp : f pad = pad) (h0 : f 0 = 0) (bs : List Nat) :
    (rfc4648 t pad bs).map f = rfc4648 (t.map f) pad bs := by
  have hd : ∀ v p, f (dig t v p) = dig (t.map f) v p := by
    intro v p
    simp only [dig, List.getD_eq_getElem?_getD, List.getElem?_map]
    cases t[v / p % 32]? <;> simp [h0]
  have hq : ∀ n, (rfcPad pad n).map f = rfcPad pad n := by
    intro n; unfold rfcPad; split <;> simp [hp]
  fun_induction rfc4648 t pad bs with
  | case1 a b c d e rest v ih => simp [rfc4648, hd, ih, v]
  | case2 a b c d v => simp [rfc4648, hd, hq, v]
  | case3 a b c v => simp [rfc4648, hd, hq, v]
  | case4 a b v => simp [rfc4648, hd, hq, v]
  | case5 a v => simp [rfc4648, hd, hq, v]
  | case6 => rfl

/-- C05 (letter case): a decoder for the standard alphabet built with the flag set accepts the
text in lower case as well. (The flag is named `caseSensitive` in the code; setting it turns
case sensitivity off.) -/
theorem C05_case_insensitive_decoder {bs : List Nat} (hb : Bytes bs) {fuel : Nat} (hf : 8 ≤ fuel) :
    ∃ text, enc.run fuel (Enc.new standardTable 61) bs = some text ∧
      dec.run fuel (Dec.new standardTable 61 true) text = some bs ∧
      dec.run fuel (Dec.new standardTable 61 true) (lower text) = some bs := by
  refine ⟨_, C05_encode_is_rfc4648_partial alphabet_standard hb (Or.inl (by decide)) hf, ?_⟩
  obtain ⟨k, rfl⟩ : ∃ k, fuel = k + 1 := ⟨fuel - 1, by omega⟩
  have h1 : Table (Dec.new standardTable 61 true).table standardTable 61 := by
    constructor <;> decide +kernel
  have h2 : Table (Dec.new standardTable 61 true).table (standardTable.map toLower) 61 := by
    constructor <;> decide +kernel
  refine ⟨dec_run h1 k bs none none none none none hb, ?_⟩
  have := dec_run h2 k bs none none none none none hb
  rw [← rfc4648_map toLower (by decide) (by decide)] at this
  exact this

/-- C05 fails without padding: the encoder never hands out the last character of a partial
group, so even the single byte `'M'` comes back as nothing. -/
theorem C05_unpadded_violated :
    enc.run 8 (Enc.new standardTable 0) [77] = some [74] ∧
    rfc4648 standardTable 0 [77] = [74, 85] ∧
    dec.run 8 (Dec.new standardTable 0 false) [74] = some [] := by decide +kernel

/-! Concrete cases: "foobar" → MZXW6YTBOI====== -/
example : enc.run 8 (Enc.new standardTable 61) [102, 111, 111, 98, 97, 114] =
    some [77, 90, 88, 87, 54, 89, 84, 66, 79, 73, 61, 61, 61, 61, 61, 61] := by decide +kernel
example : ∃ text, enc.run 8 (Enc.new standardTable 61) [255, 254, 0, 7] = some text ∧
    dec.run 8 (Dec.new standardTable 61 false) text = some [255, 254, 0, 7] :=
  C05_roundtrip_partial alphabet_standard (by decide) (Or.inl (by decide)) (Nat.le_refl _)
example : ∃ text, enc.run 8 (Enc.new standardTable 0) [1, 2, 3, 4, 5] = some text ∧
    dec.run 8 (Dec.new standardTable 0 false) text = some [1, 2, 3, 4, 5] :=
  C05_roundtrip_partial alphabet_standard_nopad (by decide) (Or.inr rfl) (Nat.le_refl _)

end LS.Base32

import Verif.Base64
/-! # Property C04: Base64 -/

namespace LS.Base64

/-! ## Specification (RFC 4648 section 4), independent of the converters -/

/-- Number of padding characters goes by the length of the last group; `pad = 0` means no
padding is written. -/
def rfcPad (pad n : Nat) : List Nat := if pad = 0 then [] else List.replicate n pad

/-- RFC 4648: 24-bit groups, four 6-bit digits each, looked up in the 64-character alphabet. -/
def rfc4648 (t : List Nat) (pad : Nat) : List Nat → List Nat
  | a :: b :: c :: rest =>
    let v := a * 65536 + b * 256 + c
    t.getD (v / 262144) 0 :: t.getD (v / 4096 % 64) 0 :: t.getD (v / 64 % 64) 0 ::
      t.getD (v % 64) 0 :: rfc4648 t pad rest
  | [a, b] =>
    let v := a * 65536 + b * 256
    t.getD (v / 262144) 0 :: t.getD (v / 4096 % 64) 0 :: t.getD (v / 64 % 64) 0 :: rfcPad pad 1
  | [a] =>
    let v := a * 65536
    t.getD (v / 262144) 0 :: t.getD (v / 4096 % 64) 0 :: rfcPad pad 2
  | [] => []

/-- A usable alphabet: 64 different 7-bit characters, none of them the padding character. -/
structure Alphabet (t : List Nat) (pad : Nat) : Prop where
  len : t.length = 64
  nodup : t.Nodup
  ascii : ∀ c ∈ t, c < 128
  nopad : pad ∉ t

/-! ## Helper lemmas -/

theorem lookup {t : List Nat} (ht : t.length = 64) {i : Nat} (hi : i < 64) :
    t[i]? = some (t.getD i 0) := by
  rw [List.getD_eq_getElem?_getD, List.getElem?_eq_getElem (by omega)]; rfl

/-- Encoder state between groups. -/
def idle (t : List Nat) (pad : Nat) (x0 x1 x2 x3 : Option Nat) : Enc :=
  { table := t, padChar := pad, outchars := [x0, x1, x2, x3] }

/-- Encoder state inside a group. -/
def est (t : List Nat) (pad w r : Nat) (o : List (Option Nat)) : Enc :=
  { table := t, padChar := pad, wrbyte := w, readpos := r, outchars := o }

theorem enc_idle {t pad x0 x1 x2 x3} : enc.hasItems (idle t pad x0 x1 x2 x3) = false := rfl

theorem or_lo4 (a b : Nat) (hb : b < 256) : ((a &&& 3) <<< 4 ||| b >>> 4) = (a % 4) * 16 + b / 16 := by
  rw [and_3, Nat.shiftRight_eq_div_pow, shl_or _ _ _ (by omega)]
theorem or_lo2 (a b : Nat) (hb : b < 256) : ((a &&& 15) <<< 2 ||| b >>> 6) = (a % 16) * 4 + b / 64 := by
  rw [and_15, Nat.shiftRight_eq_div_pow, shl_or _ _ _ (by omega)]

theorem enc_write1 {t : List Nat} (ht : t.length = 64) {pad : Nat} {x0 x1 x2 x3 : Option Nat}
    {a k : Nat} (ha : a < 256) :
    enc.writeToIter (k + 4) (idle t pad x0 x1 x2 x3) a =
      some ([t.getD (a / 4) 0],
        (est t pad 1 1 [some (t.getD (a / 4) 0), some ((a &&& 3) <<< 4), x2, x3])) := by
  have h : t[a >>> 2]? = some (t.getD (a / 4) 0) := by
    rw [Nat.shiftRight_eq_div_pow]; exact lookup ht (by omega)
  simp [Conv.writeToIter, Conv.drain, enc, est, idle, Enc.write, Enc.getNext, h, cell]

theorem enc_write2 {t : List Nat} (ht : t.length = 64) {pad : Nat} {y0 x2 x3 : Option Nat}
    {a b k : Nat} (hb : b < 256) :
    enc.writeToIter (k + 4) (est t pad 1 1 [y0, some ((a &&& 3) <<< 4), x2, x3]) b =
      some ([t.getD (a % 4 * 16 + b / 16) 0],
        (est t pad 2 2 [y0, some (t.getD (a % 4 * 16 + b / 16) 0), some ((b &&& 15) <<< 2), x3])) := by
  have h : t[(a &&& 3) <<< 4 ||| b >>> 4]? = some (t.getD (a % 4 * 16 + b / 16) 0) := by
    rw [or_lo4 a b hb]; exact lookup ht (by omega)
  simp [Conv.writeToIter, Conv.drain, enc, est, Enc.write, Enc.getNext, h, cell]

theorem enc_write3 {t : List Nat} (ht : t.length = 64) {pad : Nat} {y0 y1 x3 : Option Nat}
    {b c k : Nat} (hc : c < 256) :
    enc.writeToIter (k + 4) (est t pad 2 2 [y0, y1, some ((b &&& 15) <<< 2), x3]) c =
      some ([t.getD (b % 16 * 4 + c / 64) 0, t.getD (c % 64) 0],
        idle t pad y0 y1 (some (t.getD (b % 16 * 4 + c / 64) 0)) (some (t.getD (c % 64) 0))) := by
  have h : t[(b &&& 15) <<< 2 ||| c >>> 6]? = some (t.getD (b % 16 * 4 + c / 64) 0) := by
    rw [or_lo2 b c hc]; exact lookup ht (by omega)
  have h2 : t[c &&& 63]? = some (t.getD (c % 64) 0) := by
    rw [and_63]; exact lookup ht (by omega)
  simp [Conv.writeToIter, Conv.drain, enc, est, Enc.write, Enc.getNext, h, h2, cell, idle]

theorem enc_flush0 {t : List Nat} {pad : Nat} {x0 x1 x2 x3 : Option Nat} {k : Nat} :
    ∃ s, enc.flushToIter (k + 4) (idle t pad x0 x1 x2 x3) = some ([], s) := by
  simp [Conv.flushToIter, Conv.drain, enc, est, Enc.flush, idle]

theorem enc_flush1 {t : List Nat} (ht : t.length = 64) {pad : Nat} {y0 x2 x3 : Option Nat}
    {a k : Nat} :
    ∃ s, enc.flushToIter (k + 4) (est t pad 1 1 [y0, some ((a &&& 3) <<< 4), x2, x3]) =
      some (t.getD (a % 4 * 16) 0 :: rfcPad pad 2, s) := by
  have h : t[(a &&& 3) <<< 4]? = some (t.getD (a % 4 * 16) 0) := by
    rw [and_3, Nat.shiftLeft_eq]; exact lookup ht (by omega)
  by_cases hp : pad = 0
  · simp [Conv.flushToIter, Conv.drain, enc, est, Enc.flush, Enc.getNext, h, cell, hp, rfcPad]
  · simp [Conv.flushToIter, Conv.drain, enc, est, Enc.flush, Enc.getNext, h, cell, hp, rfcPad,
      List.replicate]

theorem enc_flush2 {t : List Nat} (ht : t.length = 64) {pad : Nat} {y0 y1 x3 : Option Nat}
    {b k : Nat} :
    ∃ s, enc.flushToIter (k + 4) (est t pad 2 2 [y0, y1, some ((b &&& 15) <<< 2), x3]) =
      some (t.getD (b % 16 * 4) 0 :: rfcPad pad 1, s) := by
  have h : t[(b &&& 15) <<< 2]? = some (t.getD (b % 16 * 4) 0) := by
    rw [and_15, Nat.shiftLeft_eq]; exact lookup ht (by omega)
  by_cases hp : pad = 0
  · simp [Conv.flushToIter, Conv.drain, enc, est, Enc.flush, Enc.getNext, h, cell, hp, rfcPad]
  · simp [Conv.flushToIter, Conv.drain, enc, est, Enc.flush, Enc.getNext, h, cell, hp, rfcPad,
      List.replicate]

theorem enc_run {t : List Nat} (ht : t.length = 64) (pad k : Nat) (bs : List Nat) :
    ∀ (x0 x1 x2 x3 : Option Nat), Bytes bs →
    enc.run (k + 4) (idle t pad x0 x1 x2 x3) bs = some (rfc4648 t pad bs) := by
  fun_induction rfc4648 t pad bs with
  | case1 a b c rest v ih =>
    intro x0 x1 x2 x3 hb
    simp only [Bytes_cons] at hb
    obtain ⟨ha, hb, hc, hr⟩ := hb
    rw [enc.run_cons (enc_write1 ht ha), enc.run_cons (enc_write2 ht hb),
      enc.run_cons (enc_write3 ht hc), ih _ _ _ _ hr]
    have e1 : v / 262144 = a / 4 := by omega
    have e2 : v / 4096 % 64 = a % 4 * 16 + b / 16 := by omega
    have e3 : v / 64 % 64 = b % 16 * 4 + c / 64 := by omega
    have e4 : v % 64 = c % 64 := by omega
    simp [e1, e2, e3, e4]
  | case2 a b v =>
    intro x0 x1 x2 x3 hb
    simp only [Bytes_cons] at hb
    obtain ⟨ha, hb, -⟩ := hb
    obtain ⟨s, hs⟩ := enc_flush2 ht (pad := pad) (y0 := some (t.getD (a / 4) 0))
      (y1 := some (t.getD (a % 4 * 16 + b / 16) 0)) (x3 := x3) (b := b) (k := k)
    rw [enc.run_cons (enc_write1 ht ha), enc.run_cons (enc_write2 ht hb), enc.run_nil, hs]
    have e1 : v / 262144 = a / 4 := by omega
    have e2 : v / 4096 % 64 = a % 4 * 16 + b / 16 := by omega
    have e3 : v / 64 % 64 = b % 16 * 4 := by omega
    simp [e1, e2, e3]
  | case3 a v =>
    intro x0 x1 x2 x3 hb
    simp only [Bytes_cons] at hb
    obtain ⟨ha, -⟩ := hb
    obtain ⟨s, hs⟩ := enc_flush1 ht (pad := pad) (y0 := some (t.getD (a / 4) 0))
      (x2 := x2) (x3 := x3) (a := a) (k := k)
    rw [enc.run_cons (enc_write1 ht ha), enc.run_nil, hs]
    have e1 : v / 262144 = a / 4 := by omega
    have e2 : v / 4096 % 64 = a % 4 * 16 := by omega
    simp [e1, e2]
  | case4 =>
    intro x0 x1 x2 x3 _
    obtain ⟨s, hs⟩ := enc_flush0 (t := t) (pad := pad) (x0 := x0) (x1 := x1) (x2 := x2)
      (x3 := x3) (k := k)
    rw [enc.run_nil, hs]; rfl

/-! ### Decoder -/

/-- What the proofs need to know about a decoder table. -/
structure Table (cells : List (Option Nat)) (t : List Nat) (pad : Nat) : Prop where
  hit : ∀ i, i < 64 → cell cells (t.getD i 0) = some i
  nopad : ∀ i, i < 64 → t.getD i 0 ≠ pad

def didle (cells : List (Option Nat)) (pad : Nat) (x0 x1 x2 : Option Nat) : Dec :=
  { table := cells, padChar := pad, outBytes := [x0, x1, x2] }

variable {cells : List (Option Nat)} {t : List Nat} {pad : Nat}

/-- Decoder state inside a group. -/
def dst (cells : List (Option Nat)) (pad w r : Nat) (o : List (Option Nat)) : Dec :=
  { table := cells, padChar := pad, wrpos := w, readpos := r, outBytes := o }

theorem dec_drain0 {k : Nat} {s : Dec} (h : s.hasItems = false) :
    dec.drain k s = some ([], s) := dec.drain_idle h

theorem dec_step {k : Nat} {s s1 s2 : Dec} {x c : Nat} (h : s.hasItems = false)
    (hw : s.write c = some s1) (h1 : s1.hasItems = true) (hg : s1.getNext = some (x, s2))
    (h2 : s2.hasItems = false) : dec.writeToIter (k + 4) s c = some ([x], s2) :=
  dec.writeToIter_of h hw (dec.drain_step h1 hg (dec_drain0 h2))

theorem dec_write1 (h : Table cells t pad) {x0 x1 x2 : Option Nat} {i k : Nat} (hi : i < 64) :
    dec.writeToIter (k + 4) (didle cells pad x0 x1 x2) (t.getD i 0) =
      some ([], dst cells pad 1 0 [some (i * 4), x1, x2]) := by
  have e : (i <<< 2) &&& 255 = i * 4 := by rw [and_255, Nat.shiftLeft_eq]; omega
  have hw : (didle cells pad x0 x1 x2).write (t.getD i 0) =
      some (dst cells pad 1 0 [some (i * 4), x1, x2]) := by
    simp only [Dec.write, didle, if_neg (h.nopad i hi), Bool.false_eq_true, if_false, h.hit i hi, e]
    rfl
  exact dec.writeToIter_of rfl hw (dec_drain0 rfl)

theorem dec_write2 (h : Table cells t pad) {x1 x2 : Option Nat} {a i k : Nat} (hi : i < 64) :
    dec.writeToIter (k + 4) (dst cells pad 1 0 [some (a * 4), x1, x2]) (t.getD i 0) =
      some ([a * 4 + i / 16],
        dst cells pad 2 1 [some (a * 4 + i / 16), some (i % 16 * 16), x2]) := by
  have e : (i <<< 4) &&& 255 = i % 16 * 16 := by rw [and_255, Nat.shiftLeft_eq]; omega
  have e2 : a * 4 ||| i >>> 4 = a * 4 + i / 16 := by
    have := shl_or a (i / 16) 2 (by omega)
    rw [Nat.shiftLeft_eq] at this
    rw [Nat.shiftRight_eq_div_pow]; exact this
  refine dec_step (s1 := { dst cells pad 2 0 [some (a * 4 + i / 16), some (i % 16 * 16), x2]
    with hasItems := true }) rfl ?_ rfl rfl rfl
  simp only [Dec.write, dst, if_neg (h.nopad i hi), Bool.false_eq_true, if_false, h.hit i hi, e]
  simp [cell, e2]

theorem dec_write3 (h : Table cells t pad) {x0 x2 : Option Nat} {b i k : Nat} (hi : i < 64) :
    dec.writeToIter (k + 4) (dst cells pad 2 1 [x0, some (b % 16 * 16), x2]) (t.getD i 0) =
      some ([b % 16 * 16 + i / 4],
        dst cells pad 3 2 [x0, some (b % 16 * 16 + i / 4), some (i % 4 * 64)]) := by
  have e : (i <<< 6) &&& 255 = i % 4 * 64 := by rw [and_255, Nat.shiftLeft_eq]; omega
  have e2 : b % 16 * 16 ||| i >>> 2 = b % 16 * 16 + i / 4 := by
    have := shl_or (b % 16) (i / 4) 4 (by omega)
    rw [Nat.shiftLeft_eq] at this
    rw [Nat.shiftRight_eq_div_pow]; exact this
  refine dec_step (s1 := { dst cells pad 3 1 [x0, some (b % 16 * 16 + i / 4), some (i % 4 * 64)]
    with hasItems := true }) rfl ?_ rfl rfl rfl
  simp only [Dec.write, dst, if_neg (h.nopad i hi), Bool.false_eq_true, if_false, h.hit i hi, e]
  simp [cell, e2]

theorem dec_write4 (h : Table cells t pad) {x0 x1 : Option Nat} {c i k : Nat} (hi : i < 64) :
    dec.writeToIter (k + 4) (dst cells pad 3 2 [x0, x1, some (c % 4 * 64)]) (t.getD i 0) =
      some ([c % 4 * 64 + i], didle cells pad x0 x1 (some (c % 4 * 64 + i))) := by
  have e2 : c % 4 * 64 ||| i = c % 4 * 64 + i := by
    have := shl_or (c % 4) i 6 (by omega)
    rw [Nat.shiftLeft_eq] at this
    exact this
  refine dec_step (s1 := { dst cells pad 4 2 [x0, x1, some (c % 4 * 64 + i)]
    with hasItems := true }) rfl ?_ rfl rfl rfl
  simp only [Dec.write, dst, if_neg (h.nopad i hi), Bool.false_eq_true, if_false, h.hit i hi]
  simp [cell, e2]

/-- Trailing padding and the final flush produce nothing more. -/
theorem dec_tail0 (s : Dec) (hs : s.hasItems = false) (k : Nat) :
    dec.run (k + 4) s [] = some [] := by
  rw [dec.run_nil]
  simp only [Conv.flushToIter, dec, Dec.flush]
  have := dec_drain0 (k := k + 4) (s := { s with eolb := true }) hs
  simp only [dec] at this
  rw [this]; rfl

theorem dec_tail1 (n k : Nat) : ∀ (s : Dec), s.hasItems = false →
    dec.run (k + 4) s (List.replicate n s.padChar) = some [] := by
  induction n with
  | zero => intro s hs; exact dec_tail0 s hs k
  | succ n ih =>
    intro s hs
    have e : dec.writeToIter (k + 4) s s.padChar = some ([], { s with eolb := true }) := by
      rw [dec.writeToIter_idle hs]
      simp only [dec, Dec.write, if_pos]
      exact dec_drain0 hs
    rw [List.replicate_succ, dec.run_cons e]
    have := ih { s with eolb := true } hs
    simp only at this
    rw [this]; rfl

theorem dec_tail {pad : Nat} (s : Dec) (hs : s.hasItems = false) (hp : s.padChar = pad)
    (k n : Nat) : dec.run (k + 4) s (rfcPad pad n) = some [] := by
  subst hp
  unfold rfcPad
  split
  · exact dec_tail0 s hs k
  · exact dec_tail1 n k s hs

theorem dec_run (h : Table cells t pad) (k : Nat) (bs : List Nat) :
    ∀ (x0 x1 x2 : Option Nat), Bytes bs →
    dec.run (k + 4) (didle cells pad x0 x1 x2) (rfc4648 t pad bs) = some bs := by
  fun_induction rfc4648 t pad bs with
  | case1 a b c rest v ih =>
    intro x0 x1 x2 hb
    simp only [Bytes_cons] at hb
    obtain ⟨ha, hb, hc, hr⟩ := hb
    rw [dec.run_cons (dec_write1 h (by omega)), dec.run_cons (dec_write2 h (by omega)),
      dec.run_cons (dec_write3 h (by omega)), dec.run_cons (dec_write4 h (by omega)), ih _ _ _ hr]
    have e1 : v / 262144 * 4 + v / 4096 % 64 / 16 = a := by omega
    have e2 : v / 4096 % 64 % 16 * 16 + v / 64 % 64 / 4 = b := by omega
    have e3 : v / 64 % 64 % 4 * 64 + v % 64 = c := by omega
    rw [e1, e2, e3]; rfl
  | case2 a b v =>
    intro x0 x1 x2 hb
    simp only [Bytes_cons] at hb
    obtain ⟨ha, hb, -⟩ := hb
    rw [dec.run_cons (dec_write1 h (by omega)), dec.run_cons (dec_write2 h (by omega)),
      dec.run_cons (dec_write3 h (by omega)), dec_tail (pad := pad) (dst cells pad _ _ _) rfl rfl]
    have e1 : v / 262144 * 4 + v / 4096 % 64 / 16 = a := by omega
    have e2 : v / 4096 % 64 % 16 * 16 + v / 64 % 64 / 4 = b := by omega
    rw [e1, e2]; rfl
  | case3 a v =>
    intro x0 x1 x2 hb
    simp only [Bytes_cons] at hb
    obtain ⟨ha, -⟩ := hb
    rw [dec.run_cons (dec_write1 h (by omega)), dec.run_cons (dec_write2 h (by omega)),
      dec_tail (pad := pad) (dst cells pad _ _ _) rfl rfl]
    have e1 : v / 262144 * 4 + v / 4096 % 64 / 16 = a := by omega
    rw [e1]; rfl
  | case4 =>
    intro x0 x1 x2 _
    exact dec_tail0 (didle cells pad x0 x1 x2) rfl k

/-! ### Table construction -/

theorem initTable_aux (t : List Nat) : ∀ (n : Nat) (cells : List (Option Nat)),
    t.Nodup → (∀ c ∈ t, c < cells.length) →
    let r := (t.zipIdx n).foldl (fun acc (p : Nat × Nat) => acc.set p.1 (some (p.2 &&& 63))) cells
    (∀ i (h : i < t.length), cell r t[i] = some ((n + i) &&& 63)) ∧
    (∀ x, x ∉ t → cell r x = cell cells x) := by
  induction t with
  | nil => intro n cells _ _; simp
  | cons a t ih =>
    intro n cells hn hl
    simp only [List.nodup_cons] at hn
    obtain ⟨hna, hn⟩ := hn
    have hl2 : ∀ c ∈ t, c < (cells.set a (some (n &&& 63))).length := by
      intro c hc; rw [List.length_set]; exact hl c (List.mem_cons_of_mem _ hc)
    obtain ⟨h1, h2⟩ := ih (n + 1) (cells.set a (some (n &&& 63))) hn hl2
    simp only [List.zipIdx_cons, List.foldl_cons]
    have ha : a < cells.length := hl a (List.mem_cons_self ..)
    constructor
    · intro i hi
      cases i with
      | zero =>
        simp only [List.getElem_cons_zero]
        rw [h2 a hna]
        simp [cell, ha]
      | succ i =>
        simp only [List.getElem_cons_succ]
        rw [h1 i (by simpa using hi), show n + 1 + i = n + (i + 1) by omega]
    · intro x hx
      simp only [List.mem_cons, not_or] at hx
      rw [h2 x hx.2]
      simp only [cell]
      rw [List.getElem?_set_ne (fun h => hx.1 h.symm)]

theorem initTable_table {t : List Nat} {pad : Nat} (h : Alphabet t pad) :
    Table (initTable t (List.replicate 256 none)) t pad := by
  have h1 := (initTable_aux t 0 (List.replicate 256 none) h.nodup
    (by intro c hc; have := h.ascii c hc; rw [List.length_replicate]; omega)).1
  have hg : ∀ i (hi : i < 64), t.getD i 0 = t[i]'(by have := h.len; omega) := by
    intro i hi
    rw [List.getD_eq_getElem?_getD, List.getElem?_eq_getElem (by have := h.len; omega)]; rfl
  constructor
  · intro i hi
    have := h1 i (by have := h.len; omega)
    rw [hg i hi]
    unfold initTable
    rw [this, and_63]
    congr 1; omega
  · intro i hi he
    rw [hg i hi] at he
    exact h.nopad (he ▸ List.getElem_mem _)

/-! ## Property theorems -/

/-- C04 (encoding half): for every byte string the text written by the encoder is exactly the
RFC 4648 encoding for the chosen alphabet and padding. -/
theorem C04_encode_is_rfc4648 {t : List Nat} {pad : Nat} (h : Alphabet t pad)
    {bs : List Nat} (hb : Bytes bs) {fuel : Nat} (hf : 4 ≤ fuel) :
    enc.run fuel (Enc.new t pad) bs = some (rfc4648 t pad bs) := by
  obtain ⟨k, rfl⟩ : ∃ k, fuel = k + 4 := ⟨fuel - 4, by omega⟩
  exact enc_run h.len pad k bs none none none none hb

/-- C04: decoding what the encoder wrote yields the original bytes, for every byte string,
every usable alphabet, and with or without padding (`pad = 0` = none). -/
theorem C04_roundtrip {t : List Nat} {pad : Nat} (h : Alphabet t pad)
    {bs : List Nat} (hb : Bytes bs) {fuel : Nat} (hf : 4 ≤ fuel) :
    ∃ text, enc.run fuel (Enc.new t pad) bs = some text ∧
      dec.run fuel (Dec.new t pad) text = some bs := by
  refine ⟨_, C04_encode_is_rfc4648 h hb hf, ?_⟩
  obtain ⟨k, rfl⟩ : ∃ k, fuel = k + 4 := ⟨fuel - 4, by omega⟩
  exact dec_run (initTable_table h) k bs none none none hb

theorem alphabet_standard : Alphabet standardTable 61 :=
  ⟨by decide, by decide +kernel, by decide, by decide⟩
theorem alphabet_url : Alphabet forUrlTable 61 :=
  ⟨by decide, by decide +kernel, by decide, by decide⟩
theorem alphabet_standard_nopad : Alphabet standardTable 0 :=
  ⟨by decide, by decide +kernel, by decide, by decide⟩

/-- C04: the decoder built without arguments decodes both the standard and the URL alphabet,
padded. -/
theorem C04_default_decoder {t : List Nat} (ht : t = standardTable ∨ t = forUrlTable)
    {bs : List Nat} (hb : Bytes bs) {fuel : Nat} (hf : 4 ≤ fuel) :
    ∃ text, enc.run fuel (Enc.new t 61) bs = some text ∧
      dec.run fuel Dec.default text = some bs := by
  have ha : Alphabet t 61 := by
    rcases ht with rfl | rfl
    · exact alphabet_standard
    · exact alphabet_url
  refine ⟨_, C04_encode_is_rfc4648 ha hb hf, ?_⟩
  obtain ⟨k, rfl⟩ : ∃ k, fuel = k + 4 := ⟨fuel - 4, by omega⟩
  have ht : Table Dec.default.table t 61 := by
    rcases ht with rfl | rfl <;> constructor <;> decide +kernel
  exact dec_run ht k bs none none none hb

/-! Concrete cases: "Man", "Ma", "M" and bytes with the top bit set. -/
example : enc.run 4 Enc.default [77, 97, 110] = some [84, 87, 70, 117] := by decide +kernel
example : enc.run 4 Enc.default [77, 97] = some [84, 87, 69, 61] := by decide +kernel
example : enc.run 4 (Enc.new standardTable 0) [77] = some [84, 81] := by decide +kernel
example : dec.run 4 Dec.default [84, 81, 61, 61] = some [77] := by decide +kernel
example : ∃ text, enc.run 4 (Enc.new standardTable 61) [255, 254, 0, 7] = some text ∧
    dec.run 4 (Dec.new standardTable 61) text = some [255, 254, 0, 7] :=
  C04_roundtrip alphabet_standard (by decide) (Nat.le_refl _)

end LS.Base64

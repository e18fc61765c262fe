import Verif.Base16
/-! # Property C06: Base16 -/

namespace LS.Base16
open LS.Base64 (cell)

/-! ## Specification (RFC 4648 section 8) -/

/-- Two digits per byte, high nibble first. -/
def hexText (t : List Nat) (bs : List Nat) : List Nat :=
  bs.flatMap fun b => [t.getD (b / 16) 0, t.getD (b % 16) 0]

/-- What a decoder has to know: every digit character of `t` maps to its value. -/
def Table (cells : List (Option Nat)) (t : List Nat) : Prop :=
  ∀ i, i < 16 → cell cells (t.getD i 0) = some i

instance (cells : List (Option Nat)) (t : List Nat) : Decidable (Table cells t) :=
  inferInstanceAs (Decidable (∀ i, i < 16 → _))

/-! ## Helper lemmas -/

theorem lookup {t : List Nat} (ht : t.length = 16) {i : Nat} (hi : i < 16) :
    t[i]? = some (t.getD i 0) := by
  rw [List.getD_eq_getElem?_getD, List.getElem?_eq_getElem (by omega)]; rfl

theorem enc_step {t : List Nat} (ht : t.length = 16) {x y : Option Nat} {b k : Nat} (hb : b < 256) :
    ∃ x' y', enc.writeToIter (k + 2) { table := t, outchars := [x, y] } b =
      some ([t.getD (b / 16) 0, t.getD (b % 16) 0], { table := t, outchars := [x', y'] }) := by
  have h1 : t[b >>> 4]? = some (t.getD (b / 16) 0) := by
    rw [Nat.shiftRight_eq_div_pow]; exact lookup ht (by omega)
  have h2 : t[b &&& 15]? = some (t.getD (b % 16) 0) := by
    rw [and_15]; exact lookup ht (by omega)
  refine ⟨some (t.getD (b / 16) 0), some (t.getD (b % 16) 0), ?_⟩
  generalize t.getD (b / 16) 0 = c0 at *
  generalize t.getD (b % 16) 0 = c1 at *
  have g1 : enc.getNext ⟨t, [some c0, some c1], 0, true, false, false⟩ =
      some (c0, ⟨t, [some c0, some c1], 1, true, false, false⟩) := by
    simp [enc, Enc.getNext, cell]
  have g2 : enc.getNext ⟨t, [some c0, some c1], 1, true, false, false⟩ =
      some (c1, ⟨t, [some c0, some c1], 0, false, true, false⟩) := by
    simp [enc, Enc.getNext, cell]
  refine enc.writeToIter_of (s1 := ⟨t, [some c0, some c1], 0, true, false, false⟩) rfl ?_
    (enc.drain_step rfl g1 (enc.drain_step rfl g2 (enc.drain_idle rfl)))
  simp only [enc, Enc.write, h1, h2]

theorem enc_run {t : List Nat} (ht : t.length = 16) (k : Nat) (bs : List Nat) :
    ∀ (x y : Option Nat), Bytes bs →
    enc.run (k + 2) { table := t, outchars := [x, y] } bs = some (hexText t bs) := by
  induction bs with
  | nil => intro x y _; rfl
  | cons b bs ih =>
    intro x y hb
    rw [Bytes_cons] at hb
    obtain ⟨x', y', h⟩ := enc_step (k := k) (x := x) (y := y) ht hb.1
    rw [enc.run_cons h, ih x' y' hb.2]
    rfl

theorem dec_step1 {cells : List (Option Nat)} {t : List Nat} (h : Table cells t) {o : Option Nat}
    {i k : Nat} (hi : i < 16) :
    dec.writeToIter (k + 1) { table := cells, outByte := o } (t.getD i 0) =
      some ([], { table := cells, outByte := some (i * 16), wrpos := 1 }) := by
  have e : (i <<< 4) &&& 255 = i * 16 := by rw [and_255, Nat.shiftLeft_eq]; omega
  refine dec.writeToIter_of (s1 := { table := cells, outByte := some (i * 16), wrpos := 1 })
    rfl ?_ (dec.drain_idle rfl)
  simp only [dec, Dec.write, h i hi, e]
  rfl

theorem dec_step2 {cells : List (Option Nat)} {t : List Nat} (h : Table cells t) {a i k : Nat}
    (hi : i < 16) :
    dec.writeToIter (k + 1) { table := cells, outByte := some (a * 16), wrpos := 1 } (t.getD i 0) =
      some ([a * 16 + i], { table := cells, outByte := some (a * 16 + i) }) := by
  have e : a * 16 ||| i = a * 16 + i := or_add (k := 4) a rfl (by omega)
  refine dec.writeToIter_of 
    (s1 := ⟨cells, some (a * 16 + i), 0, true, false, false⟩) rfl ?_ (dec.drain_step rfl rfl (dec.drain_idle rfl))
  simp only [dec, Dec.write, h i hi, e]
  rfl

theorem dec_run {cells : List (Option Nat)} {t : List Nat} (h : Table cells t) (k : Nat)
    (bs : List Nat) : ∀ (o : Option Nat), Bytes bs →
    dec.run (k + 1) { table := cells, outByte := o } (hexText t bs) = some bs := by
  induction bs with
  | nil => intro o _; rfl
  | cons b bs ih =>
    intro o hb
    rw [Bytes_cons] at hb
    have e : hexText t (b :: bs) = t.getD (b / 16) 0 :: t.getD (b % 16) 0 :: hexText t bs := rfl
    have e2 : b / 16 * 16 + b % 16 = b := by omega
    rw [e, dec.run_cons (dec_step1 h (by omega)), dec.run_cons (dec_step2 h (by omega)),
      ih _ hb.2, e2]
    rfl

/-! ## Property theorems -/

theorem table_default : Table Dec.default.table hexUpper := by decide +kernel
theorem table_lower : Table (Dec.new hexLower false).table hexLower := by decide +kernel
theorem table_both : Table (Dec.new hexUpper true).table hexUpper ∧
    Table (Dec.new hexUpper true).table hexLower := by decide +kernel

/-- C06, first half: the text is twice as long as the data and consists of digits of the chosen
table; it is the RFC 4648 text. -/
theorem C06_encode {t : List Nat} (ht : t.length = 16) {bs : List Nat} (hb : Bytes bs) {fuel : Nat}
    (hf : 2 ≤ fuel) :
    ∃ text, enc.run fuel (Enc.new t) bs = some text ∧ text = hexText t bs ∧
      text.length = 2 * bs.length ∧ ∀ c ∈ text, c ∈ t := by
  obtain ⟨k, rfl⟩ : ∃ k, fuel = k + 2 := ⟨fuel - 2, by omega⟩
  refine ⟨_, enc_run ht k bs none none hb, rfl, ?_, ?_⟩
  · induction bs with
    | nil => rfl
    | cons b bs ih =>
      have := ih (Bytes_cons.1 hb).2
      simp only [hexText, List.flatMap_cons, List.length_append, List.length_cons,
        List.length_nil] at this ⊢
      omega
  · intro c hc
    simp only [hexText, List.mem_flatMap, List.mem_cons, List.not_mem_nil, or_false] at hc
    obtain ⟨b, hb', hc⟩ := hc
    have hlt := hb b hb'
    rcases hc with rfl | rfl
    · exact List.mem_of_getElem? (lookup ht (by omega))
    · exact List.mem_of_getElem? (lookup ht (by omega))

/-- C06, round trip with the upper-case digits (the default of both classes), with lower-case
digits and a lower-case decoder, and with either case through a decoder built with the flag set.
Missing for the full claim: lower-case text through the default decoder, see
`C06_lowercase_default_violated`. -/
theorem C06_roundtrip_partial {bs : List Nat} (hb : Bytes bs) {fuel : Nat} (hf : 2 ≤ fuel) :
    (∃ text, enc.run fuel Enc.default bs = some text ∧ dec.run fuel Dec.default text = some bs) ∧
    (∃ text, enc.run fuel (Enc.new hexLower) bs = some text ∧
      dec.run fuel (Dec.new hexLower false) text = some bs) ∧
    (∃ text, enc.run fuel (Enc.new hexLower) bs = some text ∧
      dec.run fuel (Dec.new hexUpper true) text = some bs) ∧
    (∃ text, enc.run fuel (Enc.new hexUpper) bs = some text ∧
      dec.run fuel (Dec.new hexUpper true) text = some bs) := by
  obtain ⟨k, rfl⟩ : ∃ k, fuel = k + 2 := ⟨fuel - 2, by omega⟩
  exact ⟨⟨_, enc_run rfl k bs none none hb, dec_run table_default (k + 1) bs none hb⟩,
    ⟨_, enc_run rfl k bs none none hb, dec_run table_lower (k + 1) bs none hb⟩,
    ⟨_, enc_run rfl k bs none none hb, dec_run table_both.2 (k + 1) bs none hb⟩,
    ⟨_, enc_run rfl k bs none none hb, dec_run table_both.1 (k + 1) bs none hb⟩⟩

/-- C06 fails for lower-case digits and the default decoder: the constructor argument whose
name says "not case sensitive" leaves the cells of `a`..`f` uninitialised, so decoding the
encoder's own text for the byte 0xAB uses an uninitialised value. -/
theorem C06_lowercase_default_violated :
    enc.run 2 (Enc.new hexLower) [0xAB] = some [97, 98] ∧
    dec.run 2 Dec.default [97, 98] = none := by decide +kernel

example : enc.run 2 Enc.default [0, 255, 0x3C] = some [48, 48, 70, 70, 51, 67] := by decide +kernel
example : dec.run 2 Dec.default [48, 48, 70, 70, 51, 67] = some [0, 255, 0x3C] := by decide +kernel
example : Bytes [0, 255, 0x3C] := by decide

end LS.Base16

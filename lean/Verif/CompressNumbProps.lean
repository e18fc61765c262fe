import Verif.CompressNumb
/-! # Properties C01–C03: compact number encoding -/

namespace LS.CompressNumb

theorem decompress_compress (n : Nat) (hn : n < 2 ^ 64) (rest : List Nat) :
    decompress (compress n ++ rest) = some (n, rest) := by
  obtain ⟨len, m, top, h⟩ := cls n hn
  rw [compress_eq h]
  have hl8 := h.len_le
  have hm : m % 256 ^ len + top * 256 ^ len = m := by
    rw [← h.top_eq, Nat.mul_comm]; exact Nat.mod_add_div m _
  by_cases h8 : len = 8
  · subst h8
    have ht := h.top8 rfl
    simp only [if_true, List.cons_append, decompress]
    have e1 : numberLength 255 - 1 = 8 := by decide
    have e2 : 255 &&& (0x1F >>> (8 &&& 0x8)) = 0 := by decide
    rw [e1, e2, readLoop_eq 8 0 0 m rest (by decide)]
    have hv := h.val
    rw [ht] at hm
    simp only [Nat.zero_mul, Nat.zero_add, Nat.add_zero] at hm ⊢
    rw [hm, hv, Nat.mod_eq_of_lt hn]
  · have hl : len < 8 := by omega
    have ht := h.top_lt hl
    have h7 := h.top7
    simp only [h8, if_false, List.cons_append, decompress]
    have e1 : numberLength (len * 32 + top) - 1 = len := by
      simp only [numberLength, Nat.shiftRight_eq_div_pow]; omega
    have e2 : len &&& 8 = 0 := by
      have : len = 0 ∨ len = 1 ∨ len = 2 ∨ len = 3 ∨ len = 4 ∨ len = 5 ∨ len = 6 ∨ len = 7 := by omega
      rcases this with h | h | h | h | h | h | h | h <;> subst h <;> rfl
    have e3 : (len * 32 + top) &&& (0x1F >>> 0) = top := by
      rw [show (0x1F >>> 0 : Nat) = 31 from rfl, and_31]; omega
    have hb : (0 * 256 + top) * 256 ^ len + 256 ^ len ≤ 2 ^ 64 := by
      rw [Nat.zero_mul, Nat.zero_add, ← Nat.succ_mul]
      have : 256 ^ len ≤ 256 ^ 7 := Nat.pow_le_pow_right (by omega) (by omega)
      calc (top + 1) * 256 ^ len ≤ 32 * 256 ^ 7 := Nat.mul_le_mul (by omega) this
        _ ≤ 2 ^ 64 := by decide
    rw [e1, e2, e3, readLoop_eq len 0 top m rest hb]
    have hv := h.val
    simp only [Nat.zero_mul, Nat.zero_add]
    rw [Nat.add_comm (top * _), hm, hv, Nat.mod_eq_of_lt hn]

/-- **C01** Round trip: decompressing the bytes produced for `n`, whatever bytes follow in the
buffer, gives `n` back and stops exactly behind the produced bytes; the produced bytes are
1–9 proper bytes and `numberLength` of the first byte announces exactly how many. -/
theorem C01_compress_roundtrip (n : Nat) (hn : n < 2 ^ 64) (rest : List Nat) :
    decompress (compress n ++ rest) = some (n, rest) ∧
    Bytes (compress n) ∧ 1 ≤ (compress n).length ∧ (compress n).length ≤ 9 ∧
    ∃ b t, compress n = b :: t ∧ numberLength b = (compress n).length := by
  refine ⟨decompress_compress n hn rest, ?_⟩
  obtain ⟨len, m, top, h⟩ := cls n hn
  have hl8 := h.len_le
  have ht := h.top_lt
  have h7 := h.top7
  rw [compress_eq h]
  refine ⟨?_, by simp, by simp [tailBytes_length]; omega, _, _, rfl, ?_⟩
  · rw [Bytes_cons]
    refine ⟨?_, tailBytes_bytes _ _⟩
    split <;> omega
  · simp only [List.length_cons, tailBytes_length]
    split
    · subst len; rfl
    · simp only [numberLength, Nat.shiftRight_eq_div_pow]; omega

example : compress 0 = [0] ∧ compress 8224 = [0x40, 0, 0] ∧
    compress (2 ^ 64 - 1) = [255, 255, 255, 255, 255, 255, 255, 255, 255] := by decide
example : decompress (compress 123456789 ++ [7, 7]) = some (123456789, [7, 7]) := by decide

/-- **C01** for the signed variant, over the whole range of a 64-bit signed integer. -/
theorem C01_signed_roundtrip (z : Int) (h1 : -2 ^ 63 ≤ z) (h2 : z < 2 ^ 63) (rest : List Nat) :
    decompressSigned (compressSigned z ++ rest) = some (z, rest) := by
  unfold compressSigned decompressSigned
  by_cases hz : z ≥ 0
  · rw [if_pos hz, decompress_compress _ (by omega)]
    simp only [and_1, Nat.shiftRight_eq_div_pow]
    rw [if_neg (by omega)]
    have : (((z * 2 % 2 ^ 64).toNat / 2 ^ 1 : Nat) : Int) = z := by omega
    rw [this]
  · rw [if_neg hz]
    have e : (((-z - 1) * 2) % 2 ^ 64).toNat ||| 1 = (((-z - 1) * 2) % 2 ^ 64).toNat + 1 := by
      have : (((-z - 1) * 2) % 2 ^ 64).toNat = ((-z - 1).toNat) <<< 1 := by
        rw [Nat.shiftLeft_eq]; omega
      rw [this, shl_or _ _ _ (by decide), Nat.shiftLeft_eq]
    rw [e, decompress_compress _ (by omega)]
    simp only [and_1, Nat.shiftRight_eq_div_pow]
    rw [if_pos (by omega)]
    have : (-((((((-z - 1) * 2) % 2 ^ 64).toNat + 1) / 2 ^ 1 : Nat) : Int) - 1) = z := by omega
    rw [this]

example : decompressSigned (compressSigned (-2 ^ 63)) = some (-2 ^ 63, []) := by decide

/-- **C02** Self-delimiting: packing any list of numbers back to back and walking the buffer
with `decompress`/`numberLength` returns the list. -/
theorem C02_stream_self_delimiting (l : List Nat) (hl : ∀ n ∈ l, n < 2 ^ 64) :
    readAll l.length (l.flatMap compress) = some l := by
  induction l with
  | nil => rfl
  | cons n l ih =>
    have hn := hl n (by simp)
    obtain ⟨hr, -, -, -, b, t, hb, hlen⟩ := C01_compress_roundtrip n hn (l.flatMap compress)
    have ih' := ih (fun x hx => hl x (by simp [hx]))
    rw [List.flatMap_cons, List.length_cons]
    have : compress n ++ l.flatMap compress = b :: (t ++ l.flatMap compress) := by rw [hb]; rfl
    rw [this, readAll, ← this, hr]
    simp only [hlen, List.drop_left, ih', Option.map_some]

example : readAll 3 ([5, 70000, 2 ^ 63].flatMap compress) = some [5, 70000, 2 ^ 63] := by decide

/-- No encoding is a proper prefix of another one. -/
theorem C02_prefix_free (a b : Nat) (ha : a < 2 ^ 64) (hb : b < 2 ^ 64)
    (h : compress a <+: compress b) : a = b := by
  obtain ⟨t, ht⟩ := h
  have h1 := decompress_compress a ha t
  have h2 := decompress_compress b hb []
  rw [ht] at h1
  rw [List.append_nil, h1] at h2
  exact (Prod.mk.inj (Option.some.inj h2)).1

theorem tailBytes_lt (len : Nat) : ∀ (m m' : Nat), m / 256 ^ len = m' / 256 ^ len → m < m' →
    tailBytes len m < tailBytes len m' := by
  induction len with
  | zero => intro m m' h hlt; simp at h; omega
  | succ k ih =>
    intro m m' h hlt
    rw [tailBytes_cons, tailBytes_cons, List.cons_lt_cons_iff]
    have e : ∀ x : Nat, x / 256 ^ (k + 1) = (x / 256 ^ k) / 256 := by
      intro x; rw [Nat.div_div_eq_div_mul, Nat.pow_succ]
    rw [e, e] at h
    have hle : m / 256 ^ k ≤ m' / 256 ^ k := Nat.div_le_div_right (by omega)
    rcases Nat.lt_or_eq_of_le hle with hl | he
    · left; omega
    · right; exact ⟨by rw [he], ih m m' he hlt⟩

theorem calcCompressedLen_mono {a b : Nat} (h : a ≤ b) :
    calcCompressedLen a ≤ calcCompressedLen b := by
  have step : ∀ (c k : Nat) (u v : Nat), u ≤ v → k ≤ v →
      (if a < c then k else u) ≤ (if b < c then k else v) := by
    intro c k u v h1 h2
    by_cases hb : b < c
    · rw [if_pos hb, if_pos (by omega)]; omega
    · rw [if_neg hb]; split <;> omega
  unfold calcCompressedLen
  repeat (first | exact Nat.le_refl _ | apply step)
  all_goals (repeat (first | omega | split))

/-- **C03** The encoding is order preserving: numeric order is the lexicographic order of the
encodings (`<` on `List Nat` is the core library's lexicographic order), in both directions,
and a longer encoding always means a larger number. -/
theorem C03_order_preserving (a b : Nat) (ha : a < 2 ^ 64) (hb : b < 2 ^ 64) :
    (a < b ↔ compress a < compress b) ∧
    ((compress a).length < (compress b).length → a < b) := by
  have mono : ∀ a b : Nat, a < 2 ^ 64 → b < 2 ^ 64 → a < b →
      compress a < compress b ∧ (compress a).length ≤ (compress b).length := by
    intro a b ha hb hab
    obtain ⟨la, ma, ta, h⟩ := cls a ha
    obtain ⟨lb, mb, tb, h'⟩ := cls b hb
    rw [compress_eq h, compress_eq h', List.cons_lt_cons_iff]
    simp only [List.length_cons, tailBytes_length]
    have hle : la ≤ lb := by
      rw [← h.len_eq, ← h'.len_eq]; exact calcCompressedLen_mono (by omega)
    refine ⟨?_, by omega⟩
    have := h.top_lt; have := h'.top_lt; have := h.top7; have := h.len_le; have := h'.len_le
    rcases Nat.lt_or_eq_of_le hle with hl | he
    · left
      by_cases h8 : lb = 8
      · rw [if_pos h8, if_neg (by omega)]; omega
      · rw [if_neg h8, if_neg (by omega)]; omega
    · subst he
      have hv := h.val; have hv' := h'.val
      have hm : ma < mb := by omega
      have htt : ta ≤ tb := by rw [← h.top_eq, ← h'.top_eq]; exact Nat.div_le_div_right (by omega)
      by_cases h8 : la = 8
      · right
        refine ⟨by simp [h8], tailBytes_lt _ _ _ ?_ hm⟩
        rw [h.top_eq, h'.top_eq, h.top8 h8, h'.top8 h8]
      · simp only [h8, if_false]
        rcases Nat.lt_or_eq_of_le htt with hl | he
        · left; omega
        · right
          refine ⟨by rw [he], tailBytes_lt _ _ _ ?_ hm⟩
          rw [h.top_eq, h'.top_eq, he]
  refine ⟨⟨fun h => (mono a b ha hb h).1, fun h => ?_⟩, fun h => ?_⟩
  · rcases Nat.lt_trichotomy a b with hlt | heq | hgt
    · exact hlt
    · subst heq; exact absurd h (List.lt_irrefl _)
    · exact absurd h (List.lt_asymm (mono b a hb ha hgt).1)
  · rcases Nat.lt_trichotomy a b with hlt | heq | hgt
    · exact hlt
    · subst heq; omega
    · have := (mono b a hb ha hgt).2; omega

example : compress 31 < compress 32 ∧ compress 8223 < compress 8224 ∧
    compress 0x1F2020202020201F < compress 0x1F20202020202020 := by decide

end LS.CompressNumb

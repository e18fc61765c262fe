/-
Binary JSON (C61): which documents `JsonToBinary` and `BinaryToJson` carry over, and what becomes of the others.
-/
import Verif.BinJson
import Verif.JsonProps

namespace LS.BinJson

open Json (Doc Docs Fields addField addItem takeWide addAll)
open Json.Spec (Sorted keys pairs)

/-! ## Numbers -/

theorem getLe_le : ∀ (k v : Nat) (rest : List Nat), v < 256 ^ k → getLe k (le k v ++ rest) = .ok (v, rest)
  | 0, v, rest, h => by
    have : v = 0 := by simp at h; exact h
    rw [this]; rfl
  | k + 1, v, rest, h => by
    have h' : v >>> 8 < 256 ^ k := by
      rw [Nat.shiftRight_eq_div_pow]
      rw [Nat.pow_succ] at h
      exact Nat.div_lt_of_lt_mul (by rw [Nat.mul_comm]; exact h)
    rw [le, List.cons_append, getLe, getLe_le k _ rest h']
    simp only
    congr 2
    rw [Nat.shiftRight_eq_div_pow]
    omega

theorem le_length : ∀ (k v : Nat), (le k v).length = k
  | 0, _ => rfl
  | k + 1, v => by rw [le, List.length_cons, le_length k]

/-- What `writeNumber` leaves in front: one of four opcodes. -/
theorem writeNumber_read (op : Nat) {v : Nat} (hv : v < 2 ^ 64) (rest : List Nat) :
    ∃ j t, j < 4 ∧ writeNumber op v = (op + j) :: t ∧ readNumber j (t ++ rest) = .ok (v, rest) ∧ 1 ≤ t.length := by
  unfold writeNumber
  by_cases h1 : v ≤ 255
  · rw [if_pos h1]
    exact ⟨0, _, by decide, rfl, getLe_le 1 v rest (by omega), by rw [le_length]; decide⟩
  rw [if_neg h1]
  by_cases h2 : v ≤ 0xFFFF
  · rw [if_pos h2]
    exact ⟨1, _, by decide, rfl, getLe_le 2 v rest (by omega), by rw [le_length]; decide⟩
  rw [if_neg h2]
  by_cases h3 : v ≤ 0xFFFFFFFF
  · rw [if_pos h3]
    exact ⟨2, _, by decide, rfl, getLe_le 4 v rest (by omega), by rw [le_length]; decide⟩
  rw [if_neg h3]
  exact ⟨3, _, by decide, rfl, getLe_le 8 v rest (by omega), by rw [le_length]; decide⟩

/-! ## Codes -/

theorem takeWide_ascii {c : Nat} (h : c < 128) (rest : List Nat) : takeWide {} (c :: rest) = .ok (c, rest) := by
  have hw : Utf.Dec.write {} c = some ({ outchar := some c, state := 0 } : Utf.Dec).upd := by
    unfold Utf.Dec.write
    rw [if_neg (by decide), if_pos rfl, if_pos h]
  rw [Json.takeWide_step _ rfl hw, Json.takeWide_done _ rfl rfl]

theorem takeWide_conts (n : Nat) : ∀ (s : Utf.Dec) (x c : Nat) (rest : List Nat), n < 6 → Utf.inside s (n + 1) x →
    x * 64 ^ (n + 1) + c % 64 ^ (n + 1) < 2147483648 →
    takeWide s (Utf.conts (n + 1) c ++ rest) = .ok (x * 64 ^ (n + 1) + c % 64 ^ (n + 1), rest) := by
  induction n with
  | zero =>
    intro s x c rest _ h hb
    have e : Utf.conts (0 + 1) c = [0x80 + c % 64] := by simp [Utf.conts]
    rw [e, List.cons_append, List.nil_append]
    rw [Json.takeWide_step _ h.2.2 (Json.write_cont h (by omega) (by simp at hb; omega) (Nat.mod_lt _ (by decide)))]
    rw [Json.takeWide_done _ rfl rfl]
  | succ n ih =>
    intro s x c rest hn h hb
    have e : c % 64 ^ (n + 1 + 1) = c / 64 ^ (n + 1) % 64 * 64 ^ (n + 1) + c % 64 ^ (n + 1) := by
      rw [Nat.pow_succ, Nat.mod_mul]; rw [Nat.mul_comm]; omega
    have e2 : x * 64 ^ (n + 1 + 1) + c % 64 ^ (n + 1 + 1) =
        (x * 64 + c / 64 ^ (n + 1) % 64) * 64 ^ (n + 1) + c % 64 ^ (n + 1) := by
      rw [e, Nat.add_mul, Nat.pow_succ 64 (n + 1), Nat.mul_assoc, Nat.mul_comm 64, Nat.add_assoc]
    have hx : x * 64 < 2147483648 := by
      have hp : 0 < 64 ^ (n + 1) := Nat.pow_pos (by decide)
      have h1 := Nat.le_mul_of_pos_right (x * 64 + c / 64 ^ (n + 1) % 64) hp
      rw [e2] at hb
      generalize (x * 64 + c / 64 ^ (n + 1) % 64) * 64 ^ (n + 1) = y at h1 hb
      omega
    rw [e2] at hb
    rw [show Utf.conts (n + 1 + 1) c = (0x80 + c / 64 ^ (n + 1) % 64) :: Utf.conts (n + 1) c from rfl, List.cons_append]
    rw [Json.takeWide_step _ h.2.2 (Json.write_cont h (by omega) hx (Nat.mod_lt _ (by decide)))]
    rw [ih _ _ c rest (by omega) ⟨rfl, rfl, by simp [Utf.Dec.upd]⟩ hb, e2]

theorem takeWide_multi {n mark bound x c : Nat} (hm : Utf.Mark n mark bound) (hx : x < bound) (hc : c = x * 64 ^ n + c % 64 ^ n)
    (hb : c < 2147483648) (rest : List Nat) : takeWide {} ((mark + x) :: Utf.conts n c ++ rest) = .ok (c, rest) := by
  have hn : 0 < n ∧ n < 7 := by cases hm <;> decide
  obtain ⟨n, rfl⟩ : ∃ m, n = m + 1 := ⟨n - 1, by omega⟩
  rw [List.cons_append, Json.takeWide_step _ rfl (Utf.dec_mark (s := {}) ⟨rfl, rfl⟩ hm hx)]
  rw [takeWide_conts n _ x c rest (by omega) ⟨rfl, rfl, by simp [Utf.Dec.upd]⟩ (by rw [← hc]; exact hb), ← hc]

theorem writeCode_read {c : Nat} (hc : c < 2 ^ 31) :
    ∃ t, writeCode c = .ok t ∧ (∀ rest, takeWide {} (t ++ rest) = .ok (c, rest)) ∧ 1 ≤ t.length ∧ (5 < c → ∀ rest, ∃ b u, t ++ rest = b :: u ∧ b ≠ 5) := by
  have e : Utf.enc.run 7 {} [c] = some ((Utf.lead c).1 :: Utf.conts (Utf.lead c).2 c) := by
    have := Utf.enc_run 0 [c] {} rfl rfl
    simpa using this
  refine ⟨(Utf.lead c).1 :: Utf.conts (Utf.lead c).2 c, by unfold writeCode; rw [e], ?_, by simp, ?_⟩
  · intro rest
    unfold Utf.lead
    simp only [Nat.shiftRight_eq_div_pow]
    split
    · exact takeWide_ascii (by omega) rest
    split
    · rw [Utf.lead_or 6 (k := 5) rfl (by omega) (by omega)]
      exact takeWide_multi .m1 (by omega) (Utf.split_pow c 1) hc rest
    split
    · rw [Utf.lead_or 14 (k := 4) rfl (by omega) (by omega)]
      exact takeWide_multi .m2 (by omega) (Utf.split_pow c 2) hc rest
    split
    · rw [Utf.lead_or 30 (k := 3) rfl (by omega) (by omega)]
      exact takeWide_multi .m3 (by omega) (Utf.split_pow c 3) hc rest
    split
    · rw [Utf.lead_or 62 (k := 2) rfl (by omega) (by omega)]
      exact takeWide_multi .m4 (by omega) (Utf.split_pow c 4) hc rest
    split
    · rw [Utf.lead_or 126 (k := 1) rfl (by omega) (by omega)]
      exact takeWide_multi .m5 (by omega) (Utf.split_pow c 5) hc rest
    · exact takeWide_multi (x := 0) .m6 (by omega) (by rw [Nat.mod_eq_of_lt (by omega)]; omega) hc rest
  · intro h5 rest
    refine ⟨_, _, rfl, ?_⟩
    unfold Utf.lead
    simp only [Nat.shiftRight_eq_div_pow]
    split
    · exact Nat.ne_of_gt h5
    split
    · rw [Utf.lead_or 6 (k := 5) rfl (by omega) (by omega)]; omega
    split
    · rw [Utf.lead_or 14 (k := 4) rfl (by omega) (by omega)]; omega
    split
    · rw [Utf.lead_or 30 (k := 3) rfl (by omega) (by omega)]; omega
    split
    · rw [Utf.lead_or 62 (k := 2) rfl (by omega) (by omega)]; omega
    split
    · rw [Utf.lead_or 126 (k := 1) rfl (by omega) (by omega)]; omega
    · decide

/-! ## Steps of the reader -/

theorem block_append (s rest : List Nat) : block s.length (s ++ rest) = .ok (s, rest) := by
  unfold block
  rw [if_pos (by simp), List.take_left, List.drop_left]

/-- A string of the table in the stream. -/
theorem tab_get {tab : List (List Nat)} {s : List Nat} (h : s ∈ tab) : tab[40 + tab.idxOf s - 40]? = some s := by
  rw [Nat.add_sub_cancel_left, List.getElem?_eq_getElem (List.idxOf_lt_length_of_mem h), List.getElem_idxOf]

theorem parseKey_write {tab : List (List Nat)} {k : List Nat} (ht : tab.length ≤ 2 ^ 31 - 40) (hk : k.length < 2 ^ 64) :
    ∃ s, writeString tab k = .ok s ∧ 1 ≤ s.length ∧
      ∀ rest, ∃ c l, takeWide {} (s ++ rest) = .ok (c, l) ∧ c ≠ 5 ∧ parseKey tab c l = .ok (k, rest) := by
  unfold writeString
  by_cases h0 : k = []
  · subst h0
    rw [if_pos rfl]
    exact ⟨[21], rfl, by decide, fun rest => ⟨21, rest, takeWide_ascii (by decide) rest, by decide, by rfl⟩⟩
  rw [if_neg h0]
  by_cases hm : k ∈ tab
  · rw [if_pos hm]
    have hi := List.idxOf_lt_length_of_mem hm
    obtain ⟨t, e, h1, h2, -⟩ := writeCode_read (c := 40 + tab.idxOf k) (by omega)
    refine ⟨t, e, h2, fun rest => ⟨_, _, h1 rest, by omega, ?_⟩⟩
    rw [parseKey, if_neg (by omega), tab_get hm]
  · rw [if_neg hm]
    refine ⟨_, rfl, ?_, fun rest => ?_⟩
    · obtain ⟨j, t, -, e, -, h⟩ := writeNumber_read 8 hk []
      rw [e, List.cons_append, List.length_cons]; omega
    · obtain ⟨j, t, hj, e, h, -⟩ := writeNumber_read 8 hk (k ++ rest)
      refine ⟨8 + j, t ++ (k ++ rest), ?_, by omega, ?_⟩
      · rw [e, List.cons_append, List.cons_append, takeWide_ascii (by omega), List.append_assoc]
      · rw [parseKey, if_pos (by omega), if_pos (by omega), Nat.add_sub_cancel_left, h]
        exact block_append k rest

theorem signed_neg {v : Int} (h1 : -2 ^ 63 < v) (h2 : v < 0) : signed (-v).toNat = -v := by
  unfold signed
  rw [if_pos (by omega)]
  omega

theorem signed_wrap {v : Int} (h1 : 0 < v) (h2 : v < 2 ^ 63) : signed (2 ^ 64 - v.toNat) = -v := by
  unfold signed
  rw [if_neg (by omega)]
  omega

section

variable (F : Dbl) (tab : List (List Nat))

theorem parse_op {c fuel : Nat} (hc : c < 128) (rest : List Nat) : parse F tab (fuel + 1) (c :: rest) =
      if c = 3 then parseArray F tab fuel .nil rest
      else if c = 21 then .ok (.str [], rest)
      else if c = 1 then .ok (.bool false, rest)
      else if c = 23 then parseFloat64 F rest
      else if 16 ≤ c ∧ c ≤ 19 then parseNumber (c - 16) true rest
      else if c = 0 then .ok (.null, rest)
      else if c = 4 then parseObject F tab fuel .nil rest
      else if 12 ≤ c ∧ c ≤ 15 then parseNumber (c - 12) false rest
      else if 8 ≤ c ∧ c ≤ 11 then parseString c rest
      else if c = 2 then .ok (.bool true, rest)
      else if c = 20 then .ok (.int 0, rest)
      else if c = 5 ∨ c = 6 ∨ c = 7 ∨ c = 22 ∨ (28 ≤ c ∧ c ≤ 31) then .error .outside
      else parseEnum tab c rest := by
  rw [parse, takeWide_ascii hc]

theorem parse_neg {v : Int} (h1 : -2 ^ 63 < v) (h2 : v < 0) :
    ∃ t, serInt v = .ok t ∧ 1 ≤ t.length ∧ (∀ rest, ∃ b u, t ++ rest = b :: u ∧ b ≠ 5) ∧ ∀ fuel rest, parse F tab (fuel + 1) (t ++ rest) = .ok (.int v, rest) := by
  have hn : (-v).toNat < 2 ^ 64 := by omega
  refine ⟨writeNumber 16 (-v).toNat, ?_, ?_, ?_, ?_⟩
  · rw [serInt, if_pos h2, if_neg (by omega)]
  · obtain ⟨j, t, -, e, -, -⟩ := writeNumber_read 16 hn []
    rw [e]; simp
  · intro rest
    obtain ⟨j, t, -, e, -, -⟩ := writeNumber_read 16 hn []
    exact ⟨_, _, by rw [e, List.cons_append], by omega⟩
  · intro fuel rest
    obtain ⟨j, t, hj, e, h, -⟩ := writeNumber_read 16 hn rest
    rw [e, List.cons_append, parse_op F tab (by omega)]
    rw [if_neg (by omega), if_neg (by omega), if_neg (by omega), if_neg (by omega), if_pos (by omega)]
    rw [parseNumber, Nat.add_sub_cancel_left, h]
    simp only [if_true]
    rw [if_neg (by omega), signed_neg h1 h2, Int.neg_neg]

theorem parse_pos {v : Int} (h1 : 0 < v) (h2 : v < 2 ^ 63) :
    ∃ t, serInt v = .ok t ∧ ∀ fuel rest, parse F tab (fuel + 1) (t ++ rest) = .ok (.int (-v), rest) := by
  have hn : 2 ^ 64 - v.toNat < 2 ^ 64 := by omega
  refine ⟨writeNumber 12 (2 ^ 64 - v.toNat), ?_, ?_⟩
  · rw [serInt, if_neg (by omega), if_pos h1]
  · intro fuel rest
    obtain ⟨j, t, hj, e, h, -⟩ := writeNumber_read 12 hn rest
    rw [e, List.cons_append, parse_op F tab (by omega)]
    rw [if_neg (by omega), if_neg (by omega), if_neg (by omega), if_neg (by omega), if_neg (by omega), if_neg (by omega), if_neg (by omega), if_pos (by omega)]
    rw [parseNumber, Nat.add_sub_cancel_left, h]
    simp only [Bool.false_eq_true, if_false]
    rw [signed_wrap h1 h2]

theorem parse_str {s : List Nat} (h0 : s ≠ []) (hm : s ∉ tab) (hl : s.length < 2 ^ 64) :
    ∃ t, writeString tab s = .ok (t ++ s) ∧ ∀ fuel rest, ∃ u, u ≠ [] ∧ parse F tab (fuel + 1) ((t ++ s) ++ rest) = .ok (.str [], u ++ (s ++ rest)) := by
  refine ⟨writeNumber 8 s.length, by rw [writeString, if_neg h0, if_neg hm], ?_⟩
  intro fuel rest
  obtain ⟨j, t, hj, e, -, ht⟩ := writeNumber_read 8 hl []
  refine ⟨t, by rintro rfl; simp at ht, ?_⟩
  rw [e, List.cons_append, List.cons_append, parse_op F tab (by omega)]
  rw [if_neg (by omega), if_neg (by omega), if_neg (by omega), if_neg (by omega), if_neg (by omega), if_neg (by omega), if_neg (by omega), if_neg (by omega), if_pos (by omega)]
  rw [parseString, readNumber, if_neg (by omega), if_neg (by omega), if_neg (by omega), if_neg (by omega), List.append_assoc]
  simp only [block]
  rw [if_pos (Nat.zero_le _)]
  rfl

theorem parse_enum {s : List Nat} (hm : s ∈ tab) (h0 : s ≠ []) (ht : tab.length ≤ 2 ^ 31 - 40) :
    ∃ t, writeString tab s = .ok t ∧ 1 ≤ t.length ∧ (∀ rest, ∃ b u, t ++ rest = b :: u ∧ b ≠ 5) ∧ ∀ fuel rest, parse F tab (fuel + 1) (t ++ rest) = .ok (.str s, rest) := by
  have hi := List.idxOf_lt_length_of_mem hm
  obtain ⟨t, e, h1, h2, h3⟩ := writeCode_read (c := 40 + tab.idxOf s) (by omega)
  refine ⟨t, by rw [writeString, if_neg h0, if_pos hm, e], h2, h3 (by omega), ?_⟩
  intro fuel rest
  rw [parse, h1 rest]
  simp only
  rw [if_neg (by omega), if_neg (by omega), if_neg (by omega), if_neg (by omega), if_neg (by omega), if_neg (by omega), if_neg (by omega), if_neg (by omega), if_neg (by omega), if_neg (by omega), if_neg (by omega), if_neg (by omega)]
  rw [parseEnum, if_neg (by omega), tab_get hm]

/-! ## Documents which are carried over -/

mutual

/-- No positive number, no array, no string which is not in the table (the empty string is fine).  Keys are free. -/
def Ok : Doc → Prop
  | .null => True
  | .bool _ => True
  | .int v => -2 ^ 63 < v ∧ v ≤ 0
  | .flt t => F.text (F.bytes t) = t ∧ (F.bytes t).length = 8
  | .str s => s = [] ∨ s ∈ tab
  | .arr _ => False
  | .obj m => OkFields m ∧ Sorted m

/-- The fields of an object. -/
def OkFields : Fields → Prop
  | .nil => True
  | .cons k d m => k.length < 2 ^ 64 ∧ Ok d ∧ OkFields m

end

/-- The items of an array. -/
def OkItems : Docs → Prop
  | .nil => True
  | .cons d l => Ok F tab d ∧ OkItems l

mutual

theorem carry (ht : tab.length ≤ 2 ^ 31 - 40) : ∀ (d : Doc), Ok F tab d →
    ∃ t, ser F tab d = .ok t ∧ 1 ≤ t.length ∧ (∀ rest, ∃ b u, t ++ rest = b :: u ∧ b ≠ 5) ∧ ∀ fuel rest, t.length ≤ fuel → parse F tab fuel (t ++ rest) = .ok (d, rest) := by
  intro d h
  match d, h with
  | .null, _ => exact ⟨[0], by rw [ser], by decide, fun rest => ⟨_, _, rfl, by decide⟩, fun fuel rest hf => by
      obtain ⟨k, rfl⟩ : ∃ k, fuel = k + 1 := ⟨fuel - 1, by simp at hf; omega⟩
      rw [List.cons_append, parse_op F tab (by decide)]; rfl⟩
  | .bool true, _ => exact ⟨[2], by rw [ser], by decide, fun rest => ⟨_, _, rfl, by decide⟩, fun fuel rest hf => by
      obtain ⟨k, rfl⟩ : ∃ k, fuel = k + 1 := ⟨fuel - 1, by simp at hf; omega⟩
      rw [List.cons_append, parse_op F tab (by decide)]; rfl⟩
  | .bool false, _ => exact ⟨[1], by rw [ser], by decide, fun rest => ⟨_, _, rfl, by decide⟩, fun fuel rest hf => by
      obtain ⟨k, rfl⟩ : ∃ k, fuel = k + 1 := ⟨fuel - 1, by simp at hf; omega⟩
      rw [List.cons_append, parse_op F tab (by decide)]; rfl⟩
  | .int v, h =>
    rw [Ok] at h
    by_cases h0 : v = 0
    · subst h0
      exact ⟨[20], by rw [ser]; rfl, by decide, fun rest => ⟨_, _, rfl, by decide⟩, fun fuel rest hf => by
        obtain ⟨k, rfl⟩ : ∃ k, fuel = k + 1 := ⟨fuel - 1, by simp at hf; omega⟩
        rw [List.cons_append, parse_op F tab (by decide)]; rfl⟩
    · obtain ⟨t, e, h1, h2, h3⟩ := parse_neg F tab h.1 (by omega)
      refine ⟨t, by rw [ser, e], h1, h2, fun fuel rest hf => ?_⟩
      obtain ⟨k, rfl⟩ : ∃ k, fuel = k + 1 := ⟨fuel - 1, by omega⟩
      exact h3 k rest
  | .flt t, h =>
    rw [Ok] at h
    refine ⟨23 :: F.bytes t, by rw [ser], by simp, fun rest => ⟨_, _, rfl, by decide⟩, fun fuel rest hf => ?_⟩
    obtain ⟨k, rfl⟩ : ∃ k, fuel = k + 1 := ⟨fuel - 1, by simp at hf; omega⟩
    have hb := block_append (F.bytes t) rest
    rw [h.2] at hb
    rw [List.cons_append, parse_op F tab (by decide)]
    show parseFloat64 F _ = _
    rw [parseFloat64, hb]
    simp only [h.1]
  | .str s, h =>
    rw [Ok] at h
    by_cases h0 : s = []
    · subst h0
      exact ⟨[21], by rw [ser]; rfl, by decide, fun rest => ⟨_, _, rfl, by decide⟩, fun fuel rest hf => by
        obtain ⟨k, rfl⟩ : ∃ k, fuel = k + 1 := ⟨fuel - 1, by simp at hf; omega⟩
        rw [List.cons_append, parse_op F tab (by decide)]; rfl⟩
    · obtain ⟨t, e, h1, h2, h3⟩ := parse_enum F tab (h.resolve_left h0) h0 ht
      refine ⟨t, by rw [ser, e], h1, h2, fun fuel rest hf => ?_⟩
      obtain ⟨k, rfl⟩ : ∃ k, fuel = k + 1 := ⟨fuel - 1, by omega⟩
      exact h3 k rest
  | .arr l, h => rw [Ok] at h; exact h.elim
  | .obj m, h =>
    rw [Ok] at h
    obtain ⟨t, e, hp⟩ := carryFields ht m h.1
    refine ⟨4 :: t ++ [5], by rw [ser, e], by simp, fun rest => ⟨_, _, rfl, by decide⟩, fun fuel rest hf => ?_⟩
    obtain ⟨k, rfl⟩ : ∃ k, fuel = k + 1 := ⟨fuel - 1, by simp at hf; omega⟩
    rw [List.cons_append, List.cons_append, parse_op F tab (by decide)]
    show parseObject F tab k .nil _ = _
    rw [hp k .nil rest (by simp at hf; omega), Json.addAll_eq (Json.sorted_nodup h.2) h.2 (.refl _)]

theorem carryFields (ht : tab.length ≤ 2 ^ 31 - 40) : ∀ (m : Fields), OkFields F tab m →
    ∃ t, serFields F tab m = .ok t ∧ ∀ fuel acc rest, t.length + 1 ≤ fuel → parseObject F tab fuel acc ((t ++ [5]) ++ rest) = .ok (.obj (addAll acc m), rest) := by
  intro m h
  match m, h with
  | .nil, _ =>
    refine ⟨[], by rw [serFields], fun fuel acc rest hf => ?_⟩
    obtain ⟨k, rfl⟩ : ∃ k, fuel = k + 1 := ⟨fuel - 1, by simp at hf; omega⟩
    rw [List.nil_append, List.cons_append, parseObject, takeWide_ascii (by decide)]
    rfl
  | .cons k d m, h =>
    rw [OkFields] at h
    obtain ⟨s, es, hs1, hs⟩ := parseKey_write ht h.1
    obtain ⟨t, et, ht1, -, hp⟩ := carry ht d h.2.1
    obtain ⟨u, eu, hu⟩ := carryFields ht m h.2.2
    refine ⟨s ++ t ++ u, by rw [serFields, es, et, eu], fun fuel acc rest hf => ?_⟩
    obtain ⟨f, rfl⟩ : ∃ k, fuel = k + 1 := ⟨fuel - 1, by omega⟩
    simp only [List.length_append] at hf
    obtain ⟨c, l, e1, e2, e3⟩ := hs (t ++ ((u ++ [5]) ++ rest))
    have e : (s ++ t ++ u ++ [5]) ++ rest = s ++ (t ++ ((u ++ [5]) ++ rest)) := by simp [List.append_assoc]
    rw [e, parseObject, e1]
    simp only
    rw [if_neg e2, e3]
    simp only
    rw [hp f _ (by omega)]
    simp only
    rw [hu f _ rest (by omega), addAll]

end

/-- Items appended one after the other. -/
def append : Docs → Docs → Docs
  | a, .nil => a
  | a, .cons d l => append (addItem d a) l

theorem addItem_cons (d x : Doc) (a : Docs) : addItem d (.cons x a) = .cons x (addItem d a) := rfl

theorem append_cons (x : Doc) : ∀ (l a : Docs), append (.cons x a) l = .cons x (append a l)
  | .nil, a => rfl
  | .cons d l, a => by rw [append, append, addItem_cons, append_cons x l]

theorem append_nil : ∀ (l : Docs), append .nil l = l
  | .nil => rfl
  | .cons d l => by rw [append, addItem, append_cons, append_nil l]

theorem carryItems (ht : tab.length ≤ 2 ^ 31 - 40) : ∀ (l : Docs), OkItems F tab l →
    ∃ t, serItems F tab l = .ok t ∧ ∀ fuel acc rest, t.length + 1 ≤ fuel → parseArray F tab fuel acc (t ++ 5 :: rest) = .ok (.arr (append acc l), 5 :: rest)
  | .nil, _ => by
    refine ⟨[], by rw [serItems], fun fuel acc rest hf => ?_⟩
    obtain ⟨k, rfl⟩ : ∃ k, fuel = k + 1 := ⟨fuel - 1, by simp at hf; omega⟩
    rw [List.nil_append, parseArray, if_pos rfl, append]
  | .cons d l, h => by
    rw [OkItems] at h
    obtain ⟨t, et, ht1, hb, hp⟩ := carry F tab ht d h.1
    obtain ⟨u, eu, hu⟩ := carryItems ht l h.2
    refine ⟨t ++ u, by rw [serItems, et, eu], fun fuel acc rest hf => ?_⟩
    simp only [List.length_append] at hf
    obtain ⟨f, rfl⟩ : ∃ k, fuel = k + 1 := ⟨fuel - 1, by omega⟩
    obtain ⟨b, v, e, hb⟩ := hb (u ++ 5 :: rest)
    have hp := hp f (u ++ 5 :: rest) (by omega)
    rw [List.append_assoc, e] at *
    rw [parseArray, if_neg hb, hp]
    simp only
    rw [hu f _ rest (by omega), append]

end

/-! ## C61 -/

/-- C61, the part that holds: a document without arrays, positive numbers and strings outside of the table is read back,
and nothing more is taken from the stream.  Missing: see the negations below, which cover all the excluded documents. -/
theorem c61_binary_round_trip_partial (F : Dbl) (tab : List (List Nat)) (ht : tab.length ≤ 2 ^ 31 - 40) (d : Doc) (h : Ok F tab d) (rest : List Nat) :
    ∃ t, ser F tab d = .ok t ∧ parseDoc F tab (t ++ rest) = .ok (d, rest) := by
  obtain ⟨t, e, -, -, hp⟩ := carry F tab ht d h
  exact ⟨t, e, hp _ rest (by simp; omega)⟩

/-- C61, an array of such documents at the top: the document is right, but `opcEnd` stays in the stream. -/
theorem c61_top_array_partial (F : Dbl) (tab : List (List Nat)) (ht : tab.length ≤ 2 ^ 31 - 40) (l : Docs) (h : OkItems F tab l) (rest : List Nat) :
    ∃ t, ser F tab (.arr l) = .ok t ∧ parseDoc F tab (t ++ rest) = .ok (.arr l, 5 :: rest) := by
  obtain ⟨t, e, hp⟩ := carryItems F tab ht l h
  refine ⟨3 :: t ++ [5], by rw [ser, e], ?_⟩
  rw [parseDoc, List.cons_append, List.cons_append, show 2 * (3 :: (t ++ [5] ++ rest)).length + 2 = (2 * (3 :: (t ++ [5] ++ rest)).length + 1) + 1 from rfl, parse_op F tab (by decide)]
  show parseArray F tab _ .nil _ = _
  rw [List.append_assoc, List.cons_append, List.nil_append, hp _ .nil rest (by simp; omega), append_nil]

/-- C61 fails for every positive number: it comes back negated. -/
theorem c61_positive_violated (F : Dbl) (tab : List (List Nat)) (v : Int) (h1 : 0 < v) (h2 : v < 2 ^ 63) (rest : List Nat) :
    ∃ t, ser F tab (.int v) = .ok t ∧ parseDoc F tab (t ++ rest) = .ok (.int (-v), rest) := by
  obtain ⟨t, e, hp⟩ := parse_pos F tab h1 h2
  exact ⟨t, by rw [ser, e], hp _ rest⟩

/-- C61 fails for every string value which is neither empty nor in the table: it comes back empty, and its length and its
text stay in the stream. -/
theorem c61_string_violated (F : Dbl) (tab : List (List Nat)) (s : List Nat) (h0 : s ≠ []) (hm : s ∉ tab) (hl : s.length < 2 ^ 64) (rest : List Nat) :
    ∃ t u, ser F tab (.str s) = .ok t ∧ u ≠ [] ∧ parseDoc F tab (t ++ rest) = .ok (.str [], u ++ (s ++ rest)) := by
  obtain ⟨t, e, hp⟩ := parse_str F tab h0 hm hl
  obtain ⟨u, hu, h⟩ := hp (2 * ((t ++ s) ++ rest).length + 1) rest
  exact ⟨t ++ s, u, by rw [ser, e], hu, h⟩

/-- C61 fails for an array in an array: `[[],null]` comes back as `[[]]`. -/
theorem c61_nested_array_violated (F : Dbl) :
    ∃ t, ser F [] (.arr (.cons (.arr .nil) (.cons .null .nil))) = .ok t ∧
      parseDoc F [] t = .ok (.arr (.cons (.arr .nil) .nil), [5, 0, 5]) :=
  ⟨[3, 3, 5, 0, 5], by rfl, by rfl⟩

/-- C61 fails for an array in an object: `{"a":[],"b":null}` comes back as `{"a":[]}`. -/
theorem c61_array_in_object_violated (F : Dbl) :
    ∃ t, ser F [] (.obj (.cons [97] (.arr .nil) (.cons [98] .null .nil))) = .ok t ∧
      parseDoc F [] t = .ok (.obj (.cons [97] (.arr .nil) .nil), [8, 1, 98, 0, 5]) :=
  ⟨[4, 8, 1, 97, 3, 5, 8, 1, 98, 0, 5], by rfl, by rfl⟩

/-- C61: the least number overflows in the writer. -/
theorem c61_least_number_violated (F : Dbl) (tab : List (List Nat)) : ser F tab (.int (-2 ^ 63)) = .error .ub := by
  rw [ser]; rfl

/-- `{"":true,"a":"xy","b":{"c":-70000}}` with a table holding "xy" and "b". -/
def sample : Doc := .obj (.cons [] (.bool true) (.cons [97] (.str [120, 121]) (.cons [98] (.obj (.cons [99] (.int (-70000)) .nil)) .nil)))

example (F : Dbl) : Ok F [[120, 121], [98]] sample := by
  simp [sample, Ok, OkFields, Sorted, keys, Json.Spec.Less]
  exact ⟨[], 97, ⟨[], rfl⟩, 98, ⟨[], rfl⟩, by decide⟩

example (F : Dbl) : ser F [[120, 121], [98]] sample = .ok [4, 21, 2, 8, 1, 97, 40, 41, 4, 8, 1, 99, 18, 112, 17, 1, 0, 5, 5] := by rfl

example (F : Dbl) : parseDoc F [[120, 121], [98]] [4, 21, 2, 8, 1, 97, 40, 41, 4, 8, 1, 99, 18, 112, 17, 1, 0, 5, 5] = .ok (sample, []) := by rfl

example (F : Dbl) : parseDoc F [] [15, 251, 255, 255, 255, 255, 255, 255, 255] = .ok (.int (-5), []) := by rfl

end LS.BinJson

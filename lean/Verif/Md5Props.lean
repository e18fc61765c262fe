import Verif.Digest
import Verif.DigestSpec
/-!
# MD5: the digest of the standard (C89), pieces (C64)
-/

namespace LS.Digest

open Spec (blocks)

/-! ## Blocks -/

theorem blocks_short {m : List Byte} (h : m.length < 64) : blocks m = [] := by
  unfold blocks
  rw [Nat.div_eq_of_lt h]; rfl

theorem blocks_cons {b m : List Byte} (h : b.length = 64) : blocks (b ++ m) = b :: blocks m := by
  unfold blocks
  have e : (b ++ m).length / 64 = m.length / 64 + 1 := by rw [List.length_append, h]; omega
  rw [e, List.range_succ_eq_map, List.map_cons, List.map_map]
  congr 1
  · rw [Nat.mul_zero, List.drop_zero, List.take_append, h]; simp [← h]
  · apply List.map_congr_left
    intro i _
    show ((b ++ m).drop (64 * (i + 1))).take 64 = _
    rw [List.drop_append, h, List.drop_eq_nil_of_le (by omega)]
    simp only [List.nil_append]
    congr 2

theorem blocks_append : ∀ (n : Nat) {a m : List Byte}, a.length = 64 * n → blocks (a ++ m) = blocks a ++ blocks m := by
  intro n
  induction n with
  | zero =>
    intro a m h
    have : a = [] := List.length_eq_zero_iff.1 (by omega)
    subst this
    rw [blocks_short (m := []) (by decide)]; rfl
  | succ n ih =>
    intro a m h
    have e : a = a.take 64 ++ a.drop 64 := (List.take_append_drop 64 a).symm
    have hl : (a.take 64).length = 64 := by rw [List.length_take]; omega
    rw [e, List.append_assoc, blocks_cons hl, blocks_cons hl, ih (by rw [List.length_drop]; omega)]
    rfl

/-- What is behind the complete blocks. -/
def rest (m : List Byte) : List Byte := m.drop (64 * (m.length / 64))

theorem rest_length (m : List Byte) : (rest m).length = m.length % 64 := by
  unfold rest; rw [List.length_drop]; omega

theorem blocks_snoc (m d : List Byte) : blocks (m ++ d) = blocks m ++ blocks (rest m ++ d) := by
  have e : m = m.take (64 * (m.length / 64)) ++ rest m := (List.take_append_drop _ m).symm
  have hl : (m.take (64 * (m.length / 64))).length = 64 * (m.length / 64) := by rw [List.length_take]; omega
  have h1 : blocks m = blocks (m.take (64 * (m.length / 64))) := by
    conv => lhs; rw [e]
    rw [blocks_append _ hl, blocks_short (m := rest m) (by rw [rest_length]; omega), List.append_nil]
  rw [h1]
  conv => lhs; rw [e]
  rw [List.append_assoc, blocks_append _ hl]

theorem rest_snoc (m d : List Byte) : rest (m ++ d) = rest (rest m ++ d) := by
  have e : m = m.take (64 * (m.length / 64)) ++ rest m := (List.take_append_drop _ m).symm
  have hl : (m.take (64 * (m.length / 64))).length = 64 * (m.length / 64) := by rw [List.length_take]; omega
  conv => lhs; rw [e]
  unfold rest
  rw [List.append_assoc, List.drop_append, hl]
  have : ((m.take (64 * (m.length / 64))) ++ (m.drop (64 * (m.length / 64)) ++ d)).length = 64 * (m.length / 64) + (m.drop (64 * (m.length / 64)) ++ d).length := by
    rw [List.length_append, hl]
  rw [this, List.drop_eq_nil_of_le (by rw [hl]; omega), List.nil_append]
  congr 1
  omega

theorem rest_short {m : List Byte} (h : m.length < 64) : rest m = m := by
  unfold rest; rw [Nat.div_eq_of_lt h]; simp

theorem rest_cons {b m : List Byte} (h : b.length = 64) : rest (b ++ m) = rest m := by
  unfold rest
  have e : (b ++ m).length / 64 = m.length / 64 + 1 := by rw [List.length_append, h]; omega
  rw [e, List.drop_append, h, List.drop_eq_nil_of_le (by omega), List.nil_append]
  congr 1

namespace Md5

/-! ## One block -/

abbrev Q := BitVec 32 × BitVec 32 × BitVec 32 × BitVec 32

/-- The registers in the roles they have in the operation `i`. -/
def view (i : Nat) (r : R4) : Q :=
  match i % 4 with
  | 0 => (r.a, r.b, r.c, r.d)
  | 1 => (r.d, r.a, r.b, r.c)
  | 2 => (r.c, r.d, r.a, r.b)
  | _ => (r.b, r.c, r.d, r.a)

/-- The roles of the registers in the operation `i`. -/
def roles (i : Nat) : Reg × Reg × Reg × Reg :=
  match i % 4 with
  | 0 => (.a, .b, .c, .d)
  | 1 => (.d, .a, .b, .c)
  | 2 => (.c, .d, .a, .b)
  | _ => (.b, .c, .d, .a)

/-- The instruction which the standard asks for. -/
def instr (i : Nat) : Set1 :=
  { a := (roles i).1, b := (roles i).2.1, c := (roles i).2.2.1, d := (roles i).2.2.2, k := Spec.md5Word i, s := Spec.md5Shift i, t := Spec.md5K.getD i 0 }

theorem round1_eq : round1 = (List.range 16).map instr := by decide +kernel
theorem round2_eq : round2 = (List.range' 16 16).map instr := by decide +kernel
theorem round3_eq : round3 = (List.range' 32 16).map instr := by decide +kernel
theorem round4_eq : round4 = (List.range' 48 16).map instr := by decide +kernel

theorem rotate_eq (x : W) (n : Nat) (h : n < 32) : rotateLeft x n = x.rotateLeft n := by
  unfold rotateLeft
  rw [BitVec.rotateLeft_def, Nat.mod_eq_of_lt h]

theorem words_get : ∀ (k : Nat) (data : List Byte), 4 * k + 3 < data.length → (words data).getD k 0 = Spec.leWord data k := by
  intro k
  induction k with
  | zero =>
    intro data h
    match data, h with
    | b0 :: b1 :: b2 :: b3 :: l, _ => rfl
    | [], h => simp at h
    | [_], h => simp at h
    | [_, _], h => simp at h
    | [_, _, _], h => simp at h
  | succ k ih =>
    intro data h
    match data, h with
    | b0 :: b1 :: b2 :: b3 :: l, h =>
      have := ih l (by simp at h; omega)
      simp only [words, List.getD_cons_succ, this]
      unfold Spec.leWord
      rw [show 4 * (k + 1) + 3 = (4 * k + 3) + 1 + 1 + 1 + 1 by omega, show 4 * (k + 1) + 2 = (4 * k + 2) + 1 + 1 + 1 + 1 by omega,
        show 4 * (k + 1) + 1 = (4 * k + 1) + 1 + 1 + 1 + 1 by omega, show 4 * (k + 1) = (4 * k) + 1 + 1 + 1 + 1 by omega]
      simp only [List.getD_cons_succ]
    | [], h => simp at h
    | [_], h => simp at h
    | [_, _], h => exact absurd h (by simp)
    | [_, _, _], h => exact absurd h (by simp)

theorem shift_lt : ∀ i, i < 64 → Spec.md5Shift i < 32 ∧ Spec.md5Word i < 16 := by decide

theorem step_eq {f : W → W → W → W} {data : List Byte} {r : R4} {i : Nat} (hi : i < 64) (hf : ∀ x y z, f x y z = Spec.md5F i x y z)
    (hl : data.length = 64) : view (i + 1) (set1 f (words data) r (instr i)) = Spec.md5Op data (view i r) i := by
  have h1 := shift_lt i hi
  have hw : (words data).getD (instr i).k 0 = Spec.leWord data (Spec.md5Word i) := words_get _ _ (by show 4 * Spec.md5Word i + 3 < _; omega)
  unfold set1
  rw [hw, rotate_eq _ _ (show (instr i).s < 32 from h1.1)]
  have h4 : i % 4 = 0 ∨ i % 4 = 1 ∨ i % 4 = 2 ∨ i % 4 = 3 := by omega
  rcases h4 with h | h | h | h
  · have h' : (i + 1) % 4 = 1 := by omega
    simp [view, instr, roles, h, h', R4.get, R4.set, Spec.md5Op, hf, BitVec.add_comm]
  · have h' : (i + 1) % 4 = 2 := by omega
    simp [view, instr, roles, h, h', R4.get, R4.set, Spec.md5Op, hf, BitVec.add_comm]
  · have h' : (i + 1) % 4 = 3 := by omega
    simp [view, instr, roles, h, h', R4.get, R4.set, Spec.md5Op, hf, BitVec.add_comm]
  · have h' : (i + 1) % 4 = 0 := by omega
    simp [view, instr, roles, h, h', R4.get, R4.set, Spec.md5Op, hf, BitVec.add_comm]

theorem steps_eq {f : W → W → W → W} {data : List Byte} (hl : data.length = 64) : ∀ (n i : Nat) (r : R4), i + n ≤ 64 →
    (∀ j x y z, i ≤ j → j < i + n → f x y z = Spec.md5F j x y z) →
    view (i + n) (((List.range' i n).map instr).foldl (set1 f (words data)) r) = (List.range' i n).foldl (Spec.md5Op data) (view i r) := by
  intro n
  induction n with
  | zero => intro i r _ _; rfl
  | succ n ih =>
    intro i r h hf
    rw [List.range'_succ, List.map_cons, List.foldl_cons, List.foldl_cons, show i + (n + 1) = (i + 1) + n by omega,
      ih (i + 1) _ (by omega) (fun j x y z h1 h2 => hf j x y z (by omega) (by omega)),
      step_eq (by omega) (fun x y z => hf i x y z (Nat.le_refl _) (by omega)) hl]

def R4.q (r : R4) : Q := (r.a, r.b, r.c, r.d)

theorem process_eq {data : List Byte} (hl : data.length = 64) (h : R4) : (process h data).q = Spec.md5Block h.q data := by
  have e1 := steps_eq (f := F) hl 16 0 h (by decide) (by
    intro j x y z _ h2; unfold Spec.md5F; rw [if_pos (by omega)]; rfl)
  have e2 := steps_eq (f := G) hl 16 16 (round1.foldl (set1 F (words data)) h) (by decide) (by
    intro j x y z h1 h2; unfold Spec.md5F; rw [if_neg (by omega), if_pos (by omega)]; rfl)
  have e3 := steps_eq (f := H) hl 16 32 (round2.foldl (set1 G (words data)) (round1.foldl (set1 F (words data)) h)) (by decide) (by
    intro j x y z h1 h2; unfold Spec.md5F; rw [if_neg (by omega), if_neg (by omega), if_pos (by omega)]; rfl)
  have e4 := steps_eq (f := I) hl 16 48 (round3.foldl (set1 H (words data)) (round2.foldl (set1 G (words data)) (round1.foldl (set1 F (words data)) h))) (by decide) (by
    intro j x y z h1 h2; unfold Spec.md5F; rw [if_neg (by omega), if_neg (by omega), if_neg (by omega)]; rfl)
  rw [← round2_eq, show 16 + 16 = 32 from rfl] at e2
  rw [← round3_eq, show 32 + 16 = 48 from rfl] at e3
  rw [← round4_eq] at e4
  rw [show List.range' 0 16 = List.range 16 from rfl, ← round1_eq] at e1
  rw [e3, e2, show (16 : Nat) = 0 + 16 from rfl, e1] at e4
  have hr : List.range 64 = List.range 16 ++ List.range' 16 16 ++ List.range' 32 16 ++ List.range' 48 16 := by decide
  unfold Spec.md5Block process
  simp only [hr, List.foldl_append]
  have e4' : (round4.foldl (set1 I (words data)) (round3.foldl (set1 H (words data)) (round2.foldl (set1 G (words data)) (round1.foldl (set1 F (words data)) h)))).q
      = _ := e4
  generalize round4.foldl (set1 I (words data)) (round3.foldl (set1 H (words data)) (round2.foldl (set1 G (words data)) (round1.foldl (set1 F (words data)) h))) = r at e4'
  have e5 : List.foldl (Spec.md5Op data) (List.foldl (Spec.md5Op data) (List.foldl (Spec.md5Op data) (List.foldl (Spec.md5Op data) h.q (List.range 16)) (List.range' 16 16)) (List.range' 32 16)) (List.range' 48 16) = r.q := e4'.symm
  rw [e5]
  rfl

theorem foldl_process (l : List (List Byte)) (h : R4) (hl : ∀ b ∈ l, b.length = 64) :
    (l.foldl process h).q = l.foldl Spec.md5Block h.q := by
  induction l generalizing h with
  | nil => rfl
  | cons b l ih =>
    rw [List.foldl_cons, List.foldl_cons, ih _ (fun x hx => hl x (List.mem_cons_of_mem _ hx)), process_eq (hl b List.mem_cons_self)]

end Md5

theorem blocks_len {m b : List Byte} (h : b ∈ blocks m) : b.length = 64 := by
  unfold blocks at h
  obtain ⟨i, hi, rfl⟩ := List.mem_map.1 h
  have := List.mem_range.1 hi
  rw [List.length_take, List.length_drop]
  omega

namespace Md5

/-! ## The state after a message -/

/-- The state after the message `m`. -/
structure Inv (m : List Byte) (p : St) : Prop where
  h : p.h = (blocks m).foldl process (init []).h
  buf : p.buf.take (m.length % 64) = rest m
  len : p.buf.length = 64
  c0 : p.c0 = m.length * 8 % 2 ^ 32
  c1 : p.c1 = m.length * 8 / 2 ^ 32 % 2 ^ 32

theorem inv_init {junk : List Byte} (h : junk.length = 64) : Inv [] (init junk) := ⟨rfl, rfl, h, rfl, rfl⟩

theorem blocks_fuel : ∀ (fuel : Nat) (h : R4) (d : List Byte), d.length ≤ fuel →
    full fuel h d = ((blocks d).foldl process h, rest d) := by
  intro fuel
  induction fuel with
  | zero =>
    intro h d hd
    have : d = [] := List.length_eq_zero_iff.1 (by omega)
    subst this; rfl
  | succ fuel ih =>
    intro h d hd
    rw [full]
    by_cases h64 : 64 ≤ d.length
    · rw [if_pos h64, ih _ _ (by rw [List.length_drop]; omega)]
      have hl : (d.take 64).length = 64 := by rw [List.length_take]; omega
      have e : d = d.take 64 ++ d.drop 64 := (List.take_append_drop 64 d).symm
      have e1 : blocks d = d.take 64 :: blocks (d.drop 64) := by
        conv => lhs; rw [e]
        rw [blocks_cons hl]
      have e2 : rest d = rest (d.drop 64) := by
        conv => lhs; rw [e]
        rw [rest_cons hl]
      rw [e1, e2, List.foldl_cons]
    · rw [if_neg h64, blocks_short (by omega), rest_short (by omega)]; rfl

theorem splice_length {buf : List Byte} {off : Nat} {d : List Byte} (h : off + d.length ≤ buf.length) :
    (splice buf off d).length = buf.length := by
  unfold splice; simp; omega

/-- Behind the initial partial block. -/
theorem tail_inv {m : List Byte} {p : St} {d : List Byte} (hm : rest m = []) (hh : p.h = (blocks m).foldl process (init []).h)
    (hl : p.buf.length = 64) (hc0 : p.c0 = (m ++ d).length * 8 % 2 ^ 32) (hc1 : p.c1 = (m ++ d).length * 8 / 2 ^ 32 % 2 ^ 32) :
    Inv (m ++ d) (tail p d) := by
  have hr : rest (m ++ d) = rest d := by rw [rest_snoc, hm]; rfl
  have hrl := rest_length d
  have hml : (m ++ d).length % 64 = (rest d).length := by rw [← hr, rest_length]
  refine ⟨?_, ?_, ?_, hc0, hc1⟩
  · show (full d.length p.h d).1 = _
    rw [blocks_fuel _ _ _ (Nat.le_refl _), blocks_snoc, hm, List.foldl_append, ← hh]; rfl
  · show (if (full d.length p.h d).2.length ≠ 0 then splice p.buf 0 (full d.length p.h d).2 else p.buf).take _ = _
    rw [blocks_fuel _ _ _ (Nat.le_refl _), hr, hml]
    by_cases h0 : (rest d).length = 0
    · rw [h0, List.length_eq_zero_iff.1 h0]; rfl
    · rw [if_pos h0]
      simp [splice]
  · show (if (full d.length p.h d).2.length ≠ 0 then splice p.buf 0 (full d.length p.h d).2 else p.buf).length = _
    rw [blocks_fuel _ _ _ (Nat.le_refl _)]
    split
    · rw [splice_length (by show 0 + (rest d).length ≤ _; omega)]; exact hl
    · exact hl

theorem append_inv {m : List Byte} {p : St} {d : List Byte} (h : Inv m p) (hd : d.length < 2 ^ 28) :
    ∃ p', append p d = some p' ∧ Inv (m ++ d) p' := by
  unfold append
  rw [if_neg (by omega)]
  by_cases h0 : d.length = 0
  · rw [if_pos h0]
    have : d = [] := List.length_eq_zero_iff.1 h0
    subst this
    exact ⟨p, rfl, by simpa using h⟩
  · rw [if_neg h0]
    have hoff : (p.c0 >>> 3) &&& 63 = m.length % 64 := by
      rw [h.c0, Nat.shiftRight_eq_div_pow, show (63 : Nat) = 2 ^ 6 - 1 from rfl, Nat.and_two_pow_sub_one_eq_mod]
      omega
    have hn : d.length <<< 3 = d.length * 8 := by rw [Nat.shiftLeft_eq]
    have h29 : d.length >>> 29 = 0 := by rw [Nat.shiftRight_eq_div_pow]; omega
    have hc0 : (p.c0 + d.length * 8) % 2 ^ 32 = (m ++ d).length * 8 % 2 ^ 32 := by rw [h.c0, List.length_append]; omega
    have hc1 : (if (p.c0 + d.length * 8) % 2 ^ 32 < d.length * 8 then ((p.c1 + 0) % 2 ^ 32 + 1) % 2 ^ 32 else (p.c1 + 0) % 2 ^ 32) =
        (m ++ d).length * 8 / 2 ^ 32 % 2 ^ 32 := by
      rw [h.c0, h.c1, List.length_append]
      split <;> omega
    have hlen := h.len
    rw [hoff, hn, h29]
    simp only [hc0] at hc1 ⊢
    rw [hc1]
    by_cases ho : m.length % 64 = 0
    · rw [if_neg (by omega)]
      refine ⟨_, rfl, tail_inv ?_ h.h hlen rfl rfl⟩
      exact List.length_eq_zero_iff.1 (by rw [rest_length]; exact ho)
    · rw [if_pos ho]
      have hrl := rest_length m
      by_cases hover : m.length % 64 + d.length > 64
      · rw [if_pos hover, if_neg (by omega)]
        have hsp : splice p.buf (m.length % 64) (d.take (64 - m.length % 64)) = rest m ++ d.take (64 - m.length % 64) := by
          unfold splice
          rw [h.buf, List.drop_eq_nil_of_le (by rw [List.length_take]; omega), List.append_nil]
        have hl64 : (rest m ++ d.take (64 - m.length % 64)).length = 64 := by rw [List.length_append, List.length_take]; omega
        have e : m ++ d = (m ++ d.take (64 - m.length % 64)) ++ d.drop (64 - m.length % 64) := by simp
        refine ⟨_, rfl, ?_⟩
        rw [e]
        refine tail_inv ?_ ?_ ?_ ?_ ?_
        · rw [rest_snoc]
          have := rest_cons (b := rest m ++ d.take (64 - m.length % 64)) (m := []) hl64
          simpa [rest_short] using this
        · show process p.h (splice _ _ _) = _
          rw [hsp, blocks_snoc, List.foldl_append, ← h.h]
          have := blocks_cons (b := rest m ++ d.take (64 - m.length % 64)) (m := []) hl64
          rw [List.append_nil, blocks_short (m := []) (by decide)] at this
          rw [this]; rfl
        · show (splice _ _ _).length = _
          rw [hsp, hl64]
        · rw [← e]
        · rw [← e]
      · rw [if_neg hover]
        have htk : d.take d.length = d := List.take_length
        by_cases hlt : m.length % 64 + d.length < 64
        · rw [if_pos hlt]
          have hl64 : (rest m ++ d).length < 64 := by rw [List.length_append]; omega
          have hmod : (m ++ d).length % 64 = m.length % 64 + d.length := by rw [List.length_append]; omega
          refine ⟨_, rfl, ?_, ?_, ?_, rfl, rfl⟩
          · show p.h = _
            rw [blocks_snoc, blocks_short hl64, List.append_nil]; exact h.h
          · show (splice _ _ _).take _ = _
            rw [rest_snoc, rest_short hl64, hmod, htk]
            unfold splice
            rw [h.buf, List.take_append_of_le_length (by rw [List.length_append, rest_length]; omega), List.take_of_length_le (by rw [List.length_append, rest_length]; omega)]
          · show (splice _ _ _).length = _
            rw [htk, splice_length (by omega)]; exact hlen
        · rw [if_neg hlt]
          have hl64 : (rest m ++ d).length = 64 := by rw [List.length_append]; omega
          have hsp : splice p.buf (m.length % 64) (d.take d.length) = rest m ++ d := by
            unfold splice
            rw [htk, h.buf, List.drop_eq_nil_of_le (by omega), List.append_nil]
          refine ⟨_, rfl, ?_⟩
          rw [List.drop_length]
          have e : m ++ d = (m ++ d) ++ [] := by simp
          rw [e]
          refine tail_inv ?_ ?_ ?_ ?_ ?_
          · rw [rest_snoc]
            have := rest_cons (b := rest m ++ d) (m := []) hl64
            simpa [rest_short] using this
          · show process p.h (splice _ _ _) = _
            rw [hsp, blocks_snoc, List.foldl_append, ← h.h]
            have := blocks_cons (b := rest m ++ d) (m := []) hl64
            rw [List.append_nil, blocks_short (m := []) (by decide)] at this
            rw [this]; rfl
          · show (splice _ _ _).length = _
            rw [hsp, hl64]
          · rw [← e]
          · rw [← e]

theorem appends_inv : ∀ (ds : List (List Byte)) {m : List Byte} {p : St}, Inv m p → (∀ d ∈ ds, d.length < 2 ^ 28) →
    ∃ p', appends p ds = some p' ∧ Inv (m ++ ds.flatten) p' := by
  intro ds
  induction ds with
  | nil => intro m p h _; exact ⟨p, rfl, by simpa using h⟩
  | cons d ds ih =>
    intro m p h hd
    obtain ⟨p1, e1, h1⟩ := append_inv h (hd d List.mem_cons_self)
    obtain ⟨p2, e2, h2⟩ := ih h1 (fun x hx => hd x (List.mem_cons_of_mem _ hx))
    exact ⟨p2, by rw [appends, e1]; exact e2, by simpa using h2⟩

theorem len_bytes (n : Nat) :
    ((List.range 8).map fun i => BitVec.ofNat 8 ((if i >>> 2 = 0 then n % 2 ^ 32 else n / 2 ^ 32 % 2 ^ 32) >>> ((i &&& 3) <<< 3))) = Spec.le64 n := by
  unfold Spec.le64
  apply List.map_congr_left
  intro i hi
  have hi := List.mem_range.1 hi
  have : i = 0 ∨ i = 1 ∨ i = 2 ∨ i = 3 ∨ i = 4 ∨ i = 5 ∨ i = 6 ∨ i = 7 := by omega
  apply BitVec.eq_of_toNat_eq
  rcases this with rfl | rfl | rfl | rfl | rfl | rfl | rfl | rfl <;>
    simp [Nat.shiftRight_eq_div_pow] <;> omega

theorem finish_inv {m : List Byte} {p : St} (h : Inv m p) : ∃ p', finish p = some (Spec.md5 m, p') := by
  have hpad : (55 + 2 ^ 32 - (p.c0 >>> 3)) % 2 ^ 32 &&& 63 = (119 - m.length % 64) % 64 := by
    rw [h.c0, Nat.shiftRight_eq_div_pow, show (63 : Nat) = 2 ^ 6 - 1 from rfl, Nat.and_two_pow_sub_one_eq_mod]
    omega
  have hk : (119 - m.length % 64) % 64 < 64 := Nat.mod_lt _ (by decide)
  have hp : pad.take ((119 - m.length % 64) % 64 + 1) = [0x80] ++ List.replicate ((119 - m.length % 64) % 64) 0 := by
    unfold pad
    rw [List.take_succ_cons, List.take_replicate, Nat.min_eq_left (by omega)]; rfl
  obtain ⟨p1, e1, h1⟩ := append_inv h (d := pad.take ((119 - m.length % 64) % 64 + 1)) (by rw [hp]; simp; omega)
  obtain ⟨p2, e2, h2⟩ := append_inv h1 (d := Spec.le64 (m.length * 8)) (by simp [Spec.le64])
  have hlen : ((List.range 8).map fun i => BitVec.ofNat 8 ((if i >>> 2 = 0 then p.c0 else p.c1) >>> ((i &&& 3) <<< 3))) = Spec.le64 (m.length * 8) := by
    rw [h.c0, h.c1, len_bytes]
  refine ⟨p2, ?_⟩
  unfold finish
  rw [hpad, e1]
  simp only
  rw [hlen, e2]
  simp only [Option.some.injEq, Prod.mk.injEq, and_true]
  have hq : p2.h.q = (blocks (Spec.padded Spec.le64 m)).foldl Spec.md5Block (0x67452301, 0xefcdab89, 0x98badcfe, 0x10325476) := by
    rw [h2.h, foldl_process _ _ (fun b hb => blocks_len hb), hp]
    have : m ++ ([0x80] ++ List.replicate ((119 - m.length % 64) % 64) 0) ++ Spec.le64 (m.length * 8) = Spec.padded Spec.le64 m := by
      unfold Spec.padded; simp
    rw [this]
    rfl
  unfold Spec.md5
  simp only [← hq]
  have hb : ∀ w : W, ∀ k, (w >>> k).setWidth 8 = w.extractLsb' k 8 := by
    intro w k
    apply BitVec.eq_of_toNat_eq
    simp
  simp only [hb]
  rfl

/-! ## C64 and C89 -/

/-- C89: whatever the pieces, whatever the buffer held before, the digest is the one which RFC 1321
defines for the whole message.  Missing: pieces of 2^28 bytes or more (`c89_md5_long_violated`). -/
theorem c89_md5_standard_partial (junk : List Byte) (pieces : List (List Byte)) (hj : junk.length = 64) (hd : ∀ d ∈ pieces, d.length < 2 ^ 28) :
    ∃ p p', appends (init junk) pieces = some p ∧ finish p = some (Spec.md5 pieces.flatten, p') := by
  obtain ⟨p, e, h⟩ := appends_inv pieces (inv_init hj) hd
  obtain ⟨p', e'⟩ := finish_inv h
  exact ⟨p, p', e, by simpa using e'⟩

/-- C64, MD5: two divisions of the same message give the same digest.  Missing: pieces of 2^28 bytes or
more. -/
theorem c64_md5_chunks_partial (junk junk' : List Byte) (pieces pieces' : List (List Byte)) (hj : junk.length = 64) (hj' : junk'.length = 64)
    (hd : ∀ d ∈ pieces, d.length < 2 ^ 28) (hd' : ∀ d ∈ pieces', d.length < 2 ^ 28) (h : pieces.flatten = pieces'.flatten) :
    ((appends (init junk) pieces).bind finish).map (·.1) = ((appends (init junk') pieces').bind finish).map (·.1) ∧
      ((appends (init junk) pieces).bind finish).isSome = true := by
  obtain ⟨p, q, e1, e2⟩ := c89_md5_standard_partial junk pieces hj hd
  obtain ⟨p', q', e3, e4⟩ := c89_md5_standard_partial junk' pieces' hj' hd'
  rw [e1, e3]
  simp [e2, e4, h]

/-- RFC 1321, A.5: "abc", in two pieces. -/
example : ((appends (init (List.replicate 64 7)) [[0x61], [0x62, 0x63]]).bind finish).map (·.1) =
    some [0x90, 0x01, 0x50, 0x98, 0x3c, 0xd2, 0x4f, 0xb0, 0xd6, 0x96, 0x3f, 0x7d, 0x28, 0xe1, 0x7f, 0x72] := by decide +kernel

/-- RFC 1321, A.5: the empty message, and the specification on it. -/
example : Spec.md5 [] = [0xd4, 0x1d, 0x8c, 0xd9, 0x8f, 0x00, 0xb2, 0x04, 0xe9, 0x80, 0x09, 0x98, 0xec, 0xf8, 0x42, 0x7e] := by decide +kernel

/-- 150 bytes in pieces of 60, 4, 86: blocks which end at and inside of pieces. -/
example : ((appends (init (List.replicate 64 7)) [List.replicate 60 1, List.replicate 4 1, List.replicate 86 1]).bind finish).map (·.1) =
    some (Spec.md5 (List.replicate 150 1)) := by decide +kernel

/-- C64 and C89 do not hold for a piece of 2^28 bytes: the number of bits is not an `int` any more, the
behaviour is undefined. -/
theorem c89_md5_long_violated : ∃ d : List Byte, ∀ p, append p d = none := by
  refine ⟨List.replicate (2 ^ 28) 0, fun p => ?_⟩
  unfold append
  rw [if_pos (by rw [List.length_replicate]; exact Nat.le_refl _)]

/-! ## C91: the iterator -/

/-- The letters of hexadecimal notation. -/
def Spec.hexLetters : List Byte := [0x30, 0x31, 0x32, 0x33, 0x34, 0x35, 0x36, 0x37, 0x38, 0x39, 0x61, 0x62, 0x63, 0x64, 0x65, 0x66]

/-- A byte string in lower case hexadecimal notation. -/
def Spec.hex (d : List Byte) : List Byte :=
  d.flatMap fun b => [Spec.hexLetters.getD (b.toNat / 16) 0, Spec.hexLetters.getD (b.toNat % 16) 0]

/-- A sequence of writes. -/
def Hash.writes (x : Hash) (pieces : List (List Byte)) : Option Hash := pieces.foldlM Hash.write x

theorem hash_writes (pieces : List (List Byte)) : ∀ x : Hash, x.writes pieces = (appends x.st pieces).map fun st => { x with st := st } := by
  induction pieces with
  | nil => intro x; rfl
  | cons d l ih =>
    intro x
    have e : x.writes (d :: l) = (x.write d).bind fun y => y.writes l := rfl
    have e' : appends x.st (d :: l) = (append x.st d).bind fun y => appends y l := by rw [appends]; cases append x.st d <;> rfl
    rw [e, e']
    unfold Hash.write
    cases append x.st d with
    | none => rfl
    | some y =>
      show Hash.writes { x with st := y } l = Option.map _ (appends y l)
      rw [ih]

theorem digit_hi (b : Byte) : digit (b >>> 4) = Spec.hexLetters.getD (b.toNat / 16) 0 := by
  revert b; decide +kernel

theorem digit_lo (b : Byte) : digit (b &&& 0xF) = Spec.hexLetters.getD (b.toNat % 16) 0 := by
  revert b; decide +kernel

theorem hex_eq (d : List Byte) : (nibbles d).map digit = Spec.hex d := by
  induction d with
  | nil => rfl
  | cons b l ih =>
    show digit (b >>> 4) :: digit (b &&& 0xF) :: (nibbles l).map digit = _
    rw [ih, digit_hi, digit_lo]
    rfl

theorem hex_ne_zero (b : Byte) (l : List Byte) : (Spec.hex (b :: l)).getD 0 0 ≠ 0 := by
  show Spec.hexLetters.getD (b.toNat / 16) 0 ≠ 0
  revert b; decide +kernel

/-- C91, what holds: after the writes and one `finish` the digest is the one of RFC 1321, its text is its
hexadecimal notation, and asking for the text again gives the same text.  Missing: `flush` may be
called more than once on a write iterator, and here it may not. -/
theorem c91_hash_iterator_partial (junk : List Byte) (pieces : List (List Byte)) (hj : junk.length = 64) (hd : ∀ d ∈ pieces, d.length < 2 ^ 28) :
    ∃ x y z, (Hash.new junk).writes pieces = some x ∧ x.finish = some y ∧ y.digest = some (Spec.md5 pieces.flatten) ∧
      y.hexdigest = some (Spec.hex (Spec.md5 pieces.flatten), z) ∧ z.hexdigest = some (Spec.hex (Spec.md5 pieces.flatten), z) := by
  obtain ⟨p, p', e1, e2⟩ := c89_md5_standard_partial junk pieces hj hd
  have e3 : (Hash.new junk).writes pieces = some { Hash.new junk with st := p } := by
    rw [hash_writes, show (Hash.new junk).st = init junk from rfl, e1]; rfl
  have e4 : Hash.finish { Hash.new junk with st := p } = some ⟨p', some (Spec.md5 pieces.flatten), some (0 :: List.replicate 31 0)⟩ := by
    unfold Hash.finish
    rw [e2]; rfl
  refine ⟨_, _, ⟨p', some (Spec.md5 pieces.flatten), some (Spec.hex (Spec.md5 pieces.flatten))⟩, e3, e4, rfl, ?_, ?_⟩
  · unfold Hash.hexdigest
    simp [hex_eq]
  · have hne : (Spec.hex (Spec.md5 pieces.flatten)).getD 0 0 ≠ 0 := by
      have : ∃ b l, Spec.md5 pieces.flatten = b :: l := ⟨_, _, rfl⟩
      obtain ⟨b, l, e⟩ := this
      rw [e]; exact hex_ne_zero b l
    unfold Hash.hexdigest
    simp only
    rw [if_neg hne]

/-- C91 does not hold in full: a second `flush` with nothing written in between changes the digest, because
`finish` has written the padding into the state. -/
theorem c91_flush_twice_violated : ∃ x y z, (Hash.new (List.replicate 64 0)).writes [[0x61, 0x62, 0x63]] = some x ∧ x.flush = some y ∧
    y.flush = some z ∧ y.digest = some (Spec.md5 [0x61, 0x62, 0x63]) ∧ z.digest ≠ y.digest := by
  obtain ⟨x, y, z, e1, e2, e3, e4, e5⟩ := c91_hash_iterator_partial (List.replicate 64 0) [[0x61, 0x62, 0x63]] rfl (by intro d hd; simp at hd; subst hd; decide)
  have hs : (y.flush).isSome = true ∧ (y.flush).bind (·.digest) ≠ y.digest := by
    have ey : ((Hash.new (List.replicate 64 0)).writes [[0x61, 0x62, 0x63]]).bind Hash.finish = some y := by rw [e1]; exact e2
    have hw : ((((Hash.new (List.replicate 64 0)).writes [[0x61, 0x62, 0x63]]).bind Hash.finish).bind Hash.flush).isSome = true ∧
        ((((Hash.new (List.replicate 64 0)).writes [[0x61, 0x62, 0x63]]).bind Hash.finish).bind Hash.flush).bind (·.digest) ≠
          (((Hash.new (List.replicate 64 0)).writes [[0x61, 0x62, 0x63]]).bind Hash.finish).bind (·.digest) := by decide +kernel
    rw [ey] at hw
    exact hw
  obtain ⟨h1, h2⟩ := hs
  cases hz : y.flush with
  | none => rw [hz] at h1; exact absurd h1 (by simp)
  | some w =>
    refine ⟨x, y, w, e1, e2, hz, e3, ?_⟩
    rw [hz] at h2
    exact h2

/-- The text of the digest of "abc". -/
example : (((((Hash.new (List.replicate 64 0)).writes [[0x61], [0x62, 0x63]]).bind Hash.finish).bind Hash.hexdigest).map (·.1)) =
    some ("900150983cd24fb0d6963f7d28e17f72".toList.map fun c => BitVec.ofNat 8 c.toNat) := by decide +kernel

end Md5

end LS.Digest

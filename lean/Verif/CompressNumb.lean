import Verif.Basic
/-!
# Model of `base/streams/compressNumb.{h,cpp}`

Numbers are 64-bit words represented as `Nat`; every operation that can leave
the word reduces modulo `2^64` explicitly.  Bytes are `Nat` below 256.
-/

namespace LS.CompressNumb

/-- compressNumb.cpp:8-18 `calcCompressedLen`. -/
def calcCompressedLen (n : Nat) : Nat :=
  if n < 0x20 then 0
  else if n < 0x2020 then 1
  else if n < 0x202020 then 2
  else if n < 0x20202020 then 3
  else if n < 0x2020202020 then 4
  else if n < 0x202020202020 then 5
  else if n < 0x20202020202020 then 6
  else if n < 0x1F20202020202020 then 7
  else 8

/-- compressNumb.cpp:20-30 `compressOffsets[9]`; index 8 is the last entry. -/
def compressOffsets : Nat → Nat
  | 0 => 0
  | 1 => 0x20
  | 2 => 0x2020
  | 3 => 0x202020
  | 4 => 0x20202020
  | 5 => 0x2020202020
  | 6 => 0x202020202020
  | 7 => 0x20202020202020
  | _ => 0

/-- compressNumb.cpp:44-49, the loop `while (len > 0) { buffer[len] = number & 0xFF; len--;
number >>= 8; } buffer[0] = (byte)(number & 0xFF) | firstByte`.
The buffer content is produced as a list; `acc` holds `buffer[len+1..]`. -/
def writeLoop (firstByte : Nat) : (len : Nat) → (number : Nat) → (acc : List Nat) → List Nat
  | 0, number, acc => ((number &&& 0xFF) ||| firstByte) :: acc
  | len + 1, number, acc => writeLoop firstByte len (number >>> 8) ((number &&& 0xFF) :: acc)

/-- compressNumb.cpp:32-51 `CompressNumb::compress`; the result list is the written prefix
of `buffer`, its length is the returned count. The subtraction is on `natural64`. -/
def compress (number : Nat) : List Nat :=
  let len := calcCompressedLen number
  let firstByte := if len = 8 then 0xFF else (len <<< 5) % 256
  writeLoop firstByte len ((number + 2 ^ 64 - compressOffsets len) % 2 ^ 64) []

/-- compressNumb.h:41-46 `numberLength`. -/
def numberLength (firstByte : Nat) : Nat :=
  ((firstByte >>> 5) + 1) + ((firstByte + 1) >>> 8)

/-- compressNumb.cpp:63-69, the accumulation loop of `decompress`:
`while (i < len) { res = (res << 8) + x; i++; x = buffer[i]; } res = (res << 8) + x`.
`n` is the number of iterations left; `none` = read past the end of the buffer. -/
def readLoop : (n : Nat) → (res x : Nat) → (rest : List Nat) → Option (Nat × List Nat)
  | 0, res, x, rest => some ((((res <<< 8) % 2 ^ 64) + x) % 2 ^ 64, rest)
  | n + 1, res, x, b :: rest => readLoop n ((((res <<< 8) % 2 ^ 64) + x) % 2 ^ 64) b rest
  | _ + 1, _, _, [] => none

/-- compressNumb.cpp:53-72 `CompressNumb::decompress`; also returns the bytes behind the
last byte read. `none` = the buffer was too short (out-of-range read). -/
def decompress : List Nat → Option (Nat × List Nat)
  | [] => none
  | b :: rest =>
    let len := numberLength b - 1
    let x := b &&& (0x1F >>> (len &&& 0x8))
    match readLoop len 0 x rest with
    | none => none
    | some (res, rest') => some ((res + compressOffsets len) % 2 ^ 64, rest')

/-- A user's loop over a buffer of packed numbers: `decompress` at the current position,
then advance by `numberLength` of the first byte (compressNumb.h:28-46).  The first argument
bounds the number of steps. -/
def readAll : (fuel : Nat) → List Nat → Option (List Nat)
  | _, [] => some []
  | 0, _ :: _ => none
  | fuel + 1, b :: rest =>
    match decompress (b :: rest) with
    | none => none
    | some (n, _) => (readAll fuel ((b :: rest).drop (numberLength b))).map (n :: ·)

/-- compressNumb.h:48-54 `compressSigned`; `number` is the two's complement value.
Signed left shift and negation are taken with wrap-around. -/
def compressSigned (number : Int) : List Nat :=
  if number ≥ 0 then compress ((number * 2) % 2 ^ 64).toNat
  else compress ((((-number - 1) * 2) % 2 ^ 64).toNat ||| 1)

/-- compressNumb.h:56-60 `decompressSigned`. -/
def decompressSigned (buf : List Nat) : Option (Int × List Nat) :=
  match decompress buf with
  | none => none
  | some (res, rest) =>
    if res &&& 1 ≠ 0 then some (-((res >>> 1 : Nat) : Int) - 1, rest)
    else some (((res >>> 1 : Nat) : Int), rest)

/-! ## Lemmas -/

/-- Big-endian value of a byte list. -/
def beVal (l : List Nat) : Nat := l.foldl (fun a b => a * 256 + b) 0

theorem or_first (len x : Nat) (hl : len < 8) (hx : x < 32) :
    (x ||| ((len <<< 5) % 256)) = len * 32 + x := by
  have h1 : (len <<< 5) % 256 = len <<< 5 := by rw [Nat.shiftLeft_eq]; omega
  rw [h1, or_shl len x 5 (by omega)]

/-- The bytes `number` occupies below the first one. -/
def tailBytes : Nat → Nat → List Nat
  | 0, _ => []
  | len + 1, m => tailBytes len (m / 256) ++ [m % 256]

theorem tailBytes_length (len m : Nat) : (tailBytes len m).length = len := by
  induction len generalizing m with
  | zero => rfl
  | succ n ih => simp [tailBytes, ih]

theorem tailBytes_bytes (len m : Nat) : Bytes (tailBytes len m) := by
  induction len generalizing m with
  | zero => simp [tailBytes]
  | succ n ih => simp [tailBytes, ih]; omega

theorem writeLoop_eq (fb len m : Nat) (acc : List Nat) :
    writeLoop fb len m acc =
      ((m / 256 ^ len) % 256 ||| fb) :: (tailBytes len m ++ acc) := by
  induction len generalizing m acc with
  | zero => simp [writeLoop, tailBytes, and_255]
  | succ n ih =>
    simp only [writeLoop, ih, tailBytes, and_255, Nat.shiftRight_eq_div_pow]
    rw [show (2:Nat)^8 = 256 from rfl, Nat.div_div_eq_div_mul, Nat.pow_succ, Nat.mul_comm 256]
    simp

theorem tailBytes_cons : ∀ (k m : Nat), tailBytes (k+1) m = (m / 256 ^ k) % 256 :: tailBytes k m := by
  intro k
  induction k with
  | zero => intro m; simp [tailBytes]
  | succ k ih =>
    intro m
    rw [tailBytes, ih (m/256), tailBytes, Nat.div_div_eq_div_mul, Nat.pow_succ, Nat.mul_comm 256]
    simp

/-- Reading back the tail bytes. -/
theorem readLoop_eq (len : Nat) : ∀ (res x m : Nat) (rest : List Nat),
    (res * 256 + x) * 256 ^ len + 256 ^ len ≤ 2 ^ 64 →
    readLoop len res x (tailBytes len m ++ rest) =
      some ((res * 256 + x) * 256 ^ len + m % 256 ^ len, rest) := by
  induction len with
  | zero =>
    intro res x m rest h
    simp only [readLoop, tailBytes, Nat.shiftLeft_eq, Nat.pow_zero, Nat.mul_one, Nat.mod_one] at *
    simp; omega
  | succ n ih =>
    intro res x m rest h
    rw [tailBytes_cons n m]
    simp only [List.cons_append, readLoop, Nat.shiftLeft_eq]
    have hp : 0 < 256 ^ n := Nat.pow_pos (by omega)
    have hpow : (256:Nat) ^ (n+1) = 256 * 256 ^ n := by rw [Nat.pow_succ, Nat.mul_comm]
    rw [hpow] at h ⊢
    have hb : res * 256 + x < 2 ^ 64 := by
      have h4 : (res * 256 + x) * 1 ≤ (res * 256 + x) * (256 * 256 ^ n) := Nat.mul_le_mul_left _ (by omega)
      rw [Nat.mul_one] at h4
      exact Nat.lt_of_le_of_lt h4 (Nat.lt_of_lt_of_le (Nat.lt_add_of_pos_right (by omega)) h)
    have e1 : ((res * 2 ^ 8) % 2 ^ 64 + x) % 2 ^ 64 = res * 256 + x := by omega
    rw [e1, ih]
    · have h2 : m % (256 * 256 ^ n) = (m / 256 ^ n) % 256 * 256 ^ n + m % 256 ^ n := by
        rw [Nat.mul_comm 256, Nat.mod_mul, Nat.mul_comm (256 ^ n), Nat.add_comm]
      rw [h2, Nat.add_mul, Nat.mul_assoc, Nat.add_assoc]
    · have h3 : m / 256 ^ n % 256 < 256 := Nat.mod_lt _ (by omega)
      have : ((res * 256 + x) * 256 + m / 256 ^ n % 256) * 256 ^ n + 256 ^ n
          ≤ (res * 256 + x) * (256 * 256 ^ n) + 256 * 256 ^ n := by
        rw [← Nat.succ_mul, ← Nat.mul_assoc, ← Nat.add_mul]
        exact Nat.mul_le_mul_right _ (by omega)
      exact Nat.le_trans this h

/-- Facts about the length class of `n`. -/
structure Cls (n len m top : Nat) : Prop where
  len_eq : calcCompressedLen n = len
  m_eq : (n + 2 ^ 64 - compressOffsets len) % 2 ^ 64 = m
  val : m + compressOffsets len = n
  len_le : len ≤ 8
  top_eq : m / 256 ^ len = top
  top_lt : len < 8 → top < 32
  top7 : len = 7 → top < 31
  top8 : len = 8 → top = 0

theorem cls (n : Nat) (hn : n < 2 ^ 64) :
    ∃ len m top, Cls n len m top := by
  have key : ∀ len, len ≤ 8 → calcCompressedLen n = len → compressOffsets len ≤ n →
      (len < 8 → (n - compressOffsets len) / 256 ^ len < 32) →
      (len = 7 → (n - compressOffsets len) / 256 ^ len < 31) →
      (len = 8 → (n - compressOffsets len) / 256 ^ len = 0) →
      ∃ len m top, Cls n len m top := by
    intro len h1 h2 h3 h4 h5 h6
    exact ⟨len, n - compressOffsets len, _, h2, by omega, by omega, h1, rfl, h4, h5, h6⟩
  unfold calcCompressedLen at key
  by_cases c0 : n < 0x20
  · exact key 0 (by omega) (by simp [c0]) (by simp [compressOffsets])
      (by simp [compressOffsets]; omega) (by omega) (by omega)
  by_cases c1 : n < 0x2020
  · exact key 1 (by omega) (by simp [c0, c1]) (by simp [compressOffsets]; omega)
      (by simp [compressOffsets]; omega) (by omega) (by omega)
  by_cases c2 : n < 0x202020
  · exact key 2 (by omega) (by simp [c0, c1, c2]) (by simp [compressOffsets]; omega)
      (by simp [compressOffsets]; omega) (by omega) (by omega)
  by_cases c3 : n < 0x20202020
  · exact key 3 (by omega) (by simp [c0, c1, c2, c3]) (by simp [compressOffsets]; omega)
      (by simp [compressOffsets]; omega) (by omega) (by omega)
  by_cases c4 : n < 0x2020202020
  · exact key 4 (by omega) (by simp [c0, c1, c2, c3, c4]) (by simp [compressOffsets]; omega)
      (by simp [compressOffsets]; omega) (by omega) (by omega)
  by_cases c5 : n < 0x202020202020
  · exact key 5 (by omega) (by simp [c0, c1, c2, c3, c4, c5]) (by simp [compressOffsets]; omega)
      (by simp [compressOffsets]; omega) (by omega) (by omega)
  by_cases c6 : n < 0x20202020202020
  · exact key 6 (by omega) (by simp [c0, c1, c2, c3, c4, c5, c6]) (by simp [compressOffsets]; omega)
      (by simp [compressOffsets]; omega) (by omega) (by omega)
  by_cases c7 : n < 0x1F20202020202020
  · exact key 7 (by omega) (by simp [c0, c1, c2, c3, c4, c5, c6, c7])
      (by simp [compressOffsets]; omega)
      (by simp [compressOffsets]; omega) (by simp [compressOffsets]; omega) (by omega)
  · exact key 8 (by omega) (by simp [c0, c1, c2, c3, c4, c5, c6, c7]) (by simp [compressOffsets])
      (by omega) (by omega) (by simp [compressOffsets]; omega)

theorem compress_eq {n len m top : Nat} (h : Cls n len m top) :
    compress n = (if len = 8 then 255 else len * 32 + top) :: tailBytes len m := by
  unfold compress
  simp only [h.len_eq, h.m_eq, writeLoop_eq, h.top_eq, List.append_nil]
  by_cases h8 : len = 8
  · simp [h8, h.top8 h8]
  · have hl : len < 8 := by have := h.len_le; omega
    have ht := h.top_lt hl
    simp only [h8, if_false]
    rw [Nat.mod_eq_of_lt (by omega : top < 256), or_first len top hl ht]

end LS.CompressNumb

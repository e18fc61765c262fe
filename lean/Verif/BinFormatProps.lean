/-
C124: what a binary archive stored is loaded again.
-/
import Verif.BinFormat
import Verif.CompressNumbProps
import Verif.UtfFilterProps
namespace LS.BinFormat
open LS.CompressNumb LS.UtfFilter

/-! ## Specification -/

/-- Scripts: integers of one to eight bytes; names are C strings, and the two names of a choice differ. -/
def Ok : Ty → Prop
  | .sint w => 1 ≤ w ∧ w ≤ 8
  | .uint w => 1 ≤ w ∧ w ≤ 8
  | .pair a b => Ok a ∧ Ok b
  | .arr t => Ok t
  | .str t => Ok t
  | .dflt t => Ok t
  | .alt n1 t1 n2 t2 => 0 ∉ n1 ∧ 0 ∉ n2 ∧ n1 ≠ n2 ∧ Ok t1 ∧ Ok t2
  | _ => True

/-- Values of the types. -/
def Fits : (t : Ty) → t.Den → Prop
  | .unit, _ => True
  | .bool, _ => True
  | .byte, b => b < 256
  | .sint w, z => -((256 ^ w : Nat) : Int) ≤ 2 * z ∧ 2 * z < ((256 ^ w : Nat) : Int)
  | .uint w, n => n < 256 ^ w
  | .raw n, l => l.length = n ∧ ∀ b ∈ l, b < 256
  | .wchar, c => IsW c
  | .pair a b, v => Fits a v.1 ∧ Fits b v.2
  | .arr t, l => l.length < 18446744073709551615 ∧ ∀ x ∈ l, Fits t x
  | .str t, l => l.length < 18446744073709551615 ∧ ∀ x ∈ l, Fits t x
  | .dflt _, none => True
  | .dflt t, some v => Fits t v
  | .alt _ t1 _ _, .inl v => Fits t1 v
  | .alt _ _ _ t2, .inr v => Fits t2 v

/-- Loading gives the value stored and leaves what is behind it. -/
def Back (t : Ty) (v : t.Den) : Prop := ∀ rest : List Nat, read t ⟨write t v ++ rest, []⟩ = .ok (v, ⟨rest, []⟩)

/-- Full claim. -/
def Claim124 : Prop := ∀ (t : Ty) (v : t.Den), Ok t → Fits t v → Back t v

/-- Values the code handles: strings of at most one character, and no section stored under an empty name that is tried second. -/
def Calm : (t : Ty) → t.Den → Prop
  | .unit, _ => True
  | .bool, _ => True
  | .byte, _ => True
  | .sint _, _ => True
  | .uint _, _ => True
  | .raw _, _ => True
  | .wchar, _ => True
  | .pair a b, v => Calm a v.1 ∧ Calm b v.2
  | .arr t, l => ∀ x ∈ l, Calm t x
  | .str t, l => l.length ≤ 1 ∧ ∀ x ∈ l, Calm t x
  | .dflt _, none => True
  | .dflt t, some v => Calm t v
  | .alt _ t1 _ _, .inl v => Calm t1 v
  | .alt _ _ n2 t2, .inr v => n2 ≠ [] ∧ Calm t2 v

/-! ## Atoms -/

theorem take_append (l : List Nat) : ∀ (rest : List Nat) (d : Name), St.take l.length ⟨l ++ rest, d⟩ = .ok (l, ⟨rest, d⟩) := by
  induction l with
  | nil => intro rest d; rfl
  | cons b l ih =>
    intro rest d
    show (match St.take l.length ⟨l ++ rest, d⟩ with
      | .error e => Except.error e
      | .ok (l, s) => .ok (b :: l, s)) = _
    rw [ih]

/-- A number packed is taken as a whole. -/
theorem number_compress (n : Nat) (hn : n < 2 ^ 64) (rest : List Nat) (d : Name) : St.number ⟨compress n ++ rest, d⟩ = .ok (compress n, ⟨rest, d⟩) := by
  obtain ⟨-, -, -, -, b, t, hb, hl⟩ := C01_compress_roundtrip n hn []
  rw [hb] at hl ⊢
  have e : numberLength b - 1 = t.length := by rw [hl, List.length_cons]; omega
  show (match St.take (numberLength b - 1) ⟨t ++ rest, d⟩ with
    | .error e => Except.error e
    | .ok (l, s) => .ok (b :: l, s)) = _
  rw [e, take_append]

theorem unsigned_compress (n : Nat) (hn : n < 2 ^ 64) (rest : List Nat) (d : Name) : St.unsigned ⟨compress n ++ rest, d⟩ = .ok (n, ⟨rest, d⟩) := by
  unfold St.unsigned
  rw [number_compress n hn rest d]
  have := decompress_compress n hn []
  rw [List.append_nil] at this
  show (match decompress (compress n) with
    | some (n, _) => Except.ok (n, _)
    | none => .error Err.eof) = _
  rw [this]

theorem signed_number (z : Int) : ∃ n, n < 2 ^ 64 ∧ compressSigned z = compress n := by
  unfold compressSigned
  by_cases h : z ≥ 0
  · rw [if_pos h]
    exact ⟨_, by omega, rfl⟩
  · rw [if_neg h]
    refine ⟨_, ?_, rfl⟩
    exact Nat.or_lt_two_pow (by omega) (by decide)

theorem signed_compress (z : Int) (h1 : -2 ^ 63 ≤ z) (h2 : z < 2 ^ 63) (rest : List Nat) (d : Name) : St.signed ⟨compressSigned z ++ rest, d⟩ = .ok (z, ⟨rest, d⟩) := by
  obtain ⟨n, hn, e⟩ := signed_number z
  have := C01_signed_roundtrip z h1 h2 []
  rw [List.append_nil] at this
  unfold St.signed
  rw [e, number_compress n hn rest d]
  show (match decompressSigned (compress n) with
    | some (n, _) => Except.ok (n, _)
    | none => .error Err.eof) = _
  rw [← e, this]

theorem castS_fits {w : Nat} {z : Int} (h1 : -((256 ^ w : Nat) : Int) ≤ 2 * z) (h2 : 2 * z < ((256 ^ w : Nat) : Int)) : castS w z = z := by
  unfold castS
  generalize ((256 ^ w : Nat) : Int) = m at *
  by_cases h0 : 0 ≤ z
  · have e : z % m = z := Int.emod_eq_of_lt h0 (by omega)
    rw [e, if_pos h2]
  · have e : z % m = z + m := by
      rw [← Int.add_emod_right]
      exact Int.emod_eq_of_lt (by omega) (by omega)
    rw [e, if_neg (by omega)]
    omega

theorem pow_le8 {w : Nat} (h : w ≤ 8) : 256 ^ w ≤ 18446744073709551616 := by
  have := Nat.pow_le_pow_right (n := 256) (by decide) h
  exact this

/-- Nothing comes of a text only if it is fillers. -/
theorem decode_nothing (bs : List Nat) : ∀ (x : Nat) (st : Option Nat) (sk : Bool), decode ⟨x, st, sk⟩ bs = some [] → (∀ b ∈ bs, b < 255) → bs = [] := by
  have wait : ∀ (bs : List Nat) (x n : Nat) (sk : Bool), decode ⟨x, some (n + 1), sk⟩ bs ≠ some [] := by
    intro bs
    induction bs with
    | nil => intro x n sk h; cases h
    | cons b bs ih =>
      intro x n sk h
      cases hi : (F.mk x (some (n + 1)) sk).input b with
      | none => rw [decode_bad hi] at h; cases h
      | some g =>
        by_cases hs : g.state = some 0
        · rw [decode_item hi hs] at h
          cases hd : decode { g with state := none } bs with
          | none => rw [hd] at h; cases h
          | some l => rw [hd] at h; cases h
        · rw [decode_more hi hs] at h
          have hi' : (if 0x80 ≤ b ∧ b < 0xC0 then some (F.mk (((x <<< 6) % 18446744073709551616) ||| (b &&& 0x3F)) (some n) sk) else if sk then some (F.mk b (some 0) sk) else none) = some g := hi
          by_cases hc : 0x80 ≤ b ∧ b < 0xC0
          · rw [if_pos hc] at hi'
            injection hi' with hi'
            subst hi'
            cases n with
            | zero => exact hs rfl
            | succ n => exact ih _ n sk h
          · rw [if_neg hc] at hi'
            cases sk with
            | false => cases hi'
            | true =>
              injection hi' with hi'
              subst hi'
              exact hs rfl
  intro x st sk h hn
  cases bs with
  | nil => rfl
  | cons b bs =>
    exfalso
    cases st with
    | some n =>
      cases n with
      | zero =>
        rw [decode_bad rfl] at h
        cases h
      | succ n => exact wait _ _ _ _ h
    | none =>
      cases hi : (F.mk x none sk).input b with
      | none => rw [decode_bad hi] at h; cases h
      | some g =>
        by_cases hs : g.state = some 0
        · rw [decode_item hi hs] at h
          cases hd : decode { g with state := none } bs with
          | none => rw [hd] at h; cases h
          | some l => rw [hd] at h; cases h
        · rw [decode_more hi hs] at h
          obtain ⟨y, m, sk'⟩ := g
          have hne : m ≠ none := by
            intro hm
            subst hm
            have hi' : (if b < 0x80 then some (F.mk b (some 0) sk) else if b < 0xC0 then (if sk then some (F.mk b (some 0) sk) else none) else if b < 0xE0 then some (F.mk (b &&& 0x1F) (some 1) sk)
              else if b < 0xF0 then some (F.mk (b &&& 0x0F) (some 2) sk) else if b < 0xF8 then some (F.mk (b &&& 0x07) (some 3) sk) else if b < 0xFC then some (F.mk (b &&& 0x03) (some 4) sk)
              else if b < 0xFE then some (F.mk (b &&& 0x01) (some 5) sk) else if b < 0xFF then some (F.mk 0 (some 6) sk) else some (F.mk x none sk)) = some ⟨y, none, sk'⟩ := hi
            have hb := hn b List.mem_cons_self
            revert hi'
            repeat' split
            all_goals first | (intro h; cases h; done) | omega
          match m, hne, hs with
          | some (k + 1), _, _ => exact wait _ _ _ _ h
          | some 0, _, hs => exact hs rfl

/-- The loop for a character is the decoder of the filter. -/
theorem wide_of_decode (rest : List Nat) (c : Int) (bs : List Nat) : ∀ f : F, decode f bs = some [c] → (∀ b ∈ bs, b < 255) → wideLoop f (bs ++ rest) = .ok (c, rest) := by
  induction bs with
  | nil =>
    intro f h
    have h : (f.flush).map (fun _ => ([] : List Int)) = some [c] := h
    cases hf : f.flush with
    | none => rw [hf] at h; cases h
    | some u => rw [hf] at h; cases h
  | cons b bs ih =>
    intro f h hn
    have hn' : ∀ b ∈ bs, b < 255 := fun b h => hn b (List.mem_cons_of_mem _ h)
    cases hi : f.input b with
    | none =>
      rw [decode_bad hi] at h
      cases h
    | some g =>
      have e : wideLoop f (b :: bs ++ rest) = if g.hasItems then .ok (g.output.1, bs ++ rest) else wideLoop g (bs ++ rest) := by
        show (match f.input b with
          | none => Except.error Err.utf
          | some f => if f.hasItems then .ok (f.output.1, bs ++ rest) else wideLoop f (bs ++ rest)) = _
        rw [hi]
      rw [e]
      by_cases hg : g.hasItems = true
      · rw [if_pos hg]
        have hs : g.state = some 0 := beq_iff_eq.mp hg
        rw [decode_item hi hs] at h
        cases hd : decode { g with state := none } bs with
        | none => rw [hd] at h; cases h
        | some l =>
          rw [hd] at h
          injection h with h
          injection h with h1 h2
          subst h2
          rw [decode_nothing bs _ _ _ hd hn']
          show Except.ok (toW g.accum, _) = _
          rw [h1]
          rfl
      · rw [if_neg hg]
        have hs : g.state ≠ some 0 := fun h => hg (beq_iff_eq.mpr h)
        rw [decode_more hi hs] at h
        exact ih g h hn'

theorem encode_small (c : Int) : ∀ b ∈ encode c, b < 255 := by
  unfold encode
  rw [tail_eq, List.append_nil]
  have hc : ∀ (k n : Nat), ∀ b ∈ conts k n, b < 255 := by
    intro k
    induction k with
    | zero => intro n b h; exact (List.not_mem_nil h).elim
    | succ k ih =>
      intro n b h
      rcases List.mem_append.mp h with h | h
      · exact ih _ b h
      · have := List.mem_singleton.mp h
        omega
  intro b h
  rcases List.mem_cons.mp h with h | h
  · subst h
    generalize ofW c = n
    unfold lead
    repeat' split
    all_goals simp only [Nat.shiftRight_eq_div_pow]
    · omega
    · rw [lead_or 6 (k := 5) rfl (by omega) (by omega)]; omega
    · rw [lead_or 14 (k := 4) rfl (by omega) (by omega)]; omega
    · rw [lead_or 30 (k := 3) rfl (by omega) (by omega)]; omega
    · rw [lead_or 62 (k := 2) rfl (by omega) (by omega)]; omega
    · rw [lead_or 126 (k := 1) rfl (by omega) (by omega)]; omega
    · omega
  · exact hc _ _ b h

theorem wide_encode (c : Int) (hc : IsW c) (rest : List Nat) : wideLoop {} (encode c ++ rest) = .ok (c, rest) := by
  refine wide_of_decode rest c (encode c) {} ?_ (encode_small c)
  have := C123_roundtrip false [c] (fun d hd => by rw [List.mem_singleton.mp hd]; exact hc)
  rw [List.flatMap_cons, List.flatMap_nil, List.append_nil] at this
  exact this

/-! ## Sections and arrays -/

theorem nameLoop_append (n : Name) (h : 0 ∉ n) (bs : List Nat) : nameLoop (n ++ 0 :: bs) = .ok (n, bs) := by
  induction n with
  | nil => rfl
  | cons b n ih =>
    have hb : b ≠ 0 := fun e => h (by rw [e]; exact List.mem_cons_self)
    obtain ⟨k, rfl⟩ : ∃ k, b = k + 1 := ⟨b - 1, by omega⟩
    show (match nameLoop (n ++ 0 :: bs) with
      | .error e => Except.error e
      | .ok (n, bs) => .ok ((k + 1) :: n, bs)) = _
    rw [ih (fun h' => h (List.mem_cons_of_mem _ h'))]

theorem head_open (n : Name) (h : 0 ∉ n) (bs : List Nat) : St.head ⟨writeOpen n ++ bs, []⟩ = .ok ⟨bs, n⟩ := by
  have e : writeOpen n ++ bs = 0x55 :: (n ++ 0 :: bs) := by
    show 0x55 :: ((n ++ [0]) ++ bs) = _
    rw [List.append_assoc]; rfl
  rw [e]
  show (match nameLoop (n ++ 0 :: bs) with
    | .error e => Except.error e
    | .ok (n, bs) => .ok (⟨bs, n⟩ : St)) = _
  rw [nameLoop_append n h]

/-- The section is opened by its name. -/
theorem open_same (n : Name) (h : 0 ∉ n) (bs : List Nat) : St.openDyn (some n) ⟨writeOpen n ++ bs, []⟩ = .ok (some n, ⟨bs, []⟩) := by
  unfold St.openDyn
  rw [head_open n h]
  show (if n = n then Except.ok (some n, (⟨bs, []⟩ : St)) else _) = _
  rw [if_pos rfl]

/-- Another name is refused and the section stays. -/
theorem open_other (n m : Name) (h : 0 ∉ n) (hm : n ≠ m) (bs : List Nat) : St.openDyn (some m) ⟨writeOpen n ++ bs, []⟩ = .ok (none, ⟨bs, n⟩) := by
  unfold St.openDyn
  rw [head_open n h]
  show (if n = m then _ else Except.ok (none, (⟨bs, n⟩ : St))) = _
  rw [if_neg hm]

theorem open_known (n : Name) (hn : n ≠ []) (bs : List Nat) : St.openDyn (some n) ⟨bs, n⟩ = .ok (some n, ⟨bs, []⟩) := by
  have e : St.head ⟨bs, n⟩ = .ok ⟨bs, n⟩ := by
    unfold St.head
    rw [if_neg hn]
  unfold St.openDyn
  rw [e]
  show (if n = n then Except.ok (some n, (⟨bs, []⟩ : St)) else _) = _
  rw [if_pos rfl]

theorem arrLoop_eq {α : Type} (wr : α → List Nat) (l : List α) : arrLoop wr l.length l = l.flatMap wr := by
  induction l with
  | nil => rfl
  | cons x l ih =>
    show wr x ++ arrLoop wr l.length l = _
    rw [ih]; rfl

theorem readN_back {α : Type} (rd : St → Except Err (α × St)) (wr : α → List Nat) (l : List α) (h : ∀ x ∈ l, ∀ rest, rd ⟨wr x ++ rest, []⟩ = .ok (x, ⟨rest, []⟩)) :
    ∀ rest : List Nat, readN rd l.length ⟨l.flatMap wr ++ rest, []⟩ = .ok (l, ⟨rest, []⟩) := by
  induction l with
  | nil => intro rest; rfl
  | cons x l ih =>
    intro rest
    rw [List.flatMap_cons, List.append_assoc]
    show (match rd ⟨wr x ++ (l.flatMap wr ++ rest), []⟩ with
      | .error e => Except.error e
      | .ok (x, s) =>
        match readN rd l.length s with
        | .error e => .error e
        | .ok (l, s) => .ok (x :: l, s)) = _
    rw [h x List.mem_cons_self]
    dsimp only
    rw [ih (fun y hy => h y (List.mem_cons_of_mem _ hy))]

theorem readArr_back {α : Type} (rd : St → Except Err (α × St)) (wr : α → List Nat) (l : List α) (hl : l.length < 2 ^ 64) (h : ∀ x ∈ l, ∀ rest, rd ⟨wr x ++ rest, []⟩ = .ok (x, ⟨rest, []⟩))
    (rest : List Nat) : readArr rd ⟨0xAA :: (compress l.length ++ (l.flatMap wr ++ [0xEA])) ++ rest, []⟩ = .ok (l, ⟨rest, []⟩) := by
  have e : 0xAA :: (compress l.length ++ (l.flatMap wr ++ [0xEA])) ++ rest = 0xAA :: (compress l.length ++ (l.flatMap wr ++ 0xEA :: rest)) := by
    rw [List.cons_append, List.append_assoc, List.append_assoc]; rfl
  rw [e]
  show (match St.unsigned ⟨compress l.length ++ (l.flatMap wr ++ 0xEA :: rest), []⟩ with
    | .error e => Except.error e
    | .ok (n, s) =>
      match readN rd n s with
      | .error e => .error e
      | .ok (l, s) =>
        match s.mark 0xEA with
        | .error e => .error e
        | .ok s => .ok (l, s)) = _
  rw [unsigned_compress l.length hl]
  dsimp only
  rw [readN_back rd wr l h]
  rfl

theorem strLoop_short {α : Type} (wr : α → List Nat) (l : List α) (h : l.length ≤ 1) : strLoop wr l.length l = l.flatMap wr := by
  match l, h with
  | [], _ => rfl
  | [x], _ => rfl

theorem back_sint (w : Nat) (v : Int) (hw : w ≤ 8) (h1 : -((256 ^ w : Nat) : Int) ≤ 2 * v) (h2 : 2 * v < ((256 ^ w : Nat) : Int)) : Back (.sint w) v := by
  intro rest
  have hp := pow_le8 hw
  have := signed_compress v (by omega) (by omega) rest []
  show (match St.signed ⟨compressSigned v ++ rest, []⟩ with
    | .error e => Except.error e
    | .ok (z, s) => .ok (castS w z, s)) = _
  rw [this]
  dsimp only
  rw [castS_fits h1 h2]

theorem back_uint (w : Nat) (v : Nat) (hw : w ≤ 8) (hf : v < 256 ^ w) : Back (.uint w) v := by
  intro rest
  have hp := pow_le8 hw
  have := unsigned_compress v (by omega) rest []
  show (match St.unsigned ⟨compress v ++ rest, []⟩ with
    | .error e => Except.error e
    | .ok (z, s) => .ok (castU w z, s)) = _
  rw [this]
  dsimp only
  rw [castU, Nat.mod_eq_of_lt hf]

/-- C124 (part that holds): every value of every script without strings of two or more characters, and without a section stored under an empty name that is tried second, is loaded as it was stored, whatever
follows in the stream. -/
theorem C124_back_partial (t : Ty) : ∀ v : t.Den, Ok t → Fits t v → Calm t v → Back t v := by
  induction t with
  | unit => intro v _ _ _ rest; rfl
  | bool => intro v _ _ _ rest; cases v <;> rfl
  | byte => intro v _ _ _ rest; rfl
  | sint w =>
    intro v ho hf _ rest
    exact back_sint w v ho.2 hf.1 hf.2 rest
  | uint w =>
    intro v ho hf _ rest
    exact back_uint w v ho.2 hf rest
  | raw n =>
    intro v _ hf _ rest
    have hf : v.length = n := hf.1
    have e : St.take n ⟨v ++ rest, []⟩ = .ok (v, ⟨rest, []⟩) := by rw [← hf]; exact take_append v rest []
    exact e
  | wchar =>
    intro v _ hf _ rest
    have hf : IsW v := hf
    show (match wideLoop {} (encode v ++ rest) with
      | .error e => Except.error e
      | .ok (c, bs) => .ok (c, (⟨bs, []⟩ : St))) = _
    rw [wide_encode v hf rest]
  | pair a b iha ihb =>
    intro v ho hf hc rest
    have ea := iha v.1 ho.1 hf.1 hc.1 (write b v.2 ++ rest)
    have eb := ihb v.2 ho.2 hf.2 hc.2 rest
    show (match read a ⟨(write a v.1 ++ write b v.2) ++ rest, []⟩ with
      | .error e => Except.error e
      | .ok (x, s) =>
        match read b s with
        | .error e => .error e
        | .ok (y, s) => .ok ((x, y), s)) = _
    rw [List.append_assoc, ea]
    dsimp only
    rw [eb]
  | arr t ih =>
    intro v ho hf hc rest
    obtain ⟨hl, hf⟩ : v.length < 18446744073709551615 ∧ ∀ x ∈ v, Fits t x := hf
    have hc : ∀ x ∈ v, Calm t x := hc
    show readArr (read t) ⟨0xAA :: (compress v.length ++ (arrLoop (write t) v.length v ++ [0xEA])) ++ rest, []⟩ = _
    rw [arrLoop_eq]
    exact readArr_back (read t) (write t) v (by omega) (fun x hx => ih x ho (hf x hx) (hc x hx)) rest
  | str t ih =>
    intro v ho hf hc rest
    obtain ⟨hl, hf⟩ : v.length < 18446744073709551615 ∧ ∀ x ∈ v, Fits t x := hf
    obtain ⟨h1, hc⟩ : v.length ≤ 1 ∧ ∀ x ∈ v, Calm t x := hc
    show readArr (read t) ⟨0xAA :: (compress v.length ++ (strLoop (write t) v.length v ++ [0xEA])) ++ rest, []⟩ = _
    rw [strLoop_short _ _ h1]
    exact readArr_back (read t) (write t) v (by omega) (fun x hx => ih x ho (hf x hx) (hc x hx)) rest
  | dflt t ih =>
    intro v ho hf hc rest
    cases v with
    | none => rfl
    | some v =>
      have := ih v ho hf hc rest
      show (match read t ⟨write t v ++ rest, []⟩ with
        | .error e => Except.error e
        | .ok (v, s) => .ok (some v, s)) = _
      rw [this]
  | alt n1 t1 n2 t2 ih1 ih2 =>
    intro v ho hf hc rest
    obtain ⟨z1, z2, hne, o1, o2⟩ := ho
    cases v with
    | inl v =>
      have := ih1 v o1 hf hc (0xE5 :: rest)
      have e : write (.alt n1 t1 n2 t2) (.inl v) ++ rest = writeOpen n1 ++ (write t1 v ++ 0xE5 :: rest) := by
        show (writeOpen n1 ++ (write t1 v ++ [0xE5])) ++ rest = _
        rw [List.append_assoc, List.append_assoc]; rfl
      rw [e]
      show (match St.openDyn (some n1) ⟨writeOpen n1 ++ (write t1 v ++ 0xE5 :: rest), []⟩ with
        | .error e => Except.error e
        | .ok (some _, s) => readSect Sum.inl (read t1) s
        | .ok (none, s) =>
          match s.openDyn (some n2) with
          | .error e => .error e
          | .ok (some _, s) => readSect Sum.inr (read t2) s
          | .ok (none, _) => .error Err.section) = _
      rw [open_same n1 z1]
      dsimp only
      unfold readSect
      rw [this]
      rfl
    | inr v =>
      obtain ⟨hn2, hc⟩ : n2 ≠ [] ∧ Calm t2 v := hc
      have := ih2 v o2 hf hc (0xE5 :: rest)
      have e : write (.alt n1 t1 n2 t2) (.inr v) ++ rest = writeOpen n2 ++ (write t2 v ++ 0xE5 :: rest) := by
        show (writeOpen n2 ++ (write t2 v ++ [0xE5])) ++ rest = _
        rw [List.append_assoc, List.append_assoc]; rfl
      rw [e]
      show (match St.openDyn (some n1) ⟨writeOpen n2 ++ (write t2 v ++ 0xE5 :: rest), []⟩ with
        | .error e => Except.error e
        | .ok (some _, s) => readSect Sum.inl (read t1) s
        | .ok (none, s) =>
          match s.openDyn (some n2) with
          | .error e => .error e
          | .ok (some _, s) => readSect Sum.inr (read t2) s
          | .ok (none, _) => .error Err.section) = _
      rw [open_other n2 n1 z2 (fun h => hne h.symm)]
      dsimp only
      rw [open_known n2 hn2]
      dsimp only
      unfold readSect
      rw [this]
      rfl

/-- A script with most things in it. -/
def script : Ty := .pair (.arr (.pair (.sint 4) .wchar)) (.pair (.dflt .bool) (.alt [65] (.uint 2) [66] (.pair (.raw 2) (.str .byte))))

def scriptVal : script.Den := ([(-70000, 0x20AC), (5, -1)], some true, Sum.inr ([1, 2], [120]))

example : Ok script ∧ Fits script scriptVal ∧ Calm script scriptVal := by
  refine ⟨?_, ?_, ?_⟩
  · exact ⟨⟨⟨by decide, by decide⟩, trivial⟩, trivial, by decide, by decide, by decide, ⟨by decide, by decide⟩, trivial, trivial⟩
  · refine ⟨⟨by decide, ?_⟩, trivial, ⟨rfl, by decide⟩, by decide, ?_⟩
    · intro x hx
      rcases List.mem_cons.mp hx with rfl | hx
      · exact ⟨⟨by decide, by decide⟩, ⟨by decide, by decide⟩⟩
      · rw [List.mem_singleton.mp hx]
        exact ⟨⟨by decide, by decide⟩, ⟨by decide, by decide⟩⟩
    · intro x hx
      rw [List.mem_singleton.mp hx]
      show 120 < 256
      decide
  · refine ⟨?_, trivial, by decide, trivial, by decide, fun x _ => trivial⟩
    intro x _
    exact ⟨trivial, trivial⟩

example : write script scriptVal = [0xAA, 2, 66, 2, 191, 0xE2, 0x82, 0xAC, 10, 0xFE, 0xBF, 0xBF, 0xBF, 0xBF, 0xBF, 0xBF, 0xEA, 1, 1, 0x55, 66, 0, 1, 2, 0xAA, 1, 120, 0xEA, 0xE5] := by decide +kernel

/-! ## Where it fails -/

theorem readN_byte_length (n : Nat) : ∀ (s s' : St) (l : List Nat), readN St.byte n s = .ok (l, s') → s'.bytes.length + n = s.bytes.length := by
  induction n with
  | zero =>
    intro s s' l h
    injection h with h
    injection h with _ h
    rw [h]; rfl
  | succ n ih =>
    intro s s' l h
    obtain ⟨bs, d⟩ := s
    cases bs with
    | nil => cases h
    | cons b bs =>
      simp only [readN, St.byte] at h
      cases hr : readN St.byte n ⟨bs, d⟩ with
      | error e => rw [hr] at h; cases h
      | ok p =>
        rw [hr] at h
        injection h with h
        injection h with _ h
        have := ih ⟨bs, d⟩ p.2 p.1 hr
        subst h
        show _ = (b :: bs).length
        rw [List.length_cons]
        have this : p.2.bytes.length + n = bs.length := this
        omega

/-- Strings of two or more characters are never loaded as they were stored: only the first half of the characters is written. -/
theorem C124_string_violated (v : List Nat) (h2 : 2 ≤ v.length) (hl : v.length < 18446744073709551615) : ¬ Back (.str .byte) v := by
  intro h
  have h := h []
  rw [List.append_nil] at h
  have half : ∀ (l : List Nat) (n : Nat), (strLoop (write .byte) n l).length ≤ (n + 1) / 2 := by
    intro l
    induction l with
    | nil => intro n; exact Nat.zero_le _
    | cons x xs ih =>
      intro n
      cases n with
      | zero => exact Nat.zero_le _
      | succ n =>
        show ([x] ++ strLoop (write .byte) (n - 1) xs).length ≤ _
        rw [List.length_append]
        have := ih (n - 1)
        show 1 + _ ≤ _
        omega
  have hh := half v v.length
  have h : readArr St.byte ⟨0xAA :: (compress v.length ++ (strLoop (write .byte) v.length v ++ [0xEA])), []⟩ = .ok (v, ⟨[], []⟩) := h
  generalize strLoop (write .byte) v.length v = w at h hh
  simp only [readArr, St.mark, St.byte, ne_eq, not_true_eq_false, if_false] at h
  rw [unsigned_compress v.length (by omega)] at h
  dsimp only at h
  cases hr : readN St.byte v.length ⟨w ++ [0xEA], []⟩ with
  | error e => rw [hr] at h; cases h
  | ok p =>
    have := readN_byte_length v.length _ p.2 p.1 hr
    have : p.2.bytes.length + v.length = (w ++ [0xEA]).length := this
    rw [List.length_append] at this
    have h1 : ([0xEA] : List Nat).length = 1 := rfl
    have hb : p.2.bytes = [] := List.length_eq_zero_iff.mp (by omega)
    rw [hr] at h
    obtain ⟨l, s⟩ := p
    obtain ⟨bs, d⟩ := s
    have hb : bs = [] := hb
    subst hb
    cases h

example : write (.str .byte) [97, 98, 99] = [0xAA, 3, 97, 98, 0xEA] := by decide
example : read (.str .byte) ⟨[0xAA, 3, 97, 98, 0xEA], []⟩ = .error .eof := rfl

/-- C124 is false: "ab" comes back as an exception. -/
theorem C124_violated : ¬ Claim124 := fun h =>
  C124_string_violated [97, 98] (by decide) (by decide) (h (.str .byte) [97, 98] trivial ⟨by decide, by
    intro x hx
    rcases List.mem_cons.mp hx with rfl | hx
    · show 97 < 256
      decide
    · rw [List.mem_singleton.mp hx]
      show 98 < 256
      decide⟩)

/-- A section without a name, tried after another name: the head was read, and is read again. -/
theorem C124_null_violated : ∃ (t : Ty) (v : t.Den), Ok t ∧ Fits t v ∧ read t ⟨write t v, []⟩ = .error .sync :=
  ⟨.alt [65] .unit [] .unit, .inr (), ⟨by decide, by decide, by decide, trivial, trivial⟩, trivial, rfl⟩

/-- Asking for the name (`openDynSection(NULL)`) gives it and does not open the section. -/
theorem C124_peek (n : Name) (h : 0 ∉ n) (hn : n ≠ []) (bs : List Nat) :
    St.openDyn none ⟨writeOpen n ++ bs, []⟩ = .ok (some n, ⟨bs, n⟩) ∧ St.openDyn none ⟨bs, n⟩ = .ok (some n, ⟨bs, n⟩) ∧ St.openDyn (some n) ⟨bs, n⟩ = .ok (some n, ⟨bs, []⟩) := by
  refine ⟨?_, ?_, open_known n hn bs⟩
  · unfold St.openDyn
    rw [head_open n h]
    show (if n = [] then _ else Except.ok (some n, (⟨bs, n⟩ : St))) = _
    rw [if_neg hn]
  · have e : St.head ⟨bs, n⟩ = .ok ⟨bs, n⟩ := by
      unfold St.head
      rw [if_neg hn]
    unfold St.openDyn
    rw [e]
    show (if n = [] then _ else Except.ok (some n, (⟨bs, n⟩ : St))) = _
    rw [if_neg hn]

example : St.openDyn none ⟨writeOpen [65, 66] ++ [7], []⟩ = .ok (some [65, 66], ⟨[7], [65, 66]⟩) := rfl

/-! ## Streams cut off and other streams -/

/-- More bytes behind. -/
def St.more (s : St) (x : List Nat) : St := ⟨s.bytes ++ x, s.dyn⟩

/-- What succeeded does so with more bytes behind. -/
def Ext {α : Type} (rd : St → Except Err (α × St)) : Prop := ∀ (s s' : St) (v : α), rd s = .ok (v, s') → ∀ x, rd (s.more x) = .ok (v, s'.more x)

/-- The same of functions without a value. -/
def Ext0 (rd : St → Except Err St) : Prop := ∀ s s' : St, rd s = .ok s' → ∀ x, rd (s.more x) = .ok (s'.more x)

theorem ext_byte : Ext St.byte := by
  rintro ⟨bs, d⟩ s' v h x
  cases bs with
  | nil => cases h
  | cons b bs =>
    injection h with h
    injection h with h1 h2
    subst h1 h2
    rfl

/-- One step after another. -/
theorem ext_bind {α β : Type} {f : St → Except Err (β × St)} (rd : St → Except Err (α × St)) (k : α → St → Except Err (β × St)) (h : Ext rd) (hk : ∀ a, Ext (k a))
    (h1 : ∀ s e, rd s = .error e → f s = .error e) (h2 : ∀ s a s', rd s = .ok (a, s') → f s = k a s') : Ext f := by
  intro s s' v hv x
  cases hr : rd s with
  | error e => rw [h1 s e hr] at hv; cases hv
  | ok p =>
    obtain ⟨a, s1⟩ := p
    rw [h2 s a s1 hr] at hv
    rw [h2 _ a _ (h s s1 a hr x)]
    exact hk a s1 s' v hv x

theorem ext_bind0 {β : Type} {f : St → Except Err (β × St)} (rd : St → Except Err St) (k : St → Except Err (β × St)) (h : Ext0 rd) (hk : Ext k)
    (h1 : ∀ s e, rd s = .error e → f s = .error e) (h2 : ∀ s s', rd s = .ok s' → f s = k s') : Ext f := by
  intro s s' v hv x
  cases hr : rd s with
  | error e => rw [h1 s e hr] at hv; cases hv
  | ok s1 =>
    rw [h2 s s1 hr] at hv
    rw [h2 _ _ (h s s1 hr x)]
    exact hk s1 s' v hv x

/-- The two equations of `ext_bind`. -/
macro "steps" d:ident : tactic => `(tactic| (intros; (first | simp only [$d:ident, *] | simp only [*]); try (repeat' split) <;> simp_all))

theorem ext_pure {α : Type} (a : α) : Ext (fun s => .ok (a, s)) := by
  intro s s' v h x
  injection h with h
  injection h with h1 h2
  subst h1 h2
  rfl

theorem ext_error {α : Type} (e : Err) : Ext (fun _ => (.error e : Except Err (α × St))) := by
  intro s s' v h
  cases h

theorem ext_map {α β : Type} {f : St → Except Err (β × St)} (rd : St → Except Err (α × St)) (g : α → β) (h : Ext rd)
    (h1 : ∀ s e, rd s = .error e → f s = .error e) (h2 : ∀ s a s', rd s = .ok (a, s') → f s = .ok (g a, s')) : Ext f :=
  ext_bind rd (fun a s => .ok (g a, s)) h (fun a => ext_pure (g a)) h1 h2

theorem ext_take : ∀ n, Ext (St.take n)
  | 0 => ext_pure []
  | n + 1 => ext_bind St.byte (fun b s => match St.take n s with
      | .error e => .error e
      | .ok (l, s) => .ok (b :: l, s)) ext_byte (fun b => ext_map (St.take n) (b :: ·) (ext_take n) (by steps St.take) (by steps St.take)) (by steps St.take) (by steps St.take)

theorem ext_number : Ext St.number :=
  ext_bind St.byte (fun b s => match St.take (numberLength b - 1) s with
      | .error e => .error e
      | .ok (l, s) => .ok (b :: l, s)) ext_byte (fun b => ext_map (St.take (numberLength b - 1)) (b :: ·) (ext_take _) (by steps St.number) (by steps St.number)) (by steps St.number) (by steps St.number)

theorem ext_unsigned : Ext St.unsigned := by
  refine ext_bind St.number (fun l s => match decompress l with
    | some (n, _) => .ok (n, s)
    | none => .error .eof) ext_number (fun l => ?_) (by steps St.unsigned) (by steps St.unsigned)
  cases decompress l with
  | none => exact ext_error _
  | some p => exact ext_pure p.1

theorem ext_signed : Ext St.signed := by
  refine ext_bind St.number (fun l s => match decompressSigned l with
    | some (n, _) => .ok (n, s)
    | none => .error .eof) ext_number (fun l => ?_) (by steps St.signed) (by steps St.signed)
  cases decompressSigned l with
  | none => exact ext_error _
  | some p => exact ext_pure p.1

theorem ext_mark (m : Nat) : Ext0 (St.mark m) := by
  intro s s' h x
  unfold St.mark at h ⊢
  cases hb : s.byte with
  | error e => rw [hb] at h; cases h
  | ok p =>
    rw [hb] at h
    rw [ext_byte s p.2 p.1 hb x]
    dsimp only at h ⊢
    by_cases hm : p.1 ≠ m
    · rw [if_pos hm] at h; cases h
    · rw [if_neg hm] at h ⊢
      injection h with h
      rw [h]

theorem ext_bool : Ext St.bool := by
  refine ext_bind St.byte (fun b s => if b = 0 then .ok (false, s) else if b = 1 then .ok (true, s) else .error .sync) ext_byte (fun b => ?_) (by steps St.bool) (by steps St.bool)
  by_cases h0 : b = 0
  · simp only [h0, if_true]
    exact ext_pure false
  · by_cases h1 : b = 1
    · subst h1
      exact ext_pure true
    · simp only [h0, h1, if_false]
      exact ext_error _

theorem ext_readN {α : Type} (rd : St → Except Err (α × St)) (h : Ext rd) : ∀ n, Ext (readN rd n)
  | 0 => ext_pure []
  | n + 1 => ext_bind rd (fun x s => match readN rd n s with
      | .error e => .error e
      | .ok (l, s) => .ok (x :: l, s)) h (fun a => ext_map (readN rd n) (a :: ·) (ext_readN rd h n) (by steps readN) (by steps readN)) (by steps readN) (by steps readN)

theorem ext_close {α β : Type} (m : Nat) (f : α → β) (rd : St → Except Err (α × St)) (h : Ext rd) : Ext (fun s => match rd s with
    | .error e => .error e
    | .ok (v, s) =>
      match s.mark m with
      | .error e => .error e
      | .ok s => .ok (f v, s)) := by
  refine ext_bind rd (fun v s => match s.mark m with
      | .error e => .error e
      | .ok s => .ok (f v, s)) h (fun v => ?_) (by steps readArr) (by steps readArr)
  exact ext_bind0 (St.mark m) (fun s => .ok (f v, s)) (ext_mark _) (ext_pure (f v)) (by steps readArr) (by steps readArr)

theorem ext_readArr {α : Type} (rd : St → Except Err (α × St)) (h : Ext rd) : Ext (readArr rd) := by
  refine ext_bind0 (St.mark 0xAA) (fun s => match s.unsigned with
    | .error e => .error e
    | .ok (n, s) =>
      match readN rd n s with
      | .error e => .error e
      | .ok (l, s) =>
        match s.mark 0xEA with
        | .error e => .error e
        | .ok s => .ok (l, s)) (ext_mark _) ?_ (by steps readArr) (by steps readArr)
  refine ext_bind St.unsigned (fun n s => match readN rd n s with
      | .error e => .error e
      | .ok (l, s) =>
        match s.mark 0xEA with
        | .error e => .error e
        | .ok s => .ok (l, s)) ext_unsigned (fun n => ?_) (by steps readArr) (by steps readArr)
  refine ext_bind (readN rd n) (fun l s => match s.mark 0xEA with
      | .error e => .error e
      | .ok s => .ok (l, s)) (ext_readN rd h n) (fun l => ?_) (by steps readArr) (by steps readArr)
  exact ext_bind0 (St.mark 0xEA) (fun s => .ok (l, s)) (ext_mark _) (ext_pure l) (by steps readArr) (by steps readArr)

theorem ext_sect {α β : Type} (f : α → β) (rd : St → Except Err (α × St)) (h : Ext rd) : Ext (readSect f rd) := ext_close 0xE5 f rd h

theorem wide_more (x : List Nat) (c : Int) (l : List Nat) (bs : List Nat) : ∀ f : F, wideLoop f bs = .ok (c, l) → wideLoop f (bs ++ x) = .ok (c, l ++ x) := by
  induction bs with
  | nil => intro f h; cases h
  | cons b bs ih =>
    intro f h
    have e : ∀ l, wideLoop f (b :: l) = (match f.input b with
      | none => .error .utf
      | some f => if f.hasItems then .ok (f.output.1, l) else wideLoop f l) := fun _ => rfl
    rw [List.cons_append, e]
    rw [e] at h
    cases hi : f.input b with
    | none => rw [hi] at h; cases h
    | some g =>
      rw [hi] at h
      dsimp only at h ⊢
      by_cases hg : g.hasItems = true
      · rw [if_pos hg] at h ⊢
        injection h with h
        injection h with h1 h2
        rw [h1, h2]
      · rw [if_neg hg] at h ⊢
        exact ih g h

theorem name_more (x : List Nat) (bs : List Nat) : ∀ (n l : List Nat), nameLoop bs = .ok (n, l) → nameLoop (bs ++ x) = .ok (n, l ++ x) := by
  induction bs with
  | nil => intro n l h; cases h
  | cons b bs ih =>
    intro n l h
    cases b with
    | zero =>
      injection h with h
      injection h with h1 h2
      subst h1 h2
      rfl
    | succ b =>
      have e : ∀ l, nameLoop ((b + 1) :: l) = (match nameLoop l with
        | .error e => .error e
        | .ok (n, bs) => .ok ((b + 1) :: n, bs)) := fun _ => rfl
      rw [List.cons_append, e]
      rw [e] at h
      cases hr : nameLoop bs with
      | error e => rw [hr] at h; cases h
      | ok p =>
        rw [hr] at h
        rw [ih p.1 p.2 hr]
        injection h with h
        injection h with h1 h2
        subst h1 h2
        rfl

theorem ext_head : Ext0 St.head := by
  intro s s' h x
  unfold St.head at h ⊢
  by_cases hd : s.dyn = []
  · have hd' : (s.more x).dyn = [] := hd
    rw [if_pos hd] at h
    rw [if_pos hd']
    cases hb : s.byte with
    | error e => rw [hb] at h; cases h
    | ok p =>
      rw [hb] at h
      rw [ext_byte s p.2 p.1 hb x]
      dsimp only at h ⊢
      by_cases hm : p.1 ≠ 0x55
      · rw [if_pos hm] at h; cases h
      · rw [if_neg hm] at h ⊢
        cases hn : nameLoop p.2.bytes with
        | error e => rw [hn] at h; cases h
        | ok q =>
          rw [hn] at h
          have : nameLoop (p.2.more x).bytes = .ok (q.1, q.2 ++ x) := name_more x p.2.bytes q.1 q.2 hn
          rw [this]
          injection h with h
          subst h
          rfl
  · have hd' : ¬ (s.more x).dyn = [] := hd
    rw [if_neg hd] at h
    rw [if_neg hd']
    injection h with h
    rw [h]

theorem ext_openDyn (n : Name) : Ext (St.openDyn (some n)) := by
  refine ext_bind0 St.head (fun s => if s.dyn = n then .ok (some n, { s with dyn := [] }) else .ok (none, s)) ext_head ?_ (by steps St.openDyn) (by steps St.openDyn)
  intro s s' v h x
  dsimp only at h ⊢
  by_cases hd : s.dyn = n
  · have hd' : (s.more x).dyn = n := hd
    rw [if_pos hd] at h
    rw [if_pos hd']
    injection h with h
    injection h with h1 h2
    subst h1 h2
    rfl
  · have hd' : ¬ (s.more x).dyn = n := hd
    rw [if_neg hd] at h
    rw [if_neg hd']
    injection h with h
    injection h with h1 h2
    subst h1 h2
    rfl

theorem ext_read (t : Ty) : Ext (read t) := by
  induction t with
  | unit => exact ext_pure ()
  | bool => exact ext_bool
  | byte => exact ext_byte
  | sint w => exact ext_map St.signed (castS w) ext_signed (by steps read) (by steps read)
  | uint w => exact ext_map St.unsigned (castU w) ext_unsigned (by steps read) (by steps read)
  | raw n => exact ext_take n
  | wchar =>
    intro s s' v h x
    have e : ∀ s : St, read .wchar s = (match wideLoop {} s.bytes with
      | .error e => .error e
      | .ok (c, bs) => .ok (c, { s with bytes := bs })) := fun _ => rfl
    rw [e] at h ⊢
    cases hw : wideLoop {} s.bytes with
    | error e => rw [hw] at h; cases h
    | ok p =>
      rw [hw] at h
      have : wideLoop {} (s.more x).bytes = .ok (p.1, p.2 ++ x) := wide_more x p.1 p.2 s.bytes {} hw
      rw [this]
      injection h with h
      injection h with h1 h2
      subst h1 h2
      rfl
  | pair a b iha ihb =>
    exact ext_bind (read a) (fun x s => match read b s with
      | .error e => .error e
      | .ok (y, s) => .ok ((x, y), s)) iha (fun x => ext_map (read b) (fun y => (x, y)) ihb (by steps read) (by steps read)) (by steps read) (by steps read)
  | arr t ih => exact ext_readArr (read t) ih
  | str t ih => exact ext_readArr (read t) ih
  | dflt t ih =>
    intro s s' v h x
    have e : ∀ s : St, read (.dflt t) s = (match s.bool with
      | .error e => .error e
      | .ok (false, s) => .ok (none, s)
      | .ok (true, s) =>
        match read t s with
        | .error e => .error e
        | .ok (v, s) => .ok (some v, s)) := fun _ => rfl
    rw [e] at h ⊢
    cases hb : s.bool with
    | error e => rw [hb] at h; cases h
    | ok p =>
      obtain ⟨b, s1⟩ := p
      rw [hb] at h
      rw [ext_bool s s1 b hb x]
      cases b with
      | false =>
        injection h with h
        injection h with h1 h2
        subst h1 h2
        rfl
      | true =>
        exact ext_map (f := fun s => match read t s with
          | .error e => .error e
          | .ok (v, s) => .ok (some v, s)) (read t) some ih (by steps read) (by steps read) s1 s' v h x
  | alt n1 t1 n2 t2 ih1 ih2 =>
    intro s s' v h x
    have e : ∀ s : St, read (.alt n1 t1 n2 t2) s = (match s.openDyn (some n1) with
      | .error e => .error e
      | .ok (some _, s) => readSect Sum.inl (read t1) s
      | .ok (none, s) =>
        match s.openDyn (some n2) with
        | .error e => .error e
        | .ok (some _, s) => readSect Sum.inr (read t2) s
        | .ok (none, _) => .error .section) := fun _ => rfl
    rw [e] at h ⊢
    cases ho : s.openDyn (some n1) with
    | error e => rw [ho] at h; cases h
    | ok p =>
      obtain ⟨o, s1⟩ := p
      rw [ho] at h
      rw [ext_openDyn n1 s s1 o ho x]
      cases o with
      | some m => exact ext_sect Sum.inl (read t1) ih1 s1 s' v h x
      | none =>
        dsimp only at h ⊢
        cases ho2 : s1.openDyn (some n2) with
        | error e => rw [ho2] at h; cases h
        | ok p =>
          obtain ⟨o, s2⟩ := p
          rw [ho2] at h
          rw [ext_openDyn n2 s1 s2 o ho2 x]
          cases o with
          | some m => exact ext_sect Sum.inr (read t2) ih2 s2 s' v h x
          | none => cases h

/-- C124: a stream cut off anywhere is not loaded as anything: the reader throws. -/
theorem C124_truncated_partial (t : Ty) (v : t.Den) (ho : Ok t) (hf : Fits t v) (hc : Calm t v) (p x : List Nat) (hp : p ++ x = write t v) (hx : x ≠ []) : ∃ e, read t ⟨p, []⟩ = .error e := by
  cases hr : read t ⟨p, []⟩ with
  | error e => exact ⟨e, rfl⟩
  | ok q =>
    exfalso
    have h1 := ext_read t ⟨p, []⟩ q.2 q.1 hr x
    have h2 := C124_back_partial t v ho hf hc []
    rw [List.append_nil, ← hp] at h2
    have h1 : read t ⟨p ++ x, []⟩ = .ok (q.1, q.2.more x) := h1
    rw [h1] at h2
    injection h2 with h2
    injection h2 with _ h2
    have h3 : q.2.bytes ++ x = [] := congrArg St.bytes h2
    exact hx (List.append_eq_nil_iff.mp h3).2

/-- C124: wrong marks are noticed. -/
theorem C124_sync (b : Nat) (bs : List Nat) (d : Name) :
    (b ≠ 0 → b ≠ 1 → read .bool ⟨b :: bs, d⟩ = .error .sync ∧ ∀ t, read (.dflt t) ⟨b :: bs, d⟩ = .error .sync) ∧
    (b ≠ 0xAA → ∀ t, read (.arr t) ⟨b :: bs, d⟩ = .error .sync ∧ read (.str t) ⟨b :: bs, d⟩ = .error .sync) ∧
    (b ≠ 0x55 → ∀ n1 t1 n2 t2, read (.alt n1 t1 n2 t2) ⟨b :: bs, []⟩ = .error .sync) := by
  have hb : b ≠ 0 → b ≠ 1 → St.bool ⟨b :: bs, d⟩ = .error .sync := by
    intro h0 h1
    show (if b = 0 then _ else if b = 1 then _ else _) = _
    rw [if_neg h0, if_neg h1]
  have hm : ∀ m, b ≠ m → St.mark m ⟨b :: bs, d⟩ = .error .sync := by
    intro m h
    show (if b ≠ m then _ else _) = _
    rw [if_pos h]
  refine ⟨fun h0 h1 => ⟨hb h0 h1, fun t => ?_⟩, fun h t => ?_, fun h n1 t1 n2 t2 => ?_⟩
  · unfold read
    rw [hb h0 h1]
  · have : ∀ {α : Type} (rd : St → Except Err (α × St)), readArr rd ⟨b :: bs, d⟩ = .error .sync := by
      intro α rd
      unfold readArr
      rw [hm _ h]
    exact ⟨this _, this _⟩
  · have : St.openDyn (some n1) ⟨b :: bs, []⟩ = .error .sync := by
      have e : St.head ⟨b :: bs, []⟩ = .error .sync := by
        show (if b ≠ 0x55 then _ else _) = _
        rw [if_pos h]
      unfold St.openDyn
      rw [e]
    unfold read
    rw [this]

example : read (.arr .byte) ⟨[0xAA, 2, 7, 8], []⟩ = .error .eof ∧ read (.arr .byte) ⟨[0xAA, 1, 7, 8], []⟩ = .error .sync := ⟨rfl, rfl⟩

end LS.BinFormat

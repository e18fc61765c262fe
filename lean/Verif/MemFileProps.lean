import Verif.MemFile
/-
C108: a file in memory.
-/
namespace LS.MemFile

/-! ## Specification: a file is a length and a byte at every place -/

structure File where
  len : Nat
  byte : Nat → Byte
  pos : Nat

/-- Bytes from `off`, at most `n` and at most to the end. -/
def File.get (f : File) (n off : Nat) : List Byte := (List.range (min n (f.len - off))).map fun i => f.byte (off + i)

/-- Bytes put at `off`; the file grows when needed, bytes in the gap are unspecified. -/
def File.put (f : File) (d : List Nat) (off : Nat) : File :=
  { f with len := max f.len (off + d.length), byte := fun i => if off ≤ i ∧ i < off + d.length then d[i - off]? else if i < f.len then f.byte i else none }

def File.step (app : Bool) (f : File) : Op → Out × File
  | .read n => (.data (f.get n f.pos), { f with pos := f.pos + min n (f.len - f.pos) })
  | .peek n => (.data (f.get n f.pos), f)
  | .readAt n off => (.data (f.get n off), f)
  | .write d => (.num d.length, { f.put d (if app then f.len else f.pos) with pos := f.pos + d.length })
  | .writeAt d off => (.num d.length, f.put d off)
  | .setSize n => (.unit, { f with len := n, byte := fun i => if i < f.len ∧ i < n then f.byte i else none })
  | .size => (.num f.len, f)
  | .setPos p => (.unit, { f with pos := p })
  | .canRead => (.flag (decide (f.pos < f.len)), f)
  | .clear => (.unit, { f with len := 0, byte := fun _ => none, pos := 0 })

/-- Does the end of the place the call works with fit a number of 64 bits? -/
def Small (app : Bool) (f : File) : Op → Prop
  | .read n => f.pos + n < 2 ^ 64
  | .peek n => f.pos + n < 2 ^ 64
  | .readAt n off => off + n < 2 ^ 64
  | .write d => f.pos + d.length < 2 ^ 64 ∧ (app = true → f.len + d.length < 2 ^ 64)
  | .writeAt d off => off + d.length < 2 ^ 64
  | _ => True

def File.run (app : Bool) (f : File) : List Op → List Out
  | [] => []
  | o :: os => (f.step app o).1 :: File.run app (f.step app o).2 os

def SmallAll (app : Bool) (f : File) : List Op → Prop
  | [] => True
  | o :: os => Small app f o ∧ SmallAll app (f.step app o).2 os

/-! ## Proof -/

/-- The buffer holds the file. -/
structure Rel (s : Mem) (f : File) : Prop where
  len : f.len = s.buf.length
  byte : ∀ i, i < s.buf.length → s.buf[i]? = some (f.byte i)
  pos : f.pos = s.pos

theorem add_eq {a b : Nat} (h : a + b < 2 ^ 64) : add a b = a + b := if_pos h
theorem sub_eq {a b : Nat} (h : b ≤ a) : sub a b = a - b := if_pos h

theorem load_eq {s : Mem} {f : File} (r : Rel s f) {n off : Nat} (h : off < s.buf.length) :
    load s.buf off (min n (s.buf.length - off)) = some (f.get n off) := by
  unfold load
  rw [if_pos (by omega)]
  congr 1
  apply List.ext_getElem?
  intro i
  unfold File.get
  rw [r.len, List.getElem?_map]
  by_cases hi : i < min n (s.buf.length - off)
  · rw [List.getElem?_take_of_lt hi, List.getElem?_drop, r.byte _ (by omega), List.getElem?_range hi]
    rfl
  · rw [List.getElem?_eq_none (by simp; omega), List.getElem?_eq_none (by simp; omega)]
    rfl

theorem readAt_eq {s : Mem} {f : File} (r : Rel s f) {n off : Nat} (h : off + n < 2 ^ 64) : readAt s n off = some (f.get n off) := by
  unfold readAt
  simp only
  split
  · rename_i h1
    unfold File.get
    rw [r.len, show s.buf.length - off = 0 from by omega]
    simp
  · rename_i h1
    rw [add_eq h]
    split
    · rename_i h2
      rw [sub_eq (by omega), show s.buf.length - off = min n (s.buf.length - off) from by omega]
      rw [load_eq r (by omega)]
    · rename_i h2
      rw [sub_eq (by omega), show off + n - off = min n (s.buf.length - off) from by omega]
      rw [load_eq r (by omega)]

theorem read_eq {s : Mem} {f : File} (r : Rel s f) {n : Nat} (h : s.pos + n < 2 ^ 64) :
    read s n = some (f.get n s.pos, { s with pos := s.pos + min n (s.buf.length - s.pos) }) := by
  unfold read
  simp only
  split
  · rename_i h1
    unfold File.get
    rw [r.len, show s.buf.length - s.pos = 0 from by omega]
    simp
  · rename_i h1
    rw [add_eq h]
    have key : sub (if s.pos + n ≥ s.buf.length then s.buf.length else s.pos + n) s.pos = min n (s.buf.length - s.pos) := by
      split
      · rw [sub_eq (by omega)]; omega
      · rw [sub_eq (by omega)]; omega
    rw [key, load_eq r (by omega), add_eq (by omega)]
    rfl

theorem over_len : ∀ (b : List Byte) (d : List Nat), d.length ≤ b.length → (over b d).length = b.length
  | b, [], _ => by cases b <;> rfl
  | [], x :: d, h => absurd h (by simp)
  | y :: b, x :: d, h => by
    rw [over, List.length_cons, List.length_cons, over_len b d (by simpa using h)]

theorem over_get : ∀ (b : List Byte) (d : List Nat) (i : Nat), d.length ≤ b.length →
    (over b d)[i]? = if i < d.length then some d[i]? else b[i]?
  | b, [], i, _ => by cases b <;> simp [over]
  | [], x :: d, _, h => absurd h (by simp)
  | y :: b, x :: d, 0, h => by simp [over]
  | y :: b, x :: d, i + 1, h => by
    rw [over, List.getElem?_cons_succ, over_get b d i (by simpa using h)]
    simp

theorem resize_len (b : List Byte) (n : Nat) : (resize b n).length = n := by
  unfold resize
  simp
  omega

theorem resize_get (b : List Byte) (n i : Nat) (h : i < n) : (resize b n)[i]? = if i < b.length then b[i]? else some none := by
  unfold resize
  by_cases h1 : i < b.length
  · rw [List.getElem?_append_left (by simp; omega), List.getElem?_take_of_lt h, if_pos h1]
  · rw [List.getElem?_append_right (by simp; omega), if_neg h1, List.getElem?_replicate_of_lt (by simp; omega)]

theorem put_eq {s : Mem} {f : File} (r : Rel s f) {d : List Nat} {off : Nat} (h : off + d.length < 2 ^ 64) :
    ∃ b, store (if add off d.length ≥ s.buf.length then resize s.buf (add off d.length) else s.buf) off d = some b ∧
      ∀ p a ro, Rel ⟨b, p, a, ro⟩ { f.put d off with pos := p } := by
  rw [add_eq h]
  generalize hc : (if off + d.length ≥ s.buf.length then resize s.buf (off + d.length) else s.buf) = c
  have hl : c.length = max s.buf.length (off + d.length) := by
    rw [← hc]
    split
    · rw [resize_len]; omega
    · omega
  have hg : ∀ i, i < c.length → c[i]? = if i < s.buf.length then some (f.byte i) else some none := by
    intro i hi
    rw [hl] at hi
    rw [← hc]
    split
    · rw [resize_get _ _ _ (by omega)]
      split
      · exact r.byte i (by assumption)
      · rfl
    · rw [if_pos (by omega)]
      exact r.byte i (by omega)
  refine ⟨c.take off ++ over (c.drop off) d, ?_, ?_⟩
  · unfold store
    rw [if_pos (by omega)]
  · intro p a ro
    have ht : (c.take off).length = off := by rw [List.length_take]; omega
    have ho : (over (c.drop off) d).length = c.length - off := by
      rw [over_len _ _ (by rw [List.length_drop]; omega), List.length_drop]
    refine ⟨?_, ?_, rfl⟩
    · show max f.len (off + d.length) = (c.take off ++ over (c.drop off) d).length
      rw [List.length_append, ht, ho, hl, r.len]
      omega
    · intro i hi
      have hi' : i < c.length := by
        have : (c.take off ++ over (c.drop off) d).length = c.length := by
          rw [List.length_append, ht, ho]; omega
        rw [← this]; exact hi
      show (c.take off ++ over (c.drop off) d)[i]? = some (if off ≤ i ∧ i < off + d.length then d[i - off]? else if i < f.len then f.byte i else none)
      rw [r.len]
      by_cases h1 : i < off
      · rw [List.getElem?_append_left (by omega), List.getElem?_take_of_lt h1, hg i hi', if_neg (fun q : off ≤ i ∧ i < off + d.length => absurd q.1 (by omega))]
        split <;> rfl
      · rw [List.getElem?_append_right (by omega), ht, over_get _ _ _ (by rw [List.length_drop]; omega)]
        by_cases h2 : i - off < d.length
        · rw [if_pos h2, if_pos (by omega)]
        · rw [if_neg h2, if_neg (fun q : off ≤ i ∧ i < off + d.length => h2 (by omega)), List.getElem?_drop, show off + (i - off) = i from by omega, hg i hi']
          split <;> rfl

theorem exec_eq {app : Bool} {s : Mem} {f : File} (r : Rel s f) (ha : s.append = some app) {o : Op} (h : Small app f o) :
    ∃ s', exec s o = some ((f.step app o).1, s') ∧ Rel s' (f.step app o).2 ∧ s'.append = some app := by
  cases o with
  | read n =>
    have h : f.pos + n < 2 ^ 64 := h
    rw [r.pos] at h
    refine ⟨{ s with pos := s.pos + min n (s.buf.length - s.pos) }, ?_, ?_, ha⟩
    · show (read s n).map _ = _
      rw [read_eq r h]
      show some (Out.data (f.get n s.pos), _) = some (Out.data (f.get n f.pos), _)
      rw [r.pos]
    · refine ⟨r.len, r.byte, ?_⟩
      show f.pos + min n (f.len - f.pos) = s.pos + min n (s.buf.length - s.pos)
      rw [r.pos, r.len]
  | peek n =>
    have h : f.pos + n < 2 ^ 64 := h
    rw [r.pos] at h
    refine ⟨s, ?_, r, ha⟩
    show (readAt s n s.pos).map _ = _
    rw [readAt_eq r h]
    show some (Out.data (f.get n s.pos), _) = some (Out.data (f.get n f.pos), _)
    rw [r.pos]
  | readAt n off =>
    refine ⟨s, ?_, r, ha⟩
    show (readAt s n off).map _ = _
    rw [readAt_eq r h]
    rfl
  | write d =>
    obtain ⟨h1, h2⟩ := (h : f.pos + d.length < 2 ^ 64 ∧ (app = true → f.len + d.length < 2 ^ 64))
    have hw : (if app then s.buf.length else s.pos) + d.length < 2 ^ 64 := by
      cases app with
      | true => have := h2 rfl; rw [r.len] at this; exact this
      | false => rw [r.pos] at h1; exact h1
    obtain ⟨b, e, q⟩ := put_eq r hw
    refine ⟨⟨b, s.pos + d.length, s.append, s.readOnly⟩, ?_, ?_, ha⟩
    · show (write s d).map _ = _
      unfold write
      rw [ha]
      simp only
      rw [e, add_eq (by rw [← r.pos]; exact h1)]
      rfl
    · have := q (s.pos + d.length) s.append s.readOnly
      show Rel _ { f.put d (if app then f.len else f.pos) with pos := f.pos + d.length }
      rw [r.pos, r.len]
      exact this
  | writeAt d off =>
    obtain ⟨b, e, q⟩ := put_eq r (h : off + d.length < 2 ^ 64)
    refine ⟨⟨b, s.pos, s.append, s.readOnly⟩, ?_, ?_, ha⟩
    · show (writeAt s d off).map _ = _
      unfold writeAt
      simp only
      rw [e]
      rfl
    · have := q s.pos s.append s.readOnly
      rw [← r.pos] at this ⊢
      exact this
  | setSize n =>
    refine ⟨setSize s n, rfl, ⟨(resize_len _ _).symm, ?_, r.pos⟩, ha⟩
    intro i hi
    have hi : i < n := by
      have e : (resize s.buf n).length = n := resize_len _ _
      rw [← e]; exact hi
    show (resize s.buf n)[i]? = some (if i < f.len ∧ i < n then f.byte i else none)
    rw [resize_get _ _ _ hi, r.len]
    by_cases h1 : i < s.buf.length
    · rw [if_pos h1, if_pos ⟨h1, hi⟩, r.byte i h1]
    · rw [if_neg h1, if_neg (fun q => h1 q.1)]
  | size =>
    refine ⟨s, ?_, r, ha⟩
    show some (Out.num s.buf.length, s) = some (Out.num f.len, s)
    rw [r.len]
  | setPos p => exact ⟨{ s with pos := p }, rfl, ⟨r.len, r.byte, rfl⟩, ha⟩
  | canRead =>
    refine ⟨s, ?_, r, ha⟩
    show some (Out.flag (decide (s.pos < s.buf.length)), s) = some (Out.flag (decide (f.pos < f.len)), s)
    rw [r.len, r.pos]
  | clear =>
    refine ⟨{ s with buf := [], pos := 0 }, rfl, ⟨rfl, ?_, rfl⟩, ha⟩
    intro i hi
    exact absurd hi (by simp)

theorem execAll_eq {app : Bool} : ∀ (os : List Op) (s : Mem) (f : File), Rel s f → s.append = some app → SmallAll app f os →
    (execAll s os).map (·.1) = some (f.run app os)
  | [], _, _, _, _, _ => rfl
  | o :: os, s, f, r, ha, h => by
    obtain ⟨s', e, r', ha'⟩ := exec_eq r ha h.1
    have ih := execAll_eq os s' _ r' ha' h.2
    rw [execAll, e]
    show Option.map (·.1) ((execAll s' os).map fun q => ((f.step app o).1 :: q.1, q.2)) = _
    cases e2 : execAll s' os with
    | none => rw [e2] at ih; cases ih
    | some q =>
      rw [e2] at ih
      simp only [Option.map_some, Option.some.injEq] at ih
      simp only [Option.map_some, ih]
      rfl

/-- The empty file. -/
def File.empty : File := ⟨0, fun _ => none, 0⟩

/-- C108 — any calls on a new file return what they return on a file given by its length and its
bytes; no access is outside of the buffer.  Partial: after `setAppendMode`; places end below 2^64;
in the append mode the position moves by the number of bytes written (see `C108_append_violated`). -/
theorem C108_file_partial (app : Bool) (os : List Op) (h : SmallAll app File.empty os) :
    (execAll { append := some app } os).map (·.1) = some (File.empty.run app os) :=
  execAll_eq os _ _ ⟨rfl, fun i hi => absurd hi (by simp), rfl⟩ rfl h

/-- What was written is read back, whatever was in the file. -/
theorem C108_back (f : File) (d : List Nat) (off : Nat) : (f.put d off).get d.length off = d.map some := by
  unfold File.get
  apply List.ext_getElem?
  intro i
  rw [List.getElem?_map, List.getElem?_map]
  by_cases hi : i < d.length
  · rw [List.getElem?_range (by show i < min d.length (max f.len (off + d.length) - off); omega)]
    show some (if off ≤ off + i ∧ off + i < off + d.length then d[off + i - off]? else _) = _
    rw [if_pos (by omega), show off + i - off = i from by omega, List.getElem?_eq_getElem hi]
    rfl
  · rw [List.getElem?_eq_none (by rw [List.length_range]; omega), List.getElem?_eq_none (by omega)]
    rfl

/-- Concrete case: writing behind the end, going back and reading over the gap. -/
example : (execAll { append := some false } [.write [1, 2], .writeAt [7] 3, .setPos 1, .read 9, .size]).map (·.1) =
    some [.num 2, .num 1, .unit, .data [some 2, none, some 7], .num 4] := by decide +kernel

/-- C108 — violated (memfile.h:37): the first write to a new file reads a member without value. -/
theorem C108_new_violated : write {} [1] = none := rfl

/-- C108 — violated (memfile.tcc:25-29): "read all" from a place inside of the file copies memory
outside of it. -/
theorem C108_read_all_violated : ∀ s : Mem, 0 < s.pos → s.pos < s.buf.length → s.buf.length < 2 ^ 63 → read s (2 ^ 64 - 1) = none := by
  intro s h0 h1 h2
  have e : add s.pos (2 ^ 64 - 1) = s.pos - 1 := by unfold add; rw [if_neg (by omega)]; omega
  unfold read
  simp only
  rw [if_neg (by omega), e, if_neg (by omega)]
  have e2 : sub (s.pos - 1) s.pos = 2 ^ 64 - 1 := by unfold sub; rw [if_neg (by omega)]; omega
  rw [e2]
  unfold load
  rw [if_neg (by omega)]
  rfl

/-- C108 — violated (memfile.tcc:45): after a write in the append mode the position is neither
that of before, nor the end of what was written. -/
theorem C108_append_violated :
    ∃ s s' : Mem, s.append = some true ∧ write s [9] = some (1, s') ∧ s'.buf = s.buf ++ [some 9] ∧ s'.pos ≠ s.pos ∧ s'.pos ≠ s'.buf.length :=
  ⟨⟨[some 1, some 2], 0, some true, false⟩, ⟨[some 1, some 2, some 9], 1, some true, false⟩, rfl, rfl, rfl, by decide, by decide⟩

/-- C108 — violated (memfile.tcc:36): `closeOutput` does not stop writes. -/
theorem C108_close_violated : ∃ s : Mem, canWrite (closeOutput s) = false ∧ ∃ s', write (closeOutput s) [1] = some (1, s') ∧ s'.buf = [some 1] :=
  ⟨{ append := some false }, rfl, _, rfl, rfl⟩

/-- C108 — constant text: reads are those of the file that holds the text.  Partial: position not
behind the end. -/
theorem C108_text_partial (s : Str) (n : Nat) (hp : s.pos ≤ s.text.length) (hl : s.text.length < 2 ^ 64) :
    s.read n = some ((s.text.drop s.pos).take n, { s with pos := s.pos + min n (s.text.length - s.pos) }) ∧
    s.peek n = some ((s.text.drop s.pos).take n) := by
  have e1 : sub s.text.length s.pos = s.text.length - s.pos := sub_eq hp
  have e2 : (if s.text.length - s.pos < n then s.text.length - s.pos else n) = min n (s.text.length - s.pos) := by
    split <;> omega
  have e3 : load s.text s.pos (min n (s.text.length - s.pos)) = some ((s.text.drop s.pos).take n) := by
    unfold load
    rw [if_pos (by omega)]
    congr 1
    rw [show s.text.length - s.pos = (s.text.drop s.pos).length from by simp]
    by_cases h : n ≤ (s.text.drop s.pos).length
    · rw [Nat.min_eq_left h]
    · rw [Nat.min_eq_right (by omega), List.take_length, List.take_of_length_le (by omega)]
  constructor
  · unfold Str.read
    simp only
    rw [e1, e2, e3, add_eq (by omega)]
    rfl
  · unfold Str.peek
    simp only
    rw [e1, e2, e3]

/-- C108 — the same at any offset, without condition. -/
theorem C108_text_at (s : Str) (n off : Nat) : s.readAt n off = some ((s.text.drop off).take n) := by
  unfold Str.readAt
  split
  · rw [List.drop_eq_nil_of_le (by omega)]; simp
  · rename_i h
    simp only
    rw [sub_eq (by omega)]
    have e2 : (if s.text.length - off < n then s.text.length - off else n) = min n (s.text.length - off) := by
      split <;> omega
    rw [e2]
    unfold load
    rw [if_pos (by omega)]
    congr 1
    rw [show s.text.length - off = (s.text.drop off).length from by simp]
    by_cases h : n ≤ (s.text.drop off).length
    · rw [Nat.min_eq_left h]
    · rw [Nat.min_eq_right (by omega), List.take_length, List.take_of_length_le (by omega)]

/-- C108 — violated (memfile.cpp:18): with the position behind the end, reading goes outside. -/
theorem C108_text_violated : Str.read ⟨[some 1], 2⟩ 1 = none := by decide +kernel

end LS.MemFile

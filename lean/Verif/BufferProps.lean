import Verif.Buffer
/-!
# C27, C28: buffered output and input (`base/containers/buffer.h`)
-/

namespace LS.Buffer

variable {α : Type}

/-! ## Cells -/

theorem rd_ok {b : List α} {i : Nat} (h : i < b.length) : rd b i = .ok b[i] := by
  simp [rd, h]

theorem wr_ok {b : List α} {i : Nat} {v : α} (h : i < b.length) : wr b i v = .ok (b.set i v) := by
  simp [wr, h]

/-- The copying loop moves `n` items down. -/
theorem compact_ok (n : Nat) : ∀ (b : List α) (x r : Nat), x ≤ r → r + n ≤ b.length →
    ∃ b', compact b x r n = .ok b' ∧ b'.length = b.length ∧
      b'.take (x + n) = b.take x ++ (b.drop r).take n := by
  induction n with
  | zero => intro b x r _ _; exact ⟨b, rfl, rfl, by simp⟩
  | succ n ih =>
    intro b x r hx hr
    have h1 : r < b.length := by omega
    obtain ⟨b', e, hl, ht⟩ := ih (b.set x b[r]) (x + 1) (r + 1) (by omega) (by simp; omega)
    refine ⟨b', ?_, by simpa using hl, ?_⟩
    · show (rd b r >>= fun v => wr b x v >>= fun b => compact b (x + 1) (r + 1) n) = _
      rw [rd_ok h1]
      show (wr b x b[r] >>= fun b => compact b (x + 1) (r + 1) n) = _
      rw [wr_ok (by omega)]
      exact e
    · have e1 : (b.set x b[r]).take (x + 1) = b.take x ++ [b[r]] := by
        rw [List.take_add_one, List.take_set, List.set_eq_of_length_le (by simp; omega)]
        simp [show x < b.length by omega]
      have e2 : (b.set x b[r]).drop (r + 1) = b.drop (r + 1) := by
        rw [List.drop_set_of_lt (by omega)]
      rw [show x + (n + 1) = x + 1 + n by omega, ht, e1, e2, List.append_assoc]
      congr 1
      rw [List.drop_eq_getElem_cons h1, List.take_succ_cons]; rfl

/-! ## C27 -/

/-- What waits in the buffer. -/
def WBuf.pending (s : WBuf α) : List α := (s.buff.take s.wrpos).drop s.rdpos

/-- The calls of the user. While `flush` runs the device may take any part of each block (`script`;
even nothing at all for a while); in the other calls it takes whole blocks. -/
inductive WOp (α : Type) where
  | write (v : α)
  | unwrite
  | flush (script : List Nat)

/-- A call; `unwrite` may be refused, the buffer stays as it was. -/
def WBuf.op (s : WBuf α) : WOp α → Except Err (WBuf α)
  | .write v => s.write v
  | .unwrite =>
    match s.unwrite with
    | .ok (_, s) => .ok s
    | .error .thrown => .ok s
    | .error .ub => .error .ub
  | .flush script => do
    let s ← WBuf.flush { s with dev := { s.dev with script := script } }
    return { s with dev := { s.dev with script := [] } }

def WBuf.ops (s : WBuf α) : List (WOp α) → Except Err (WBuf α)
  | [] => .ok s
  | o :: os => do
    let s ← s.op o
    s.ops os

/-- State of the specification: how much may still be taken back is up to the buffer, so the
specification says which sequences are admissible results. `sent` reached the device, `left` is still
on the way. -/
inductive Admissible : List (WOp α) → List α → List α → Prop where
  | nil : Admissible [] [] []
  | write {os sent left} (v : α) : Admissible os sent left → Admissible (os ++ [.write v]) sent (left ++ [v])
  | spill {os a b} : Admissible os a b → Admissible os (a ++ b) []
  | unwrite {os sent left} (v : α) : Admissible os sent (left ++ [v]) → Admissible (os ++ [.unwrite]) sent left
  | refused {os sent} : Admissible os sent [] → Admissible (os ++ [.unwrite]) sent []
  | flush {os a b} (script : List Nat) : Admissible os a b → Admissible (os ++ [.flush script]) (a ++ b) []

structure WInv (s : WBuf α) : Prop where
  pos : 0 < s.buff.length
  rd : s.rdpos ≤ s.wrpos
  wr : s.wrpos ≤ s.buff.length

theorem WBuf.pending_nil {s : WBuf α} (h : s.wrpos ≤ s.rdpos) : s.pending = [] := by
  simp [WBuf.pending]; omega

theorem WBuf.pending_length {s : WBuf α} (hi : WInv s) : s.pending.length = s.wrpos - s.rdpos := by
  have := hi.wr
  simp [WBuf.pending]; omega

/-- Whatever part the device takes, nothing is lost when the rest stays in place. -/
theorem fastflush_stay {s : WBuf α} (hi : WInv s) :
    ∃ s', s.fastflush true = .ok s' ∧ WInv s' ∧ s'.buff = s.buff ∧
      s'.dev.out ++ s'.pending = s.dev.out ++ s.pending ∧
      (s'.pending = [] ∨ s'.dev.script.length < s.dev.script.length) ∧
      s'.dev.script.length ≤ s.dev.script.length := by
  have h1 := hi.rd
  have h2 := hi.wr
  have hlen := WBuf.pending_length hi
  by_cases he : s.wrpos ≤ s.rdpos
  · refine ⟨{ s with rdpos := 0, wrpos := 0 }, by simp [WBuf.fastflush, WBuf.isEmpty, he],
      ⟨hi.pos, Nat.le_refl _, Nat.zero_le _⟩, rfl, ?_, Or.inl (by simp [WBuf.pending]), Nat.le_refl _⟩
    rw [WBuf.pending_nil he]; simp [WBuf.pending]
  · have e : s.fastflush true = (if s.rdpos + (s.dev.blockWrite s.pending).1 = s.wrpos
        then .ok { s with dev := (s.dev.blockWrite s.pending).2, rdpos := 0, wrpos := 0 }
        else .ok { s with dev := (s.dev.blockWrite s.pending).2, rdpos := s.rdpos + (s.dev.blockWrite s.pending).1 }) := by
      unfold WBuf.fastflush
      rw [if_neg (by simp [WBuf.isEmpty]; omega)]; rfl
    rw [e]
    have hb : (s.dev.blockWrite s.pending).1 ≤ s.wrpos - s.rdpos ∧
        (s.dev.blockWrite s.pending).2.out = s.dev.out ++ s.pending.take (s.dev.blockWrite s.pending).1 ∧
        ((s.dev.blockWrite s.pending).1 = s.wrpos - s.rdpos ∨
          (s.dev.blockWrite s.pending).2.script.length < s.dev.script.length) ∧
        (s.dev.blockWrite s.pending).2.script.length ≤ s.dev.script.length := by
      unfold OutDev.blockWrite
      cases hs : s.dev.script with
      | nil => simp [hlen, hs]; rw [← hlen]; simp
      | cons k t =>
        simp only [List.length_cons]
        refine ⟨by simp; omega, ?_, Or.inr (by omega), by omega⟩
        simp [List.take_take, List.take_eq_take_iff]
    obtain ⟨b1, b2, b3, b4⟩ := hb
    generalize (s.dev.blockWrite s.pending).1 = w at *
    generalize (s.dev.blockWrite s.pending).2 = d at *
    by_cases hw : s.rdpos + w = s.wrpos
    · rw [if_pos hw]
      refine ⟨_, rfl, ⟨hi.pos, Nat.le_refl _, Nat.zero_le _⟩, rfl, ?_, Or.inl (by simp [WBuf.pending]), b4⟩
      show d.out ++ (List.take 0 s.buff).drop 0 = _
      rw [b2, List.take_of_length_le (by omega)]; simp
    · rw [if_neg hw]
      refine ⟨_, rfl, ⟨hi.pos, by show s.rdpos + w ≤ s.wrpos; omega, h2⟩, rfl, ?_,
        Or.inr (by show d.script.length < _; omega), b4⟩
      show d.out ++ (s.buff.take s.wrpos).drop (s.rdpos + w) = _
      rw [b2, List.append_assoc]
      congr 1
      rw [← List.drop_drop]
      exact List.take_append_drop w s.pending

theorem flushLoop_ok (n : Nat) : ∀ {s : WBuf α}, WInv s → s.dev.script.length + 2 ≤ n →
    ∃ s', s.flushLoop n = .ok s' ∧ WInv s' ∧ s'.buff = s.buff ∧ s'.pending = [] ∧ s'.isEmpty = true ∧
      s'.dev.out = s.dev.out ++ s.pending := by
  induction n with
  | zero => intro s _ h; omega
  | succ n ih =>
    intro s hi hn
    have e : s.flushLoop (n + 1) =
      (if s.isEmpty then .ok s else s.fastflush true >>= fun s => s.flushLoop n) := rfl
    rw [e]
    by_cases he : s.isEmpty = true
    · have he' : s.wrpos ≤ s.rdpos := by simpa [WBuf.isEmpty] using he
      rw [if_pos he]
      exact ⟨s, rfl, hi, rfl, WBuf.pending_nil he', he, by rw [WBuf.pending_nil he']; simp⟩
    · rw [if_neg he]
      obtain ⟨s1, e1, i1, hb, hp, hq, hr⟩ := fastflush_stay hi
      rw [e1]
      show ∃ s', s1.flushLoop n = .ok s' ∧ _
      have key : (∃ s', s1.flushLoop n = .ok s' ∧ WInv s' ∧ s'.buff = s1.buff ∧ s'.pending = [] ∧
          s'.isEmpty = true ∧ s'.dev.out = s1.dev.out ++ s1.pending) := by
        rcases hq with hq | hq
        · have hz : s1.wrpos ≤ s1.rdpos := by
            have := WBuf.pending_length i1
            rw [hq] at this; simp at this; omega
          have he1 : s1.isEmpty = true := by simpa [WBuf.isEmpty] using hz
          refine ⟨s1, ?_, i1, rfl, hq, he1, by rw [hq]; simp⟩
          cases n with
          | zero => omega
          | succ n =>
            have e : s1.flushLoop (n + 1) =
              (if s1.isEmpty then .ok s1 else s1.fastflush true >>= fun s => s.flushLoop n) := rfl
            rw [e, if_pos he1]
        · exact ih i1 (by omega)
      obtain ⟨s2, e2, i2, hb2, hp2, he2, ho2⟩ := key
      exact ⟨s2, e2, i2, by rw [hb2, hb], hp2, he2, by rw [ho2, hp]⟩

theorem flush_ok {s : WBuf α} (hi : WInv s) :
    ∃ s', s.flush = .ok s' ∧ WInv s' ∧ s'.pending = [] ∧ s'.rdpos = 0 ∧ s'.wrpos = 0 ∧
      s'.dev.out = s.dev.out ++ s.pending := by
  obtain ⟨s1, e1, i1, _, _, he, ho⟩ := flushLoop_ok (s.dev.script.length + 2) hi (Nat.le_refl _)
  refine ⟨{ s1 with rdpos := 0, wrpos := 0 }, ?_, ⟨i1.pos, Nat.le_refl _, Nat.zero_le _⟩,
    by simp [WBuf.pending], rfl, rfl, ho⟩
  show (s.flushLoop (s.dev.script.length + 2) >>= fun s => s.fastflush false) = _
  rw [e1]
  show s1.fastflush false = _
  simp [WBuf.fastflush, he]

theorem write_ok {s : WBuf α} (hi : WInv s) (h0 : s.rdpos = 0) (hs : s.dev.script = []) (v : α) :
    ∃ s', s.write v = .ok s' ∧ WInv s' ∧ s'.rdpos = 0 ∧ s'.dev.script = [] ∧
      ((s'.dev.out = s.dev.out ∧ s'.pending = s.pending ++ [v]) ∨
       (s'.dev.out = s.dev.out ++ s.pending ∧ s'.pending = [v])) := by
  have h2 := hi.wr
  have hp := hi.pos
  by_cases hf : s.isFull = true
  · have hf' : s.wrpos = s.buff.length := by
      have : s.buff.length ≤ s.wrpos := by simpa [WBuf.isFull] using hf
      omega
    have hne : s.isEmpty = false := by simp [WBuf.isEmpty]; omega
    have e1 : s.fastflush false = .ok { s with dev := { s.dev with out := s.dev.out ++ s.pending }, rdpos := 0, wrpos := 0 } := by
      have hl := WBuf.pending_length hi
      have e2 : s.dev.blockWrite s.pending = (s.pending.length, { s.dev with out := s.dev.out ++ s.pending }) := by
        unfold OutDev.blockWrite; rw [hs]; simp [hs]
      have h3 : s.rdpos + s.pending.length = s.wrpos := by have := hi.rd; omega
      unfold WBuf.fastflush
      rw [hne]
      show (if s.rdpos + (s.dev.blockWrite s.pending).1 = s.wrpos then _ else _) = _
      rw [if_pos (by rw [e2]; exact h3)]
      show Except.ok { s with dev := (s.dev.blockWrite s.pending).2, rdpos := 0, wrpos := 0 } = _
      rw [e2]
    refine ⟨{ buff := s.buff.set 0 v, dev := { s.dev with out := s.dev.out ++ s.pending }, rdpos := 0, wrpos := 1 }, ?_,
      ⟨by simpa using hp, by simp, by simp; omega⟩, rfl, hs, Or.inr ⟨rfl, ?_⟩⟩
    · have er : s.room = s.fastflush false := by unfold WBuf.room; rw [if_pos hf]
      show (s.room >>= fun s => wr s.buff s.wrpos v >>= fun b =>
        .ok { s with buff := b, wrpos := s.wrpos + 1 }) = _
      rw [er, e1]
      show (wr s.buff 0 v >>= fun b => _) = _
      rw [wr_ok hp]; rfl
    · show ((s.buff.set 0 v).take 1).drop 0 = _
      cases hb : s.buff with
      | nil => simp [hb] at hp
      | cons a l => simp
  · have hlt : s.wrpos < s.buff.length := by simpa [WBuf.isFull] using hf
    refine ⟨{ s with buff := s.buff.set s.wrpos v, wrpos := s.wrpos + 1 }, ?_,
      ⟨by simpa using hp, by show s.rdpos ≤ s.wrpos + 1; omega, by simp; omega⟩, h0, hs, Or.inl ⟨rfl, ?_⟩⟩
    · have er : s.room = .ok s := by unfold WBuf.room; rw [if_neg hf]
      show (s.room >>= fun s => wr s.buff s.wrpos v >>= fun b =>
        .ok { s with buff := b, wrpos := s.wrpos + 1 }) = _
      rw [er]
      show (wr s.buff s.wrpos v >>= fun b => _) = _
      rw [wr_ok hlt]; rfl
    · simp only [WBuf.pending, h0, List.drop_zero]
      rw [List.take_add_one]
      simp [hlt, List.take_set]
      rw [List.set_eq_of_length_le (by simp; omega)]

theorem unwrite_ok {s : WBuf α} (hi : WInv s) :
    (s.pending = [] ∧ s.unwrite = .error .thrown) ∨
    ∃ v s', s.unwrite = .ok (v, s') ∧ WInv s' ∧ s'.rdpos = s.rdpos ∧ s'.dev = s.dev ∧
      s.pending = s'.pending ++ [v] := by
  have h1 := hi.rd
  have h2 := hi.wr
  by_cases h : s.wrpos > s.rdpos
  · refine Or.inr ⟨s.buff[s.wrpos - 1], { s with wrpos := s.wrpos - 1 }, ?_,
      ⟨hi.pos, by show s.rdpos ≤ s.wrpos - 1; omega, by show s.wrpos - 1 ≤ s.buff.length; omega⟩, rfl, rfl, ?_⟩
    · unfold WBuf.unwrite
      rw [if_pos h, rd_ok (by omega)]; rfl
    · simp only [WBuf.pending]
      have e : s.buff.take s.wrpos = s.buff.take (s.wrpos - 1) ++ [s.buff[s.wrpos - 1]] := by
        have : s.wrpos = s.wrpos - 1 + 1 := by omega
        conv => lhs; rw [this]
        rw [List.take_add_one]
        simp [show s.wrpos - 1 < s.buff.length by omega]
      rw [e, List.drop_append_of_le_length (by simp; omega)]
  · exact Or.inl ⟨WBuf.pending_nil (by omega), by unfold WBuf.unwrite; rw [if_neg h]⟩

theorem admissible_of {s : WBuf α} (hi : WInv s) (h0 : s.rdpos = 0) (hs : s.dev.script = [])
    {pre : List (WOp α)} (ha : Admissible pre s.dev.out s.pending) (os : List (WOp α)) :
    ∃ s', s.ops os = .ok s' ∧ WInv s' ∧ s'.rdpos = 0 ∧ s'.dev.script = [] ∧
      Admissible (pre ++ os) s'.dev.out s'.pending := by
  induction os generalizing s pre with
  | nil => exact ⟨s, rfl, hi, h0, hs, by simpa using ha⟩
  | cons o os ih =>
    have key : ∃ s1, s.op o = .ok s1 ∧ WInv s1 ∧ s1.rdpos = 0 ∧ s1.dev.script = [] ∧
        Admissible (pre ++ [o]) s1.dev.out s1.pending := by
      cases o with
      | write v =>
        obtain ⟨s1, e, i1, z, hs1, hh⟩ := write_ok hi h0 hs v
        refine ⟨s1, e, i1, z, hs1, ?_⟩
        rcases hh with ⟨ho, hp⟩ | ⟨ho, hp⟩
        · rw [ho, hp]; exact .write v ha
        · rw [ho, hp]; exact .write v (.spill ha)
      | unwrite =>
        rcases unwrite_ok hi with ⟨hn, e⟩ | ⟨v, s1, e, i1, z, hd, hp⟩
        · refine ⟨s, by unfold WBuf.op; simp only [e], hi, h0, hs, ?_⟩
          rw [hn] at ha ⊢; exact .refused ha
        · refine ⟨s1, by unfold WBuf.op; simp only [e], i1, by rw [z, h0], by rw [hd, hs], ?_⟩
          rw [hp] at ha; rw [hd]; exact .unwrite v ha
      | flush script =>
        obtain ⟨s1, e, i1, hp, z, zw, ho⟩ :=
          flush_ok (s := { s with dev := { s.dev with script := script } }) ⟨hi.pos, hi.rd, hi.wr⟩
        refine ⟨{ s1 with dev := { s1.dev with script := [] } }, ?_, ⟨i1.pos, i1.rd, i1.wr⟩, z, rfl, ?_⟩
        · show (WBuf.flush _ >>= fun s => _) = _
          rw [e]; rfl
        · show Admissible _ s1.dev.out s1.pending
          rw [hp, ho]; exact .flush script ha
    obtain ⟨s1, e1, i1, z1, hs1, ha1⟩ := key
    obtain ⟨s2, e2, i2, z2, hs2, ha2⟩ := ih i1 z1 hs1 ha1
    refine ⟨s2, ?_, i2, z2, hs2, by simpa using ha2⟩
    show (s.op o >>= fun s => s.ops os) = _
    rw [e1]; exact e2

/-- What was written and not taken back: a list machine without any buffer. -/
def unbuffered : List α → List (WOp α) → List α
  | l, [] => l
  | l, .write v :: os => unbuffered (l ++ [v]) os
  | l, .flush _ :: os => unbuffered l os
  | l, .unwrite :: os => unbuffered l os

theorem unbuffered_append (l : List α) (os ps : List (WOp α)) :
    unbuffered l (os ++ ps) = unbuffered (unbuffered l os) ps := by
  induction os generalizing l with
  | nil => rfl
  | cons o os ih => cases o <;> exact ih _

/-- With no `unwrite` the admissible result is unique: everything written, in order. -/
theorem Admissible.total {os : List (WOp α)} {a b : List α} (h : Admissible os a b)
    (hu : ∀ o ∈ os, o ≠ .unwrite) : a ++ b = unbuffered [] os := by
  induction h with
  | nil => rfl
  | write v _ ih =>
    rw [unbuffered_append, ← ih (fun o ho => hu o (by simp [ho]))]; simp [unbuffered]
  | spill _ ih => simpa using ih hu
  | unwrite v _ _ => exact absurd rfl (hu .unwrite (by simp))
  | refused _ _ => exact absurd rfl (hu .unwrite (by simp))
  | flush sc _ ih =>
    rw [unbuffered_append, ← ih (fun o ho => hu o (by simp [ho]))]; simp [unbuffered]

/-- C27. Missing: a device which takes only a part of a block during `write` loses data
(`c27_violated`). Any sequence of calls on a new buffer works without undefined behaviour, the device has got the
items exactly once and in order, with the rest waiting in the buffer; during `flush` the device may
take any part of each block. -/
theorem c27_partial (b : List α) (hb : 0 < b.length) (os : List (WOp α)) :
    ∃ s', WBuf.ops { buff := b } os = .ok s' ∧ Admissible os s'.dev.out s'.pending ∧
      ((∀ o ∈ os, o ≠ .unwrite) → s'.dev.out ++ s'.pending = unbuffered [] os) := by
  obtain ⟨s', e, i, _, _, h⟩ := admissible_of (s := { buff := b }) (pre := [])
    ⟨hb, Nat.le_refl _, Nat.zero_le _⟩ rfl rfl (by simp [WBuf.pending]; exact .nil) os
  exact ⟨s', e, by simpa using h, fun hu => Admissible.total (by simpa using h) hu⟩

/-- C27: after `flush` nothing remains buffered, however the device splits the blocks. -/
theorem c27_flush (s : WBuf α) (h1 : s.rdpos ≤ s.wrpos) (h2 : s.wrpos ≤ s.buff.length)
    (hb : 0 < s.buff.length) :
    ∃ s', s.flush = .ok s' ∧ s'.pending = [] ∧ s'.isEmpty = true ∧
      s'.dev.out = s.dev.out ++ s.pending := by
  obtain ⟨s', e, _, hp, z, zw, ho⟩ := flush_ok (s := s) ⟨hb, h1, h2⟩
  exact ⟨s', e, hp, by simp [WBuf.isEmpty, zw], ho⟩

/-- C27: an item taken back by `unwrite` is the last one written. -/
theorem c27_unwrite (s s' : WBuf α) (v : α) (h0 : s.rdpos = 0) (h2 : s.wrpos ≤ s.buff.length)
    (hb : 0 < s.buff.length) (hs : s.dev.script = []) (e : s.write v = .ok s') :
    ∃ t, s'.unwrite = .ok (v, t) := by
  obtain ⟨s1, e1, i1, z, _, hh⟩ := write_ok (s := s) ⟨hb, by omega, h2⟩ h0 hs v
  obtain rfl : s1 = s' := by rw [e] at e1; cases e1; rfl
  rcases unwrite_ok i1 with ⟨hn, _⟩ | ⟨w, t, e, _, _, _, hp⟩
  · rcases hh with ⟨_, hp⟩ | ⟨_, hp⟩ <;> rw [hn] at hp <;> simp at hp
  · have : w = v := by
      rcases hh with ⟨_, hq⟩ | ⟨_, hq⟩
      · rw [hq] at hp
        have := List.append_inj_right' hp rfl
        simpa using this.symm
      · rw [hq] at hp
        have := List.append_inj_right' (s₁ := []) hp rfl
        simpa using this.symm
    exact ⟨t, by rw [e, this]⟩

/-- C27 is violated: the device takes one item of the first block; two items of the rest are lost and
a third one is overwritten. -/
theorem c27_violated :
    ((do
      let s ← WBuf.write { buff := [0, 0, 0, 0], dev := { script := [1] } } 1
      let s ← s.write 2
      let s ← s.write 3
      let s ← s.write 4
      let s ← s.write 5
      s.flush : Except Err (WBuf Nat)).toOption.map fun s => (s.dev.out, s.isEmpty)) = some ([1, 2, 5], true) := by
  decide

example : ((WBuf.ops { buff := [0, 0, 0] } [.write 1, .write 2, .write 3, .write 4, .write 5,
    .unwrite, .flush [0, 1, 0], .write 6] : Except Err (WBuf Nat)).toOption.map
      fun s => (s.dev.out, s.pending)) = some ([1, 2, 3, 4], [6]) := by decide

/-! ## C28 -/

/-- The items to come: those in the buffer and those of the device. -/
def RBuf.stream (s : RBuf α) : List α := (s.buff.take s.wrpos).drop s.rdpos ++ s.dev.src

structure RInv (s : RBuf α) : Prop where
  pos : 0 < s.buff.length
  rd : s.rdpos ≤ s.wrpos
  wr : s.wrpos ≤ s.buff.length
  fin : s.noItems = true → s.dev.src = []

/-- A call of `blockRead`. -/
theorem blockRead_ok (d : InDev α) (n : Nat) (hn : 0 < n) :
    (d.src = [] ∧ d.endThrows = true ∧ d.blockRead n = none) ∨
    ∃ l d', d.blockRead n = some (l, d') ∧ l ++ d'.src = d.src ∧ l.length ≤ n ∧
      d'.endThrows = d.endThrows ∧ (l = [] → d.src = []) ∧ (d.src = [] → d.endThrows = false) := by
  unfold InDev.blockRead
  cases hs : d.src with
  | nil =>
    cases he : d.endThrows with
    | true => exact Or.inl ⟨rfl, rfl, by simp⟩
    | false => exact Or.inr ⟨[], d, by simp, by simp [hs], by simp, he, fun _ => rfl, fun _ => rfl⟩
  | cons a t =>
    refine Or.inr ?_
    cases hc : d.script with
    | nil =>
      refine ⟨(a :: t).take n, { d with src := (a :: t).drop n }, by simp [hs, hc], by simp, by simp; omega, rfl, ?_, by simp⟩
      cases n with
      | zero => omega
      | succ n => simp
    | cons k s =>
      refine ⟨(a :: t).take (min (k + 1) n), { d with src := (a :: t).drop (min (k + 1) n), script := s }, by simp, by simp, by simp; omega, rfl, ?_, by simp⟩
      cases n with
      | zero => omega
      | succ n => simp [Nat.succ_min_succ]

/-- The part of `load` which asks the device. -/
theorem loadTail_ok {s : RBuf α} (hi : RInv s) (hw : s.wrpos < s.buff.length) :
    ∃ f s', s.loadTail = (f, s') ∧ RInv s' ∧ s'.stream = s.stream ∧ s'.rdpos = s.rdpos ∧
      s'.buff.take s.rdpos = s.buff.take s.rdpos ∧ s'.buff.length = s.buff.length ∧
      s'.dev.endThrows = s.dev.endThrows ∧
      (f = true → s.stream = [] ∧ s' = s) ∧
      (f = false → s.dev.endThrows = true ∨ s.stream ≠ [] → s'.rdpos < s'.wrpos) ∧
      (s'.isEmpty = true → s.stream = []) := by
  have h1 := hi.rd
  have h2 := hi.wr
  rcases blockRead_ok s.dev (s.buff.length - s.wrpos) (by omega) with ⟨hn, ht, e⟩ | ⟨l, d', e, hl, hn, ht, hz, hq⟩
  · refine ⟨s.isEmpty, s, by unfold RBuf.loadTail; rw [e], hi, rfl, rfl, rfl, rfl, rfl, ?_, ?_, ?_⟩
    · intro he
      have : s.wrpos ≤ s.rdpos := by simpa [RBuf.isEmpty] using he
      exact ⟨by simp [RBuf.stream, hn]; omega, rfl⟩
    · intro he _
      simpa [RBuf.isEmpty] using he
    · intro he
      have : s.wrpos ≤ s.rdpos := by simpa [RBuf.isEmpty] using he
      simp [RBuf.stream, hn]; omega
  · have hlen : (store s.buff s.wrpos l).length = s.buff.length := by simp [store]; omega
    have htk : (store s.buff s.wrpos l).take (s.wrpos + l.length) = s.buff.take s.wrpos ++ l := by
      have hx : (s.buff.take s.wrpos ++ l).length = s.wrpos + l.length := by simp; omega
      unfold store
      rw [← hx, List.take_left]
    refine ⟨false, { s with buff := store s.buff s.wrpos l, dev := d', wrpos := s.wrpos + l.length, noItems := false }, by unfold RBuf.loadTail; rw [e], ⟨by show 0 < (store s.buff s.wrpos l).length; rw [hlen]; exact hi.pos, by show s.rdpos ≤ s.wrpos + l.length; omega, by show _ ≤ (store s.buff s.wrpos l).length; rw [hlen]; show s.wrpos + l.length ≤ _; omega, (by intro h; cases h)⟩, ?_, rfl, ?_, hlen, ht, (by intro h; cases h), ?_, ?_⟩
    · show ((store s.buff s.wrpos l).take (s.wrpos + l.length)).drop s.rdpos ++ d'.src = _
      rw [htk, List.drop_append_of_le_length (by simp; omega), List.append_assoc, hl]; rfl
    · show (store s.buff s.wrpos l).take s.rdpos = _
      unfold store
      rw [List.append_assoc, List.take_append_of_le_length (by simp; omega), List.take_take, Nat.min_eq_left h1]
    · intro _ h
      show s.rdpos < s.wrpos + l.length
      by_cases hl0 : l = []
      · have hs0 := hz hl0
        have := hq hs0
        rcases h with h | h
        · rw [this] at h; cases h
        · by_cases hlt : s.rdpos < s.wrpos
          · omega
          · exact absurd (by simp [RBuf.stream, hs0]; omega) h
      · have := List.length_pos_iff.2 hl0
        omega
    · intro he
      have : s.wrpos + l.length ≤ s.rdpos := by simpa [RBuf.isEmpty] using he
      have hl0 : l = [] := List.length_eq_zero_iff.1 (by omega)
      simp [RBuf.stream, hz hl0]; omega

/-- `load` on an empty buffer. -/
theorem load_ok {s : RBuf α} (hi : RInv s) (he : s.wrpos ≤ s.rdpos) :
    ∃ f s', s.load = .ok (f, s') ∧ RInv s' ∧ s'.stream = s.stream ∧
      (s'.rdpos = 0 ∨ (s'.rdpos = s.rdpos ∧ s'.buff.take s.rdpos = s.buff.take s.rdpos)) ∧
      s'.dev.endThrows = s.dev.endThrows ∧
      (f = true → s.stream = [] ∧ s'.dev.src = [] ∧ s'.isEmpty = true) ∧
      (f = false → s.dev.endThrows = true ∨ s.stream ≠ [] → s'.rdpos < s'.wrpos) ∧
      (s'.isEmpty = true → s.stream = []) := by
  have h1 := hi.rd
  have h2 := hi.wr
  have hp := hi.pos
  have src_of : s.stream = [] → s.dev.src = [] := by
    intro h; simp [RBuf.stream] at h; exact h.2
  by_cases hsp : s.buff.length - s.wrpos = 0
  · have h0 : s.rdpos ≠ 0 := by omega
    obtain ⟨b', e, hl, ht⟩ := compact_ok (s.wrpos - s.rdpos) s.buff 0 s.rdpos (by omega) (by omega)
    have hz : s.wrpos - s.rdpos = 0 := by omega
    have hi' : RInv { s with buff := b', rdpos := 0, wrpos := s.wrpos - s.rdpos } :=
      ⟨by show 0 < b'.length; omega, Nat.zero_le _, by show s.wrpos - s.rdpos ≤ b'.length; omega, hi.fin⟩
    obtain ⟨f, s', e', i', hst, hr, hb, hbl, het, hf, hg, hm⟩ :=
      loadTail_ok hi' (by show s.wrpos - s.rdpos < b'.length; omega)
    have hst' : RBuf.stream { s with buff := b', rdpos := 0, wrpos := s.wrpos - s.rdpos } = s.stream := by
      simp only [RBuf.stream, hz]
      rw [List.drop_eq_nil_of_le (as := s.buff.take s.wrpos) (by simp; omega)]; simp
    refine ⟨f, s', ?_, i', by rw [hst, hst'], Or.inl hr, het, ?_, ?_, ?_⟩
    · unfold RBuf.load
      rw [if_pos hsp, if_neg h0, e]
      show Except.ok (RBuf.loadTail _) = _
      rw [e']
    · intro h
      obtain ⟨ha, hb⟩ := hf h
      rw [hst'] at ha
      subst hb
      refine ⟨ha, src_of ha, by simp [RBuf.isEmpty, hz]⟩
    · intro h1 h2; rw [hst'] at hg; exact hg h1 h2
    · intro h; rw [hst'] at hm; exact hm h
  · obtain ⟨f, s', e', i', hst, hr, hb, hbl, het, hf, hg, hm⟩ := loadTail_ok hi (by omega)
    refine ⟨f, s', ?_, i', hst, Or.inr ⟨hr, hb⟩, het, ?_, hg, hm⟩
    · unfold RBuf.load
      rw [if_neg hsp, e']
    · intro h
      obtain ⟨ha, hb⟩ := hf h
      subst hb
      exact ⟨ha, src_of ha, by simpa [RBuf.isEmpty] using he⟩

theorem stream_cons {s : RBuf α} (hi : RInv s) (h : s.rdpos < s.wrpos) :
    ∃ hb : s.rdpos < s.buff.length,
      s.stream = s.buff[s.rdpos] :: RBuf.stream { s with rdpos := s.rdpos + 1 } := by
  have h2 := hi.wr
  refine ⟨by omega, ?_⟩
  simp only [RBuf.stream]
  rw [List.drop_eq_getElem_cons (by simp; omega)]
  simp

/-- What is remembered of the items taken from the buffer. -/
def RBuf.past (s : RBuf α) : List α := s.buff.take s.rdpos

theorem fill_ok {s : RBuf α} (hi : RInv s) :
    ∃ f s', s.fill = .ok (f, s') ∧ RInv s' ∧ s'.stream = s.stream ∧
      (s'.past = [] ∨ s'.past = s.past) ∧ s'.dev.endThrows = s.dev.endThrows ∧
      (f = true → s.stream = []) ∧
      (f = false → s.dev.endThrows = true ∨ s.stream ≠ [] → s'.rdpos < s'.wrpos) := by
  by_cases he : s.isEmpty = true
  · have he' : s.wrpos ≤ s.rdpos := by simpa [RBuf.isEmpty] using he
    obtain ⟨f, s', e, i, hst, hr, het, hf, hg, _⟩ := load_ok hi he'
    refine ⟨f, s', by unfold RBuf.fill; rw [if_pos he, e], i, hst, ?_, het, fun h => (hf h).1, hg⟩
    rcases hr with hr | ⟨hr, hb⟩
    · exact Or.inl (by simp [RBuf.past, hr])
    · exact Or.inr (by simp [RBuf.past, hr, hb])
  · exact ⟨false, s, by unfold RBuf.fill; rw [if_neg he], hi, rfl, Or.inr rfl, rfl, by simp,
      fun _ _ => by simpa [RBuf.isEmpty] using he⟩

/-- C28, `getNext`: it returns the first item of the stream and takes it away, or refuses when there
is none. The item becomes the newest of those which can be taken back. -/
theorem c28_next {s : RBuf α} (hi : RInv s) (hd : s.dev.endThrows = true ∨ s.stream ≠ []) :
    ∃ s', s.getNext = .ok (s.stream.head?, s') ∧ RInv s' ∧ s'.stream = s.stream.tail ∧
      s'.dev.endThrows = s.dev.endThrows ∧
      ∀ v, s.stream.head? = some v → s'.past = [v] ∨ s'.past = s.past ++ [v] := by
  obtain ⟨f, s1, e, i1, hst, hpa, het, hf, hg⟩ := fill_ok hi
  have e' : s.getNext = (s.fill >>= fun r => if r.1 then .ok (none, r.2) else
    rd r.2.buff r.2.rdpos >>= fun v => .ok (some v, { r.2 with rdpos := r.2.rdpos + 1 })) := rfl
  cases f with
  | true =>
    have h := hf rfl
    refine ⟨s1, ?_, i1, by rw [hst, h]; rfl, het, by rw [h]; intro v hv; cases hv⟩
    rw [e', e, h]; rfl
  | false =>
    have hlt := hg rfl hd
    obtain ⟨hb, hc⟩ := stream_cons i1 hlt
    refine ⟨{ s1 with rdpos := s1.rdpos + 1 }, ?_, ⟨i1.pos, hlt, i1.wr, i1.fin⟩, ?_, het, ?_⟩
    · rw [e', e]
      show (rd s1.buff s1.rdpos >>= fun v => Except.ok (some v, { s1 with rdpos := s1.rdpos + 1 })) = _
      rw [rd_ok hb, ← hst, hc]; rfl
    · rw [← hst, hc]; rfl
    · intro v hv
      rw [← hst, hc] at hv
      have hv : s1.buff[s1.rdpos] = v := by simpa using hv
      have hp : RBuf.past { s1 with rdpos := s1.rdpos + 1 } = s1.past ++ [v] := by
        simp only [RBuf.past]
        rw [List.take_add_one]
        simp [hb, hv]
      rcases hpa with h | h
      · left; rw [hp, h]; rfl
      · right; rw [hp, h]

/-- C28, `peek`: it returns the first item and takes nothing away. -/
theorem c28_peek {s : RBuf α} (hi : RInv s) (hd : s.dev.endThrows = true ∨ s.stream ≠ []) :
    ∃ s', s.peek = .ok (s.stream.head?, s') ∧ RInv s' ∧ s'.stream = s.stream ∧
      s'.dev.endThrows = s.dev.endThrows ∧ (s'.past = [] ∨ s'.past = s.past) := by
  obtain ⟨f, s1, e, i1, hst, hpa, het, hf, hg⟩ := fill_ok hi
  have e' : s.peek = (s.fill >>= fun r => if r.1 then .ok (none, r.2) else
    rd r.2.buff r.2.rdpos >>= fun v => .ok (some v, r.2)) := rfl
  refine ⟨s1, ?_, i1, hst, het, hpa⟩
  cases f with
  | true => rw [e', e, hf rfl]; rfl
  | false =>
    obtain ⟨hb, hc⟩ := stream_cons i1 (hg rfl hd)
    rw [e', e]
    show (rd s1.buff s1.rdpos >>= fun v => Except.ok (some v, s1)) = _
    rw [rd_ok hb, ← hst, hc]; rfl

/-- C28, `hasItems`: it says whether anything comes and takes nothing away. -/
theorem c28_hasItems {s : RBuf α} (hi : RInv s) :
    ∃ s', s.hasItems = .ok (!s.stream.isEmpty, s') ∧ RInv s' ∧ s'.stream = s.stream ∧
      s'.dev.endThrows = s.dev.endThrows ∧ (s'.past = [] ∨ s'.past = s.past) := by
  by_cases he : s.isEmpty = true
  · have he' : s.wrpos ≤ s.rdpos := by simpa [RBuf.isEmpty] using he
    by_cases hn : s.noItems = true
    · refine ⟨s, ?_, hi, rfl, rfl, Or.inr rfl⟩
      have : s.stream = [] := by simp [RBuf.stream, hi.fin hn]; omega
      unfold RBuf.hasItems
      rw [if_pos he, if_pos hn, this]; rfl
    · obtain ⟨f, s1, e, i1, hst, hr, het, hf, hg, hm⟩ := load_ok hi he'
      have hpast : s1.past = [] ∨ s1.past = s.past := by
        rcases hr with hr | ⟨hr, hb⟩
        · exact Or.inl (by simp [RBuf.past, hr])
        · exact Or.inr (by simp [RBuf.past, hr, hb])
      have e' : s.hasItems = (s.load >>= fun r => if r.1 then .ok (!r.2.isEmpty, { r.2 with noItems := true })
          else .ok (!r.2.isEmpty, r.2)) := by
        unfold RBuf.hasItems; rw [if_pos he, if_neg hn]; rfl
      have hem : s1.isEmpty = s.stream.isEmpty := by
        cases h : s1.isEmpty with
        | true => rw [hm h]; rfl
        | false =>
          have hlt : s1.rdpos < s1.wrpos := by simpa [RBuf.isEmpty] using h
          obtain ⟨_, hc⟩ := stream_cons i1 hlt
          rw [← hst, hc]; rfl
      cases f with
      | true =>
        obtain ⟨_, hsrc, _⟩ := hf rfl
        refine ⟨{ s1 with noItems := true }, ?_, ⟨i1.pos, i1.rd, i1.wr, fun _ => hsrc⟩, hst, het, hpast⟩
        rw [e', e, ← hem]; rfl
      | false =>
        refine ⟨s1, ?_, i1, hst, het, hpast⟩
        rw [e', e, ← hem]; rfl
  · refine ⟨s, ?_, hi, rfl, rfl, Or.inr rfl⟩
    have hlt : s.rdpos < s.wrpos := by simpa [RBuf.isEmpty] using he
    obtain ⟨_, hc⟩ := stream_cons hi hlt
    unfold RBuf.hasItems
    rw [if_neg he, hc]; rfl

/-- C28, `unget(item)`: the item comes next, or the call is refused when nothing taken before is
remembered. -/
theorem c28_unget {s : RBuf α} (hi : RInv s) (v : α) :
    (s.past = [] ∧ s.unget v = .error .thrown) ∨
    ∃ s', s.unget v = .ok s' ∧ RInv s' ∧ s'.stream = v :: s.stream ∧ s'.past = s.past.dropLast ∧
      s'.dev = s.dev := by
  have h1 := hi.rd
  have h2 := hi.wr
  by_cases h : s.rdpos > 0
  · right
    refine ⟨{ s with buff := s.buff.set (s.rdpos - 1) v, rdpos := s.rdpos - 1 }, ?_,
      ⟨by simpa using hi.pos, by show s.rdpos - 1 ≤ s.wrpos; omega, by simpa using h2, hi.fin⟩, ?_, ?_, rfl⟩
    · unfold RBuf.unget
      rw [if_pos h, wr_ok (by omega)]; rfl
    · show ((s.buff.set (s.rdpos - 1) v).take s.wrpos).drop (s.rdpos - 1) ++ s.dev.src = _
      rw [List.drop_eq_getElem_cons (by simp; omega)]
      simp only [RBuf.stream, List.cons_append]
      congr 1
      · simp
      · rw [show s.rdpos - 1 + 1 = s.rdpos by omega, List.take_set, List.drop_set_of_lt (by omega)]
    · show (s.buff.set (s.rdpos - 1) v).take (s.rdpos - 1) = (s.buff.take s.rdpos).dropLast
      rw [List.take_set, List.set_eq_of_length_le (by simp; omega), List.dropLast_eq_take]
      simp [List.take_take]
      congr 1; omega
  · left
    exact ⟨by simp [RBuf.past]; omega, by unfold RBuf.unget; rw [if_neg h]⟩

/-- C28, `unget()`: the newest item taken comes once more. -/
theorem c28_ungetLast {s : RBuf α} (hi : RInv s) :
    (s.past = [] ∧ s.ungetLast = .error .thrown) ∨
    ∃ s' v, s.ungetLast = .ok s' ∧ RInv s' ∧ s.past = s'.past ++ [v] ∧ s'.stream = v :: s.stream ∧
      s'.dev = s.dev := by
  have h1 := hi.rd
  have h2 := hi.wr
  by_cases h : s.rdpos > 0
  · right
    refine ⟨{ s with rdpos := s.rdpos - 1 }, s.buff[s.rdpos - 1], ?_,
      ⟨hi.pos, by show s.rdpos - 1 ≤ s.wrpos; omega, h2, hi.fin⟩, ?_, ?_, rfl⟩
    · unfold RBuf.ungetLast; rw [if_pos h]
    · show s.buff.take s.rdpos = s.buff.take (s.rdpos - 1) ++ _
      have : s.rdpos = s.rdpos - 1 + 1 := by omega
      conv => lhs; rw [this]
      rw [List.take_add_one]
      simp [show s.rdpos - 1 < s.buff.length by omega]
    · show (s.buff.take s.wrpos).drop (s.rdpos - 1) ++ s.dev.src = _
      rw [List.drop_eq_getElem_cons (by simp; omega)]
      simp [RBuf.stream, show s.rdpos - 1 + 1 = s.rdpos by omega]
  · left
    exact ⟨by simp [RBuf.past]; omega, by unfold RBuf.ungetLast; rw [if_neg h]⟩

/-- The calls of the user. -/
inductive ROp (α : Type) where
  | next
  | peek
  | has
  | unget (v : α)
  | ungetLast

/-- What a call returns. -/
inductive Ret (α : Type) where
  | item (v : Option α)
  | flag (b : Bool)
  | unit
  | refused
deriving DecidableEq

def RBuf.op (s : RBuf α) : ROp α → Except Err (Ret α × RBuf α)
  | .next => do let r ← s.getNext; return (.item r.1, r.2)
  | .peek => do let r ← s.peek; return (.item r.1, r.2)
  | .has => do let r ← s.hasItems; return (.flag r.1, r.2)
  | .unget v =>
    match s.unget v with
    | .ok s => .ok (.unit, s)
    | .error .thrown => .ok (.refused, s)
    | .error .ub => .error .ub
  | .ungetLast =>
    match s.ungetLast with
    | .ok s => .ok (.unit, s)
    | .error .thrown => .ok (.refused, s)
    | .error .ub => .error .ub

def RBuf.ops (s : RBuf α) : List (ROp α) → Except Err (List (Ret α) × RBuf α)
  | [] => .ok ([], s)
  | o :: os => do
    let r ← s.op o
    let q ← r.2.ops os
    return (r.1 :: q.1, q.2)

/-- The specification: a plain list of items to come and the list of items which were taken, the
newest last. Taking back may be refused, unless the call before took an item (`fresh`). -/
inductive Spec : Bool → List α → List α → List (ROp α) → List (Ret α) → List α → Prop where
  | done {f past l} : Spec f past l [] [] l
  | next {f past l os rs l'} : Spec l.head?.isSome (past ++ l.head?.toList) l.tail os rs l' →
      Spec f past l (.next :: os) (.item l.head? :: rs) l'
  | peek {f past l os rs l'} : Spec false past l os rs l' → Spec f past l (.peek :: os) (.item l.head? :: rs) l'
  | has {f past l os rs l'} : Spec false past l os rs l' → Spec f past l (.has :: os) (.flag (!l.isEmpty) :: rs) l'
  | unget {f past l os rs l'} (v w : α) : Spec false past (v :: l) os rs l' →
      Spec f (past ++ [w]) l (.unget v :: os) (.unit :: rs) l'
  | ungetLast {f past l os rs l'} (w : α) : Spec false past (w :: l) os rs l' →
      Spec f (past ++ [w]) l (.ungetLast :: os) (.unit :: rs) l'
  | refuse1 {past l os rs l'} (v : α) : Spec false past l os rs l' →
      Spec false past l (.unget v :: os) (.refused :: rs) l'
  | refuse2 {past l os rs l'} : Spec false past l os rs l' →
      Spec false past l (.ungetLast :: os) (.refused :: rs) l'

theorem suffix_snoc {p past : List α} {w : α} (h : p ++ [w] <:+ past) :
    ∃ past', past = past' ++ [w] ∧ p <:+ past' := by
  obtain ⟨t, rfl⟩ := h
  exact ⟨t ++ p, by simp, ⟨t, rfl⟩⟩

theorem spec_of (os : List (ROp α)) : ∀ {s : RBuf α} {f : Bool} {past : List α}, RInv s →
    s.dev.endThrows = true → s.past <:+ past → (f = true → s.past ≠ []) →
    ∃ rs s', s.ops os = .ok (rs, s') ∧ RInv s' ∧ Spec f past s.stream os rs s'.stream := by
  induction os with
  | nil => intro s f past hi _ _ _; exact ⟨[], s, rfl, hi, .done⟩
  | cons o os ih =>
    intro s f past hi ht hp hf
    have join : ∀ {r s1}, s.op o = .ok (r, s1) → ∀ {rs s'}, s1.ops os = .ok (rs, s') →
        s.ops (o :: os) = .ok (r :: rs, s') := by
      intro r s1 e rs s' e2
      show (s.op o >>= fun r => r.2.ops os >>= fun q => .ok (r.1 :: q.1, q.2)) = _
      rw [e]
      show (s1.ops os >>= fun q => _) = _
      rw [e2]; rfl
    cases o with
    | next =>
      obtain ⟨s1, e, i1, hst, het, hpa⟩ := c28_next hi (Or.inl ht)
      have hs : s1.past <:+ past ++ s.stream.head?.toList ∧ (s.stream.head?.isSome = true → s1.past ≠ []) ∨
          s.stream.head? = none := by
        cases hh : s.stream.head? with
        | none => exact Or.inr rfl
        | some v =>
          left
          rcases hpa v hh with h | h
          · exact ⟨by rw [h]; exact ⟨past, rfl⟩, by rw [h]; simp⟩
          · refine ⟨?_, by rw [h]; simp⟩
            obtain ⟨t, rfl⟩ := hp
            rw [h]; exact ⟨t, by simp⟩
      have e1 : s.op .next = .ok (.item s.stream.head?, s1) := by
        show (s.getNext >>= fun r => _) = _
        rw [e]; rfl
      rcases hs with ⟨h1, h2⟩ | hn
      · obtain ⟨rs, s', e2, i2, sp⟩ := ih (f := s.stream.head?.isSome) i1 (by rw [het, ht]) h1 h2
        exact ⟨_, s', join e1 e2, i2, .next (by rw [← hst]; exact sp)⟩
      · have hz : s.stream = [] := by simpa using hn
        obtain ⟨rs, s', e2, i2, sp⟩ := ih (f := false) (past := s1.past) i1 (by rw [het, ht])
          (List.suffix_refl _) (by intro h; cases h)
        -- the buffer may have forgotten the past: weaken
        have hpast : s1.past = [] ∨ s1.past = s.past := by
          obtain ⟨f2, s2, e3, _, _, hp2, _, hf2, hg2⟩ := fill_ok hi
          have : s.getNext = (s.fill >>= fun r => if r.1 then .ok (none, r.2) else
            rd r.2.buff r.2.rdpos >>= fun v => .ok (some v, { r.2 with rdpos := r.2.rdpos + 1 })) := rfl
          rw [this, e3] at e
          cases f2 with
          | true =>
            have : s2 = s1 := by
              have : (Except.ok (none, s2) : Except Err (Option α × RBuf α)) = .ok (s.stream.head?, s1) := e
              exact (Prod.ext_iff.1 (Except.ok.inj this)).2
            subst this; exact hp2
          | false =>
            obtain ⟨fi, s3, e4, i4, hst4, _, _, _, hg4⟩ := fill_ok hi
            rw [e3] at e4
            have h34 : s2 = s3 ∧ false = fi := by cases e4; exact ⟨rfl, rfl⟩
            obtain ⟨rfl, rfl⟩ := h34
            have hlt := hg4 rfl (Or.inl ht)
            obtain ⟨_, hc⟩ := stream_cons i4 hlt
            rw [hst4, hz] at hc; cases hc
        obtain ⟨rs, s', e2, i2, sp⟩ := ih (f := false) (past := past) i1 (by rw [het, ht])
          (by rcases hpast with h | h <;> rw [h]; exact List.nil_suffix; exact hp) (by intro h; cases h)
        refine ⟨_, s', join e1 e2, i2, .next ?_⟩
        rw [hn, ← hst]; simpa using sp
    | peek =>
      obtain ⟨s1, e, i1, hst, het, hpa⟩ := c28_peek hi (Or.inl ht)
      have e1 : s.op .peek = .ok (.item s.stream.head?, s1) := by
        show (s.peek >>= fun r => _) = _
        rw [e]; rfl
      obtain ⟨rs, s', e2, i2, sp⟩ := ih (f := false) (past := past) i1 (by rw [het, ht])
        (by rcases hpa with h | h <;> rw [h]; exact List.nil_suffix; exact hp) (by intro h; cases h)
      exact ⟨_, s', join e1 e2, i2, .peek (by rw [← hst]; exact sp)⟩
    | has =>
      obtain ⟨s1, e, i1, hst, het, hpa⟩ := c28_hasItems hi
      have e1 : s.op .has = .ok (.flag (!s.stream.isEmpty), s1) := by
        show (s.hasItems >>= fun r => _) = _
        rw [e]; rfl
      obtain ⟨rs, s', e2, i2, sp⟩ := ih (f := false) (past := past) i1 (by rw [het, ht])
        (by rcases hpa with h | h <;> rw [h]; exact List.nil_suffix; exact hp) (by intro h; cases h)
      exact ⟨_, s', join e1 e2, i2, .has (by rw [← hst]; exact sp)⟩
    | unget v =>
      have eo : s.op (.unget v) = (match s.unget v with
        | .ok s => .ok (.unit, s)
        | .error .thrown => .ok (.refused, s)
        | .error .ub => .error .ub) := rfl
      rcases c28_unget hi v with ⟨hn, e⟩ | ⟨s1, e, i1, hst, hpa, hd⟩
      · obtain ⟨rs, s', e2, i2, sp⟩ := ih (f := false) (past := past) hi ht hp (by intro h; cases h)
        refine ⟨_, s', join (by rw [eo, e]) e2, i2, ?_⟩
        cases f with
        | true => exact absurd hn (hf rfl)
        | false => exact .refuse1 v sp
      · have hne : s.past ≠ [] := by
          intro h
          have h0 : s.rdpos = 0 := by
            have := congrArg List.length h
            have h1 := hi.rd; have h2 := hi.wr; have h3 := hi.pos
            simp only [RBuf.past, List.length_take, List.length_nil] at this; omega
          unfold RBuf.unget at e; rw [if_neg (by omega)] at e; cases e
        obtain ⟨past', rfl, hp'⟩ := suffix_snoc (p := s.past.dropLast) (w := s.past.getLast hne)
          (past := past) (by rw [List.dropLast_concat_getLast]; exact hp)
        obtain ⟨rs, s', e2, i2, sp⟩ := ih (f := false) (past := past') i1 (by rw [hd, ht]) (by rw [hpa]; exact hp')
          (by intro h; cases h)
        exact ⟨_, s', join (by rw [eo, e]) e2, i2, .unget v _ (by rw [← hst]; exact sp)⟩
    | ungetLast =>
      have eo : s.op .ungetLast = (match s.ungetLast with
        | .ok s => .ok (.unit, s)
        | .error .thrown => .ok (.refused, s)
        | .error .ub => .error .ub) := rfl
      rcases c28_ungetLast hi with ⟨hn, e⟩ | ⟨s1, w, e, i1, hpa, hst, hd⟩
      · obtain ⟨rs, s', e2, i2, sp⟩ := ih (f := false) (past := past) hi ht hp (by intro h; cases h)
        refine ⟨_, s', join (by rw [eo, e]) e2, i2, ?_⟩
        cases f with
        | true => exact absurd hn (hf rfl)
        | false => exact .refuse2 sp
      · obtain ⟨past', rfl, hp'⟩ := suffix_snoc (p := s1.past) (w := w) (past := past) (by rw [← hpa]; exact hp)
        obtain ⟨rs, s', e2, i2, sp⟩ := ih (f := false) (past := past') i1 (by rw [hd, ht]) hp' (by intro h; cases h)
        exact ⟨_, s', join (by rw [eo, e]) e2, i2, .ungetLast w (by rw [← hst]; exact sp)⟩

/-- C28. Missing: `peek(n)` (`c28_peekAt_violated`, `c28_peekAt_hangs_violated`) and devices which do
not throw at the end of data (`c28_quiet_end_violated`). For every device with any split into blocks
and any sequence of calls, the results are those of the plain list; an item can always be taken back
just after it was read. -/
theorem c28_partial (b : List α) (hb : 0 < b.length) (src : List α) (script : List Nat)
    (os : List (ROp α)) :
    ∃ rs s', RBuf.ops { buff := b, dev := { src := src, script := script } } os = .ok (rs, s') ∧
      Spec false [] src os rs s'.stream := by
  obtain ⟨rs, s', e, _, sp⟩ := spec_of os (s := { buff := b, dev := { src := src, script := script } })
    (f := false) (past := []) ⟨hb, Nat.le_refl _, Nat.zero_le _, by intro h; cases h⟩ rfl
    (by simp [RBuf.past]) (by intro h; cases h)
  exact ⟨rs, s', e, by simpa [RBuf.stream] using sp⟩

/-- C28: reading on until the end delivers the device's items. -/
theorem c28_all (b : List α) (hb : 0 < b.length) (src : List α) (script : List Nat) :
    ∃ s', RBuf.ops { buff := b, dev := { src := src, script := script } }
      (List.replicate (src.length + 1) .next) = .ok (src.map (fun v => .item (some v)) ++ [.item none], s') := by
  obtain ⟨rs, s', e, sp⟩ := c28_partial b hb src script (List.replicate (src.length + 1) .next)
  refine ⟨s', ?_⟩
  rw [e]
  have key : ∀ (l : List α) (f : Bool) (past l' : List α) (rs : List (Ret α)),
      Spec f past l (List.replicate (l.length + 1) .next) rs l' →
      rs = l.map (fun v => .item (some v)) ++ [.item none] := by
    intro l
    induction l with
    | nil =>
      intro f past l' rs h
      cases h with
      | next h => generalize past ++ _ = q at h; cases h; rfl
    | cons a l ih =>
      intro f past l' rs h
      rw [List.length_cons, List.replicate_succ] at h
      cases h with
      | next h => rw [ih _ _ _ _ h]; rfl
  rw [key _ _ _ _ _ sp]

/-- C28 is violated by `peek(n)`: after one item was read, `peek(0)` shows that item again. -/
theorem c28_peekAt_violated :
    (match (RBuf.getNext { buff := [0, 0, 0], dev := { src := [1, 2, 3] } } : Except Err (Option Nat × RBuf Nat)) with
     | .ok (_, s) => ((s.peekAt 0 9).bind (·.toOption)).map (fun r => (r.1, s.stream))
     | .error _ => none) = some (1, [2, 3]) := by decide

/-- C28: `peek(1)` on a device with one item never returns. -/
theorem c28_peekAt_hangs_violated (fuel : Nat) :
    RBuf.peekAt { buff := [0, 0], dev := { src := [7] } } 1 fuel = none := by
  have h : ∀ fuel, RBuf.peekLoop { buff := [7, 0], dev := { src := [] }, wrpos := 1 } 1 fuel = none := by
    intro fuel
    induction fuel with
    | zero => rfl
    | succ n ih => exact ih
  cases fuel with
  | zero => rfl
  | succ n =>
    have e : RBuf.peekLoop { buff := [0, 0], dev := { src := [7] } } 1 (n + 1) =
      RBuf.peekLoop { buff := [7, 0], dev := { src := [] }, wrpos := 1 } 1 n := rfl
    unfold RBuf.peekAt
    rw [e, h n]; rfl

/-- C28: with a device which reads nothing at its end (as `SeqFileInput`), `getNext` without asking
`hasItems` invents an item. -/
theorem c28_quiet_end_violated :
    ((RBuf.getNext { buff := [9, 9], dev := { src := [], endThrows := false } } : Except Err (Option Nat × RBuf Nat)).toOption.map (·.1)) =
      some (some 9) := by decide

example : ((RBuf.ops { buff := [0, 0, 0], dev := { src := [1, 2, 3, 4, 5], script := [0, 1] } }
    [.peek, .next, .has, .next, .unget 8, .next, .next, .ungetLast, .next, .next, .next, .next, .has] :
      Except Err (List (Ret Nat) × RBuf Nat)).toOption.map (·.1)) =
    some [.item (some 1), .item (some 1), .flag true, .item (some 2), .unit, .item (some 8), .item (some 3),
      .unit, .item (some 3), .item (some 4), .item (some 5), .item none, .flag false] := by decide

end LS.Buffer

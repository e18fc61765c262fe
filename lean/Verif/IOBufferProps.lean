import Verif.IOBuffer
/-!
# C75, C76, C77: the buffered stream `IOBuffer` (`base/streams/fileiobuff.tcc`)
-/

namespace LS.IOBuffer

open LS.Buffer (store)

variable {α : Type}

/-! ## Slices of the buffer -/

/-- The bytes `[p, q)`. -/
def slice (b : List α) (p q : Nat) : List α := (b.take q).drop p

theorem slice_nil {b : List α} {p q : Nat} (h : q ≤ p) : slice b p q = [] := by
  simp [slice]; omega

theorem slice_length {b : List α} {p q : Nat} (h : q ≤ b.length) : (slice b p q).length = q - p := by
  simp [slice]; omega

theorem slice_split {b : List α} {p q r : Nat} (h1 : p ≤ q) (h2 : q ≤ r) :
    slice b p r = slice b p q ++ slice b q r := by
  have e1 : (b.take r).take q = b.take q := by rw [List.take_take, Nat.min_eq_left h2]
  have h3 : b.take r = b.take q ++ (b.take r).drop q := by rw [← e1, List.take_append_drop]
  unfold slice
  by_cases hl : p ≤ (b.take q).length
  · conv => lhs; rw [h3]
    rw [List.drop_append_of_le_length hl]
  · have hb : b.length < p := by simp at hl; omega
    rw [List.drop_eq_nil_of_le (by simp; omega), List.drop_eq_nil_of_le (by simp; omega),
      List.drop_eq_nil_of_le (by simp; omega)]; rfl

theorem store_length {b l : List α} {i : Nat} (h : i + l.length ≤ b.length) :
    (store b i l).length = b.length := by simp [store]; omega

theorem slice_store_before {b l : List α} {i p q : Nat} (h : i + l.length ≤ b.length) (hq : q ≤ i) :
    slice (store b i l) p q = slice b p q := by
  unfold slice store
  rw [List.append_assoc, List.take_append_of_le_length (by simp; omega), List.take_take, Nat.min_eq_left hq]

theorem slice_store_mid {b l : List α} {i : Nat} (h : i + l.length ≤ b.length) :
    slice (store b i l) i (i + l.length) = l := by
  have hx : (b.take i ++ l).length = i + l.length := by simp; omega
  unfold slice store
  rw [← hx, List.take_left, List.drop_append_of_le_length (by simp; omega),
    List.drop_eq_nil_of_le (by simp; omega)]; rfl

theorem slice_store_after {b l : List α} {i p q : Nat} (h : i + l.length ≤ b.length)
    (hp : i + l.length ≤ p) : slice (store b i l) p q = slice b p q := by
  have hx : (b.take i ++ l).length = i + l.length := by simp; omega
  have e : (store b i l).drop p = b.drop p := by
    unfold store
    rw [List.drop_append, hx, List.drop_eq_nil_of_le (by omega), List.drop_drop]
    simp; congr 1; omega
  unfold slice
  rw [List.drop_take, List.drop_take, e]

theorem fromBuf_ok {b : List α} {i n : Nat} (h : i + n ≤ b.length) :
    fromBuf b i n = .ok (slice b i (i + n)) := by
  unfold fromBuf slice
  rw [if_pos h, List.drop_take]; congr 2; omega

theorem toBuf_ok {b l : List α} {i : Nat} (h : i + l.length ≤ b.length) :
    toBuf b i l = .ok (store b i l) := by unfold toBuf; rw [if_pos h]

theorem wsub_le {a b : Nat} (h : b ≤ a) : wsub a b = a - b := by simp [wsub, h]

/-! ## Streams -/

/-- The target closed itself. -/
def Dev.Closed (d : Dev α) : Prop := d.wscript.head? = some 0

/-- The target never closes itself. -/
def Dev.Open (d : Dev α) : Prop := 0 ∉ d.wscript

theorem Dev.Open.not_closed {d : Dev α} (h : d.Open) : ¬ d.Closed := by
  intro hc
  unfold Dev.Closed at hc
  unfold Dev.Open at h
  cases hs : d.wscript with
  | nil => rw [hs] at hc; cases hc
  | cons a t => rw [hs] at hc h; simp at hc; simp [hc] at h

theorem Dev.read_ok (d : Dev α) {n : Nat} (hn : 0 < n) :
    ∃ l d', d.read n = (l, d') ∧ l ++ d'.src = d.src ∧ l.length ≤ n ∧ (l = [] → d.src = []) ∧
      d'.out = d.out ∧ d'.wscript = d.wscript ∧ d'.log = d.log ++ [d.out.length] := by
  unfold Dev.read
  cases hs : d.rscript with
  | nil =>
    refine ⟨_, _, rfl, by simp, by simp; omega, ?_, rfl, rfl, rfl⟩
    intro h; simp at h; rcases h with h | h
    · omega
    · exact h
  | cons k t =>
    refine ⟨_, _, rfl, by simp, by simp; omega, ?_, rfl, rfl, rfl⟩
    intro h; simp at h; rcases h with h | h
    · omega
    · exact h

theorem Dev.write_ok (d : Dev α) (l : List α) :
    ∃ n d', d.write l = (n, d') ∧ n ≤ l.length ∧ d'.out = d.out ++ l.take n ∧
      d'.src = d.src ∧ d'.log = d.log ∧ d'.wscript <:+ d.wscript ∧
      (d.Closed → n = 0 ∧ d' = d) ∧ (n = 0 → l = [] ∨ d'.Closed) := by
  unfold Dev.write Dev.Closed
  cases hs : d.wscript with
  | nil =>
    refine ⟨_, _, rfl, Nat.le_refl _, by simp, rfl, rfl, by simp [hs], by simp, ?_⟩
    intro h; exact Or.inl (List.length_eq_zero_iff.1 h)
  | cons k t =>
    cases k with
    | zero => exact ⟨0, d, rfl, by omega, by simp, rfl, rfl, by simp [hs], by simp, by simp [hs]⟩
    | succ k =>
      refine ⟨_, _, rfl, by simp; omega, by simp [List.take_eq_take_iff], rfl, rfl, List.suffix_cons _ _, by simp, ?_⟩
      intro h; left
      have : (l.take (k + 1)) = [] := List.length_eq_zero_iff.1 h
      simpa using this

theorem Dev.writeAllLoop_ok (fuel : Nat) : ∀ (d : Dev α) (l : List α), l.length ≤ fuel →
    ∃ n d', d.writeAllLoop l fuel = (n, d') ∧ n ≤ l.length ∧ d'.out = d.out ++ l.take n ∧
      d'.src = d.src ∧ d'.log = d.log ∧ d'.wscript <:+ d.wscript ∧
      (d.Closed → n = 0 ∧ d' = d) ∧ (n = l.length ∨ d'.Closed) := by
  induction fuel with
  | zero =>
    intro d l h
    have : l = [] := List.length_eq_zero_iff.1 (by omega)
    subst this
    exact ⟨0, d, rfl, by simp, by simp, rfl, rfl, List.suffix_refl _, fun _ => ⟨rfl, rfl⟩, Or.inl rfl⟩
  | succ fuel ih =>
    intro d l h
    have e : d.writeAllLoop l (fuel + 1) = (if l.length = 0 then (0, d) else
      if (d.write l).1 = 0 then (0, (d.write l).2) else
      ((d.write l).1 + ((d.write l).2.writeAllLoop (l.drop (d.write l).1) fuel).1,
        ((d.write l).2.writeAllLoop (l.drop (d.write l).1) fuel).2)) := rfl
    rw [e]
    by_cases h0 : l.length = 0
    · rw [if_pos h0]
      exact ⟨0, d, rfl, by simp, by simp, rfl, rfl, List.suffix_refl _, fun _ => ⟨rfl, rfl⟩, Or.inl h0.symm⟩
    · rw [if_neg h0]
      obtain ⟨n, d1, e1, hn, ho, hs, hl, hw, hc, hz⟩ := d.write_ok l
      rw [e1]
      by_cases hn0 : n = 0
      · subst hn0
        refine ⟨0, d1, by simp, by omega, ho, hs, hl, hw, fun h => ⟨rfl, (hc h).2⟩, Or.inr ?_⟩
        rcases hz rfl with h | h
        · subst h; simp at h0
        · exact h
      · obtain ⟨m, d2, e2, hm, ho2, hs2, hl2, hw2, hc2, hz2⟩ := ih d1 (l.drop n) (by simp; omega)
        simp only [hn0, if_false, e2]
        refine ⟨n + m, d2, rfl, by simp at hm; omega, ?_, by rw [hs2, hs], by rw [hl2, hl], hw2.trans hw, ?_, ?_⟩
        · rw [ho2, ho, List.append_assoc, ← List.take_add]
        · intro h; exact absurd (hc h).1 hn0
        · rcases hz2 with h | h
          · left; rw [h]; simp; omega
          · exact Or.inr h

theorem Dev.writeAll_ok (d : Dev α) (l : List α) :
    ∃ n d', d.writeAll l = (n, d') ∧ n ≤ l.length ∧ d'.out = d.out ++ l.take n ∧
      d'.src = d.src ∧ d'.log = d.log ∧ d'.wscript <:+ d.wscript ∧
      (d.Closed → n = 0 ∧ d' = d) ∧ (n = l.length ∨ d'.Closed) :=
  d.writeAllLoop_ok l.length l (Nat.le_refl _)

/-! ## Invariant -/

/-- Bytes read from the source and not delivered. -/
def IOBuf.unread (s : IOBuf α) : List α := slice s.buff s.rdpos s.rdend

/-- Bytes accepted and not sent to the target. -/
def IOBuf.pending (s : IOBuf α) : List α := slice s.buff s.wrbeg s.wrpos

/-- Bytes to come. -/
def IOBuf.input (s : IOBuf α) : List α := s.unread ++ s.dev.src

/-- The whole buffer holds unread input. -/
def IOBuf.Full (s : IOBuf α) : Prop := s.rdpos = 0 ∧ s.rdend = s.buff.length

structure Inv (s : IOBuf α) : Prop where
  pos : 0 < s.buff.length
  r1 : s.rdpos ≤ s.rdend
  r2 : s.rdend ≤ s.buff.length
  w1 : s.wrbeg ≤ s.wrpos
  w2 : s.wrpos ≤ s.buff.length
  res : s.writeReserve < s.buff.length
  fin : s.eof = true → s.dev.src = []
  sep : s.rdpos = s.rdend ∨ s.rdend ≤ s.wrbeg ∨
    (s.wrpos ≤ s.rdpos ∧ (s.wrbeg < s.rdpos ∨ (s.rdpos = 0 ∧ s.rdend = s.buff.length)))
  beg : s.wrbeg = 0 ∨ s.rdend ≤ s.wrbeg

/-- What an operation which accepts `l` does to the output: nothing is lost or reordered unless the
target closed itself; then the target has got a part from the front. -/
structure Delivers (s s' : IOBuf α) (l : List α) : Prop where
  eq : s'.dev.out ++ s'.pending = s.dev.out ++ s.pending ++ l ∨
    (s'.dev.Closed ∧ s'.dev.out <+: s.dev.out ++ s.pending ++ l)
  stay : s.dev.Closed → s'.dev.out = s.dev.out ∧ s'.dev.Closed
  suf : s'.dev.wscript <:+ s.dev.wscript

theorem Delivers.refl (s : IOBuf α) : Delivers s s [] :=
  ⟨Or.inl (by simp), fun h => ⟨rfl, h⟩, List.suffix_refl _⟩

theorem Delivers.trans {s s1 s2 : IOBuf α} {l m : List α} (h1 : Delivers s s1 l)
    (h2 : Delivers s1 s2 m) : Delivers s s2 (l ++ m) := by
  refine ⟨?_, fun h => ?_, h2.suf.trans h1.suf⟩
  · rcases h1.eq with e1 | ⟨c1, p1⟩
    · rcases h2.eq with e2 | ⟨c2, p2⟩
      · left; rw [e2, e1]; simp
      · right; refine ⟨c2, ?_⟩; rw [e1] at p2; simpa using p2
    · obtain ⟨ho, hc⟩ := h2.stay c1
      right; refine ⟨hc, ?_⟩
      rw [ho]
      exact p1.trans ⟨m, by simp⟩
  · obtain ⟨ho, hc⟩ := h1.stay h
    obtain ⟨ho2, hc2⟩ := h2.stay hc
    exact ⟨by rw [ho2, ho], hc2⟩

/-- Nothing happened on the output side. -/
theorem Delivers.of_same {s s' : IOBuf α} (hd : s'.dev.out = s.dev.out)
    (hw : s'.dev.wscript = s.dev.wscript) (hp : s'.pending = s.pending) : Delivers s s' [] :=
  ⟨Or.inl (by simp [hd, hp]), fun h => ⟨hd, by unfold Dev.Closed; rw [hw]; exact h⟩, by rw [hw]; exact List.suffix_refl _⟩

theorem IOBuf.pending_nil {s : IOBuf α} (h : s.wrpos = s.wrbeg) : s.pending = [] :=
  slice_nil (by omega)

/-- The write position is put to a free place. -/
theorem adjust_ok {s : IOBuf α} (pos : 0 < s.buff.length) (r1 : s.rdpos ≤ s.rdend)
    (r2 : s.rdend ≤ s.buff.length) (res : s.writeReserve < s.buff.length)
    (fin : s.eof = true → s.dev.src = []) :
    Inv s.adjustWritePos ∧ s.adjustWritePos.wrpos = s.adjustWritePos.wrbeg ∧
      s.adjustWritePos.buff = s.buff ∧ s.adjustWritePos.dev = s.dev ∧ s.adjustWritePos.rdpos = s.rdpos ∧
      s.adjustWritePos.rdend = s.rdend ∧ s.adjustWritePos.eof = s.eof ∧
      s.adjustWritePos.writeReserve = s.writeReserve := by
  unfold IOBuf.adjustWritePos
  have hw : wsub s.size s.rdend = s.buff.length - s.rdend := wsub_le r2
  rw [hw]
  split
  · refine ⟨⟨pos, r1, r2, Nat.le_refl _, r2, res, fin, Or.inr (Or.inl (Nat.le_refl _)), Or.inr (Nat.le_refl _)⟩, rfl, rfl, rfl, rfl, rfl, rfl, rfl⟩
  · refine ⟨⟨pos, r1, r2, Nat.le_refl _, Nat.zero_le _, res, fin, ?_, Or.inl rfl⟩, rfl, rfl, rfl, rfl, rfl, rfl, rfl⟩
    show s.rdpos = s.rdend ∨ s.rdend ≤ 0 ∨ (0 ≤ s.rdpos ∧ (0 < s.rdpos ∨ (s.rdpos = 0 ∧ s.rdend = s.buff.length)))
    omega

theorem intFlush_ok {s : IOBuf α} (hi : Inv s) :
    ∃ s', s.intFlush = .ok s' ∧ Inv s' ∧ Delivers s s' [] ∧ s'.wrpos = s'.wrbeg ∧ s'.buff = s.buff ∧
      s'.dev.src = s.dev.src ∧ s'.dev.log = s.dev.log ∧ s'.rdpos = s.rdpos ∧ s'.rdend = s.rdend ∧
      s'.eof = s.eof ∧ s'.writeReserve = s.writeReserve ∧
      (s'.outputClosed = true → s.outputClosed = true ∨ s'.dev.Closed) ∧
      (s.pending = [] → s'.dev.out = s.dev.out) := by
  have h1 := hi.w1
  have h2 := hi.w2
  by_cases h : s.wrpos > s.wrbeg
  · obtain ⟨n, d, e, hn, ho, hs, hl, hw, hc, hz⟩ := s.dev.writeAll_ok s.pending
    have hp : fromBuf s.buff s.wrbeg (s.wrpos - s.wrbeg) = .ok s.pending := by
      rw [fromBuf_ok (by omega)]; unfold IOBuf.pending; congr 2; omega
    obtain ⟨a1, a2, a3, a4, a5, a6, a7, a8⟩ := adjust_ok
      (s := { s with dev := d, outputClosed := s.outputClosed || n == 0 }) hi.pos hi.r1 hi.r2 hi.res
      (fun h => by show d.src = []; rw [hs]; exact hi.fin h)
    refine ⟨_, ?_, a1, ⟨?_, ?_, by rw [a4]; exact hw⟩, a2, a3, by rw [a4]; exact hs, by rw [a4]; exact hl, a5, a6, a7, a8, ?_, ?_⟩
    · unfold IOBuf.intFlush
      rw [if_pos h]
      show (fromBuf s.buff s.wrbeg (s.wrpos - s.wrbeg) >>= fun l => Except.ok (IOBuf.adjustWritePos { s with dev := (s.dev.writeAll l).2, outputClosed := s.outputClosed || (s.dev.writeAll l).1 == 0 })) = _
      rw [hp]
      show Except.ok (IOBuf.adjustWritePos { s with dev := (s.dev.writeAll s.pending).2, outputClosed := s.outputClosed || (s.dev.writeAll s.pending).1 == 0 }) = _
      rw [e]
    · rw [a4, IOBuf.pending_nil a2]
      show d.out ++ [] = _ ∨ (d.Closed ∧ d.out <+: _)
      rcases hz with h | h
      · left; rw [ho, h, List.take_length, List.append_nil]
      · right; refine ⟨h, ?_⟩
        rw [ho, List.append_nil]
        exact (List.prefix_append_right_inj _).2 (List.take_prefix _ _)
    · intro h
      rw [a4]
      obtain ⟨hn0, hd⟩ := hc h
      show d.out = _ ∧ d.Closed
      rw [hd]; exact ⟨rfl, h⟩
    · intro hcl
      have hcl' : (s.outputClosed || n == 0) = true := by
        revert hcl; unfold IOBuf.adjustWritePos; split <;> exact id
      rcases Bool.or_eq_true_iff.1 hcl' with h3 | h3
      · exact Or.inl h3
      · right; rw [a4]
        rcases hz with h4 | h4
        · have : s.pending.length = s.wrpos - s.wrbeg := slice_length h2
          simp at h3; omega
        · exact h4
    · intro h0
      have : s.pending.length = s.wrpos - s.wrbeg := slice_length h2
      rw [h0] at this; simp at this; omega
  · refine ⟨s, by unfold IOBuf.intFlush; rw [if_neg h], hi, .refl s, by omega, rfl, rfl, rfl, rfl, rfl, rfl, rfl, fun h => Or.inl h, fun _ => rfl⟩

/-- What an input operation leaves: the output side was flushed whenever the source was asked. -/
structure Asks (s s' : IOBuf α) : Prop where
  inv : Inv s'
  del : Delivers s s' []
  size : s'.buff.length = s.buff.length
  reserve : s'.writeReserve = s.writeReserve
  log : ∃ k, s'.dev.log = s.dev.log ++ List.replicate k s'.dev.out.length ∧ (0 < k → s'.pending = [])
  idle : s.pending = [] → s'.pending = [] ∧ s'.dev.out = s.dev.out

theorem Asks.refl {s : IOBuf α} (hi : Inv s) : Asks s s :=
  ⟨hi, .refl s, rfl, rfl, ⟨0, by simp, by omega⟩, fun h => ⟨h, rfl⟩⟩

theorem Asks.trans {s s1 s2 : IOBuf α} (h1 : Asks s s1) (h2 : Asks s1 s2) : Asks s s2 := by
  obtain ⟨k, lk, pk⟩ := h1.log
  obtain ⟨m, lm, pm⟩ := h2.log
  refine ⟨h2.inv, by have := h1.del.trans h2.del; simpa using this, by rw [h2.size, h1.size], by rw [h2.reserve, h1.reserve],
    ⟨k + m, ?_, ?_⟩, ?_⟩
  · by_cases hk : k = 0
    · subst hk; rw [lm, lk]; simp
    · rw [lm, lk, (h2.idle (pk (by omega))).2, List.append_assoc, List.replicate_append_replicate]
  · intro h
    by_cases hm : 0 < m
    · exact pm hm
    · exact (h2.idle (pk (by omega))).1
  · intro h
    obtain ⟨p1, o1⟩ := h1.idle h
    obtain ⟨p2, o2⟩ := h2.idle p1
    exact ⟨p2, by rw [o2, o1]⟩

theorem fetchHead_ok {s : IOBuf α} (hi : Inv s) (hw : s.wrpos = s.wrbeg) :
    ∃ s', s.fetchHead = .ok s' ∧ Inv s' ∧ Delivers s s' [] ∧ s'.buff.length = s.buff.length ∧
      s'.input = s.dev.src ∧ s'.pending = [] ∧ s'.dev.out = s.dev.out ∧
      s'.dev.log = s.dev.log ++ [s.dev.out.length] ∧ s'.writeReserve = s.writeReserve ∧
      (s'.eof = true ↔ s.dev.src = []) ∧ (s'.eof = false → s'.rdpos < s'.rdend) ∧
      (s'.eof = true → s'.rdpos = s'.rdend) := by
  have hr := hi.res
  obtain ⟨l, d, e, h1, h2, h3, h4, h5, h6⟩ := s.dev.read_ok (n := s.size - s.writeReserve) (by unfold IOBuf.size; omega)
  have hfit : s.writeReserve + l.length ≤ s.buff.length := by unfold IOBuf.size at h2; omega
  have hlen := store_length hfit
  have hz : l.length = 0 ↔ s.dev.src = [] := by
    constructor
    · intro h; exact h3 (List.length_eq_zero_iff.1 h)
    · intro h; rw [h] at h1; simp at h1; simp [h1.1]
  obtain ⟨a1, a2, a3, a4, a5, a6, a7, a8⟩ := adjust_ok
    (s := { s with buff := store s.buff s.writeReserve l, dev := d, rdpos := s.writeReserve, rdend := s.writeReserve + l.length, eof := l.length == 0 })
    (by rw [hlen]; exact hi.pos) (by show s.writeReserve ≤ s.writeReserve + l.length; omega)
    (by rw [hlen]; exact hfit) (by rw [hlen]; exact hr)
    (fun h => by
      have h0 : l.length = 0 := by simpa using h
      show d.src = []
      rw [hz.1 h0, List.length_eq_zero_iff.1 h0] at h1; simpa using h1)
  refine ⟨_, ?_, a1, ?_, by rw [a3]; exact hlen, ?_, IOBuf.pending_nil a2, by rw [a4]; exact h4, by rw [a4]; exact h6, a8, ?_, ?_, ?_⟩
  · unfold IOBuf.fetchHead
    show (toBuf s.buff s.writeReserve (s.dev.read (s.size - s.writeReserve)).1 >>= fun b => _) = _
    rw [e]
    show (toBuf s.buff s.writeReserve l >>= fun b => Except.ok (IOBuf.adjustWritePos { s with buff := b, dev := d, rdpos := s.writeReserve, rdend := s.writeReserve + l.length, eof := l.length == 0 })) = _
    rw [toBuf_ok hfit]; rfl
  · exact .of_same (by rw [a4]; exact h4) (by rw [a4]; exact h5) (by rw [IOBuf.pending_nil a2, IOBuf.pending_nil hw])
  · show slice _ _ _ ++ _ = _
    rw [a3, a5, a6, a4]
    show slice (store s.buff s.writeReserve l) s.writeReserve (s.writeReserve + l.length) ++ d.src = _
    rw [slice_store_mid hfit, h1]
  · rw [a7]; show (l.length == 0) = true ↔ _
    rw [← hz]; simp
  · rw [a5, a6, a7]; intro h
    show s.writeReserve < s.writeReserve + l.length
    have : (l.length == 0) = false := h
    simp at this
    have := List.length_pos_iff.2 this
    omega
  · rw [a5, a6, a7]; intro h
    show s.writeReserve = s.writeReserve + l.length
    have : (l.length == 0) = true := h
    simp at this; simp [this]

/-- `intFetch` on an empty read buffer. -/
theorem intFetch_ok {s : IOBuf α} (hi : Inv s) (he : s.rdpos = s.rdend) (hf : s.eof = false) :
    ∃ s', s.intFetch = .ok s' ∧ Asks s s' ∧ s'.input = s.input ∧
      (s'.eof = true ↔ s.input = []) ∧ (s'.eof = false → s'.rdpos < s'.rdend) ∧
      (s'.eof = true → s'.rdpos = s'.rdend) := by
  obtain ⟨s1, e1, i1, d1, w1, b1, sr1, l1, p1, q1, f1, v1, _, id1⟩ := intFlush_ok hi
  obtain ⟨s2, e2, i2, d2, b2, in2, pe2, o2, l2, v2, f2, g2, k2⟩ := fetchHead_ok i1 w1
  have hin : s.input = s.dev.src := by
    show slice s.buff s.rdpos s.rdend ++ s.dev.src = s.dev.src
    rw [slice_nil (by omega)]; rfl
  refine ⟨s2, ?_, ⟨i2, ?_, by rw [b2, b1], by rw [v2, v1], ⟨1, ?_, fun _ => pe2⟩, fun h => ⟨pe2, by rw [o2, id1 h]⟩⟩, by rw [in2, sr1, hin], by rw [f2, sr1, hin], g2, k2⟩
  · unfold IOBuf.intFetch
    rw [hf]
    show (s.intFlush >>= fun s => s.fetchHead) = _
    rw [e1]; exact e2
  · have := d1.trans d2; simpa using this
  · rw [l2, l1, o2]; rfl

theorem deliver_ok {s : IOBuf α} (hi : Inv s) (n : Nat) :
    ∃ l s', s.deliver n = .ok (l, s') ∧ Asks s s' ∧ l ++ s'.input = s.input ∧ l.length ≤ n ∧
      l.length = min (s.rdend - s.rdpos) n ∧ s'.dev = s.dev := by
  have h1 := hi.r1
  have h2 := hi.r2
  have hk : min (s.rdend - s.rdpos) n ≤ s.rdend - s.rdpos := Nat.min_le_left _ _
  have hk2 : min (s.rdend - s.rdpos) n ≤ n := Nat.min_le_right _ _
  generalize hkk : min (s.rdend - s.rdpos) n = k at *
  have hlen : (slice s.buff s.rdpos (s.rdpos + k)).length = k := by
    rw [slice_length (by omega)]; omega
  refine ⟨slice s.buff s.rdpos (s.rdpos + k), { s with rdpos := s.rdpos + k }, ?_,
    ⟨⟨hi.pos, by show s.rdpos + k ≤ s.rdend; omega, h2, hi.w1, hi.w2, hi.res, hi.fin, ?_, hi.beg⟩, .of_same rfl rfl rfl, rfl, rfl, ⟨0, by simp, by omega⟩, fun h => ⟨h, rfl⟩⟩, ?_, by omega, hlen, rfl⟩
  · unfold IOBuf.deliver
    show (fromBuf s.buff s.rdpos (min (s.rdend - s.rdpos) n) >>= fun l => Except.ok (l, { s with rdpos := s.rdpos + min (s.rdend - s.rdpos) n })) = _
    rw [hkk, fromBuf_ok (by omega)]; rfl
  · show s.rdpos + k = s.rdend ∨ s.rdend ≤ s.wrbeg ∨ (s.wrpos ≤ s.rdpos + k ∧ (s.wrbeg < s.rdpos + k ∨ (s.rdpos + k = 0 ∧ s.rdend = s.buff.length)))
    have := hi.sep; have := hi.w1; omega
  · show _ ++ (slice s.buff (s.rdpos + k) s.rdend ++ s.dev.src) = slice s.buff s.rdpos s.rdend ++ s.dev.src
    rw [← List.append_assoc, ← slice_split (by omega) (by omega)]

/-- `read`: a part from the front of the input, not empty unless nothing comes (or nothing was asked
for). -/
theorem read_ok {s : IOBuf α} (hi : Inv s) (n : Nat) :
    ∃ l s', s.read n = .ok (l, s') ∧ Asks s s' ∧ l ++ s'.input = s.input ∧ l.length ≤ n ∧
      (l = [] → n = 0 ∨ s.input = []) := by
  have hr1 := hi.r1
  by_cases h : s.rdpos < s.rdend
  · obtain ⟨l, s', e, a, h1, h2, h3, _⟩ := deliver_ok hi n
    refine ⟨l, s', by unfold IOBuf.read; rw [if_pos h, e], a, h1, h2, ?_⟩
    rintro rfl; simp at h3; left; omega
  · by_cases hf : s.eof = true
    · refine ⟨[], s, by unfold IOBuf.read; rw [if_neg h, if_pos hf], .refl hi, rfl, by simp, fun _ => Or.inr ?_⟩
      show slice _ _ _ ++ _ = _
      rw [slice_nil (by omega), hi.fin hf]; rfl
    · obtain ⟨s1, e1, a1, in1, f1, g1, k1⟩ := intFetch_ok hi (by omega) (by simpa using hf)
      have er : s.read n = (s.intFetch >>= fun s => if s.rdpos < s.rdend then s.deliver n else .ok ([], s)) := by
        unfold IOBuf.read; rw [if_neg h, if_neg hf]
      by_cases h1 : s1.rdpos < s1.rdend
      · obtain ⟨l, s', e, a, h2, h3, h4, h5⟩ := deliver_ok a1.inv n
        refine ⟨l, s', ?_, a1.trans a, by rw [h2, in1], h3, ?_⟩
        · rw [er, e1]; show (if _ then _ else _) = _; rw [if_pos h1, e]
        · rintro rfl; simp at h4; left; omega
      · refine ⟨[], s1, ?_, a1, by simpa using in1, by simp, fun _ => Or.inr ?_⟩
        · rw [er, e1]; show (if _ then _ else _) = _; rw [if_neg h1]
        · rw [← f1]
          cases hh : s1.eof with
          | true => rfl
          | false => exact absurd (g1 hh) h1

/-- `canRead`: whether anything comes. -/
theorem canRead_ok {s : IOBuf α} (hi : Inv s) :
    ∃ s', s.canRead = .ok (!s.input.isEmpty, s') ∧ Asks s s' ∧ s'.input = s.input := by
  have hr1 := hi.r1
  by_cases h : s.rdpos < s.rdend
  · refine ⟨s, ?_, .refl hi, rfl⟩
    have hl : s.input ≠ [] := by
      intro h0
      have : s.unread.length = s.rdend - s.rdpos := slice_length hi.r2
      simp [IOBuf.input] at h0
      rw [h0.1] at this; simp at this; omega
    unfold IOBuf.canRead
    rw [if_pos h]
    cases hx : s.input with
    | nil => exact absurd hx hl
    | cons a t => rfl
  · by_cases hf : s.eof = true
    · refine ⟨s, ?_, .refl hi, rfl⟩
      have h0 : s.input = [] := by
        show slice _ _ _ ++ _ = _
        rw [slice_nil (by omega), hi.fin hf]; rfl
      unfold IOBuf.canRead
      rw [if_neg h, if_pos hf, h0]; rfl
    · obtain ⟨s1, e1, a1, in1, f1, g1, k1⟩ := intFetch_ok hi (by omega) (by simpa using hf)
      refine ⟨s1, ?_, a1, in1⟩
      unfold IOBuf.canRead
      rw [if_neg h, if_neg hf, e1]
      show Except.ok (!s1.eof, s1) = _
      congr 2
      cases hh : s1.eof with
      | true => rw [f1.1 hh]; rfl
      | false =>
        cases hx : s.input with
        | nil => rw [f1.2 hx] at hh; cases hh
        | cons a t => rfl

theorem moveDown_ok {s : IOBuf α} (hi : Inv s) (hf : ¬ (s.rdend = s.buff.length ∧ s.rdpos = 0)) :
    ∃ s', s.moveDown = .ok s' ∧ s'.buff.length = s.buff.length ∧ s'.unread = s.unread ∧ s'.rdpos ≤ s'.rdend ∧
      s'.rdend < s'.buff.length ∧ s'.rdend - s'.rdpos = s.rdend - s.rdpos ∧ s'.dev = s.dev ∧ s'.eof = s.eof ∧
      s'.wrpos = s.wrpos ∧ s'.wrbeg = s.wrbeg ∧ s'.writeReserve = s.writeReserve := by
  have h1 := hi.r1
  have h2 := hi.r2
  have h3 := hi.pos
  by_cases h : s.rdend = s.size
  · have h' : s.rdend = s.buff.length := h
    have hl : (slice s.buff s.rdpos s.rdend).length = s.rdend - s.rdpos := slice_length h2
    have hfit : 0 + (slice s.buff s.rdpos s.rdend).length ≤ s.buff.length := by omega
    have hx : s.rdpos + (s.rdend - s.rdpos) = s.rdend := by omega
    refine ⟨{ s with buff := store s.buff 0 (slice s.buff s.rdpos s.rdend), rdpos := 0, rdend := s.rdend - s.rdpos }, ?_,
      store_length hfit, ?_, Nat.zero_le _, ?_, rfl, rfl, rfl, rfl, rfl, rfl⟩
    · unfold IOBuf.moveDown
      rw [if_pos h, fromBuf_ok (by omega), hx]
      show (toBuf s.buff 0 (slice s.buff s.rdpos s.rdend) >>= fun b => _) = _
      rw [toBuf_ok hfit]; rfl
    · have := slice_store_mid hfit
      rw [hl] at this
      simpa [IOBuf.unread] using this
    · show s.rdend - s.rdpos < (store _ _ _).length
      rw [store_length hfit]; omega
  · have h' : s.rdend ≠ s.buff.length := h
    exact ⟨s, by unfold IOBuf.moveDown; rw [if_neg h], rfl, rfl, h1, by omega, rfl, rfl, rfl, rfl, rfl, rfl⟩

/-- `fetch`: it brings bytes without delivering them; nothing only when the buffer is full or nothing
more comes. -/
theorem fetch_ok {s : IOBuf α} (hi : Inv s) :
    ∃ k s', s.fetch = .ok (k, s') ∧ Asks s s' ∧ s'.input = s.input ∧
      s'.rdend - s'.rdpos = s.rdend - s.rdpos + k ∧ (s.eof = false → s'.pending = []) ∧
      (k = 0 → s.Full ∨ s.dev.src = []) := by
  by_cases hf : s.eof = true
  · exact ⟨0, s, by unfold IOBuf.fetch; rw [if_pos hf], .refl hi, rfl, rfl, (by intro h; rw [hf] at h; cases h), fun _ => Or.inr (hi.fin hf)⟩
  · obtain ⟨s1, e1, i1, d1, w1, b1, sr1, l1, p1, q1, f1, v1, _, id1⟩ := intFlush_ok hi
    have ef : s.fetch = (s.intFlush >>= fun s => if s.rdend = s.size ∧ s.rdpos = 0 then .ok (0, s) else
        s.moveDown >>= fun s => s.fetchTail) := by
      unfold IOBuf.fetch; rw [if_neg hf]
    have hin1 : s1.input = s.input := by
      show slice _ _ _ ++ _ = slice _ _ _ ++ _
      rw [b1, p1, q1, sr1]
    by_cases hfull : s1.rdend = s1.size ∧ s1.rdpos = 0
    · refine ⟨0, s1, ?_, ⟨i1, d1, by rw [b1], v1, ⟨0, by simp [l1], by omega⟩, fun h => ⟨IOBuf.pending_nil w1, id1 h⟩⟩, hin1, by omega, fun _ => IOBuf.pending_nil w1, fun _ => Or.inl ?_⟩
      · rw [ef, e1]; show (if _ then _ else _) = _; rw [if_pos hfull]
      · have : s1.size = s.buff.length := by unfold IOBuf.size; rw [b1]
        exact ⟨by omega, by omega⟩
    · obtain ⟨s2, e2, b2, u2, r2, x2, y2, dv2, f2, wp2, wb2, v2⟩ := moveDown_ok i1 hfull
      obtain ⟨l, d, e3, h1, h2, h3, h4, h5, h6⟩ := s2.dev.read_ok (n := s2.size - s2.rdend) (by unfold IOBuf.size; omega)
      have hfit : s2.rdend + l.length ≤ s2.buff.length := by unfold IOBuf.size at h2; omega
      have hlen := store_length hfit
      have hfalse : s2.eof = false := by rw [f2, f1]; simpa using hf
      obtain ⟨a1, a2, a3, a4, a5, a6, a7, a8⟩ := adjust_ok
        (s := { s2 with buff := store s2.buff s2.rdend l, dev := d, rdend := s2.rdend + l.length })
        (by show 0 < (store _ _ _).length; omega) (by show s2.rdpos ≤ s2.rdend + l.length; omega)
        (by show _ ≤ (store _ _ _).length; rw [hlen]; exact hfit)
        (by show s2.writeReserve < (store _ _ _).length; rw [hlen, v2, b2]; exact i1.res)
        (fun h => by rw [hfalse] at h; cases h)
      have hsplit : slice (store s2.buff s2.rdend l) s2.rdpos (s2.rdend + l.length) = s2.unread ++ l := by
        rw [slice_split r2 (Nat.le_add_right _ _), slice_store_mid hfit, slice_store_before hfit (Nat.le_refl _)]; rfl
      generalize hs3 : IOBuf.adjustWritePos { s2 with buff := store s2.buff s2.rdend l, dev := d, rdend := s2.rdend + l.length } = s3 at *
      refine ⟨l.length, { s3 with eof := s3.eof || l.length == 0 }, ?_, ⟨⟨a1.pos, a1.r1, a1.r2, a1.w1, a1.w2, a1.res, ?_, a1.sep, a1.beg⟩, ?_, ?_, ?_, ⟨1, ?_, ?_⟩, ?_⟩, ?_, ?_, ?_, ?_⟩
      · rw [ef, e1]
        show (if _ then _ else _) = _
        rw [if_neg hfull, e2]
        show s2.fetchTail = _
        unfold IOBuf.fetchTail
        show (toBuf s2.buff s2.rdend (s2.dev.read (s2.size - s2.rdend)).1 >>= fun b => _) = _
        rw [e3]
        show (toBuf s2.buff s2.rdend l >>= fun b => _) = _
        rw [toBuf_ok hfit, ← hs3]; rfl
      · intro h
        have h : (s3.eof || l.length == 0) = true := h
        rw [a7] at h
        have h : (s2.eof || l.length == 0) = true := h
        rw [hfalse] at h
        have h0 : l = [] := by simpa using h
        show s3.dev.src = []
        rw [a4]
        show d.src = []
        have := h3 h0
        rw [this, h0] at h1; simpa using h1
      · have : Delivers s1 { s3 with eof := s3.eof || l.length == 0 } [] := by
          refine .of_same ?_ ?_ ?_
          · show s3.dev.out = _; rw [a4, ← dv2]; exact h4
          · show s3.dev.wscript = _; rw [a4, ← dv2]; exact h5
          · rw [IOBuf.pending_nil w1]; exact IOBuf.pending_nil (s := { s3 with eof := s3.eof || l.length == 0 }) a2
        have := d1.trans this
        simpa using this
      · show s3.buff.length = _; rw [a3]; show (store _ _ _).length = _; rw [hlen, b2, b1]
      · show s3.writeReserve = _; rw [a8]; show s2.writeReserve = _; rw [v2, v1]
      · show s3.dev.log = s.dev.log ++ List.replicate 1 s3.dev.out.length
        rw [a4]
        show d.log = s.dev.log ++ [d.out.length]
        rw [h6, h4, dv2, l1]
      · intro _; exact IOBuf.pending_nil (s := { s3 with eof := s3.eof || l.length == 0 }) a2
      · intro h
        refine ⟨IOBuf.pending_nil (s := { s3 with eof := s3.eof || l.length == 0 }) a2, ?_⟩
        show s3.dev.out = _
        rw [a4]; show d.out = _
        rw [h4, dv2, id1 h]
      · show slice s3.buff s3.rdpos s3.rdend ++ s3.dev.src = _
        rw [a3, a5, a6, a4]
        show slice (store s2.buff s2.rdend l) s2.rdpos (s2.rdend + l.length) ++ d.src = _
        rw [hsplit, List.append_assoc, h1, u2, dv2, ← hin1]; rfl
      · show s3.rdend - s3.rdpos = _
        rw [a5, a6]
        show s2.rdend + l.length - s2.rdpos = _
        omega
      · intro _; exact IOBuf.pending_nil (s := { s3 with eof := s3.eof || l.length == 0 }) a2
      · intro h
        right
        have := h3 (List.length_eq_zero_iff.1 h)
        rw [dv2, sr1] at this; exact this

theorem dataReady_same (d : Dev α) : d.dataReady.2.src = d.src ∧ d.dataReady.2.out = d.out ∧
    d.dataReady.2.wscript = d.wscript ∧ d.dataReady.2.log = d.log := by
  unfold Dev.dataReady
  cases d.ready <;> exact ⟨rfl, rfl, rfl, rfl⟩

/-- One round of the loop of `peek`. -/
theorem peekLoop_succ (s : IOBuf α) (n av fuel : Nat) :
    s.peekLoop n av (fuel + 1) = (if av < n then
      (if (if av = 0 then (true, s.dev) else s.dev.dataReady).1 then
        (IOBuf.fetch { s with dev := (if av = 0 then (true, s.dev) else s.dev.dataReady).2 } >>= fun q =>
          if q.1 = 0 then .ok (av, q.2) else q.2.peekLoop n (av + q.1) fuel)
      else .ok (av, { s with dev := (if av = 0 then (true, s.dev) else s.dev.dataReady).2 }))
      else .ok (av, s)) := rfl

theorem peekLoop_grows (fuel : Nat) : ∀ {s : IOBuf α} (n av : Nat), Inv s → av = s.rdend - s.rdpos →
    ∃ s', s.peekLoop n av fuel = .ok (s'.rdend - s'.rdpos, s') ∧ Inv s' ∧ s'.input = s.input ∧
      av ≤ s'.rdend - s'.rdpos := by
  induction fuel with
  | zero =>
    intro s n av hi h
    exact ⟨s, by rw [h]; rfl, hi, rfl, by omega⟩
  | succ fuel ih =>
    intro s n av hi h
    rw [peekLoop_succ s n av fuel]
    by_cases hn : av < n
    · rw [if_pos hn]
      have hd : ∃ b d, (if av = 0 then (true, s.dev) else s.dev.dataReady) = (b, d) ∧ d.src = s.dev.src := by
        by_cases h0 : av = 0
        · exact ⟨true, s.dev, by rw [if_pos h0], rfl⟩
        · exact ⟨_, _, by rw [if_neg h0], (dataReady_same s.dev).1⟩
      obtain ⟨b, d, ed, x1⟩ := hd
      rw [ed]
      have hi' : Inv { s with dev := d } := ⟨hi.pos, hi.r1, hi.r2, hi.w1, hi.w2, hi.res, fun h => by show d.src = []; rw [x1]; exact hi.fin h, hi.sep, hi.beg⟩
      have hin' : IOBuf.input { s with dev := d } = s.input := by
        show s.unread ++ d.src = _; rw [x1]; rfl
      cases b with
      | false => exact ⟨{ s with dev := d }, by simp [h], hi', hin', by show av ≤ s.rdend - s.rdpos; omega⟩
      | true =>
        obtain ⟨k, s1, e1, a1, in1, c1, p1, z1⟩ := fetch_ok hi'
        simp only [if_true, e1]
        show ∃ s', (if k = 0 then .ok (av, s1) else s1.peekLoop n (av + k) fuel) = _ ∧ _
        have c1' : s1.rdend - s1.rdpos = av + k := by rw [c1, h]
        by_cases hk : k = 0
        · subst hk
          exact ⟨s1, by rw [if_pos rfl, c1']; rfl, a1.inv, by rw [in1, hin'], by omega⟩
        · rw [if_neg hk]
          obtain ⟨s2, e2, i2, in2, c2⟩ := ih n (av + k) a1.inv c1'.symm
          exact ⟨s2, e2, i2, by rw [in2, in1, hin'], by omega⟩
    · rw [if_neg hn]
      exact ⟨s, by rw [h], hi, rfl, by omega⟩

theorem peekLoop_ok (fuel : Nat) : ∀ {s : IOBuf α} (n av : Nat), Inv s → av = s.rdend - s.rdpos →
    ∃ s', s.peekLoop n av fuel = .ok (s'.rdend - s'.rdpos, s') ∧ Asks s s' ∧ s'.input = s.input ∧
      (0 < n → 0 < fuel → s.input ≠ [] → 0 < s'.rdend - s'.rdpos) ∧ (n - av < fuel → s.peekLoop n av (fuel + 1) = s.peekLoop n av fuel) := by
  induction fuel with
  | zero =>
    intro s n av hi h
    exact ⟨s, by rw [h]; rfl, .refl hi, rfl, by omega, by omega⟩
  | succ fuel ih =>
    intro s n av hi h
    rw [peekLoop_succ s n av (fuel + 1), peekLoop_succ s n av fuel]
    by_cases hn : av < n
    · rw [if_pos hn, if_pos hn]
      have hd : ∃ b d, (if av = 0 then (true, s.dev) else s.dev.dataReady) = (b, d) ∧ d.src = s.dev.src ∧ d.out = s.dev.out ∧
          d.wscript = s.dev.wscript ∧ d.log = s.dev.log ∧ (av = 0 → b = true) := by
        by_cases h0 : av = 0
        · exact ⟨true, s.dev, by rw [if_pos h0], rfl, rfl, rfl, rfl, fun _ => rfl⟩
        · obtain ⟨x1, x2, x3, x4⟩ := dataReady_same s.dev
          exact ⟨_, _, by rw [if_neg h0], x1, x2, x3, x4, fun h => absurd h h0⟩
      obtain ⟨b, d, ed, x1, x2, x3, x4, x5⟩ := hd
      rw [ed]
      have hi' : Inv { s with dev := d } := ⟨hi.pos, hi.r1, hi.r2, hi.w1, hi.w2, hi.res, fun h => by show d.src = []; rw [x1]; exact hi.fin h, hi.sep, hi.beg⟩
      have hin' : IOBuf.input { s with dev := d } = s.input := by
        show s.unread ++ d.src = _; rw [x1]; rfl
      have ask0 : Asks s { s with dev := d } := ⟨hi', .of_same x2 x3 rfl, rfl, rfl, ⟨0, by simp [x4], by omega⟩, fun h => ⟨h, x2⟩⟩
      cases b with
      | false =>
        have h0 : av ≠ 0 := fun h => by have := x5 h; cases this
        refine ⟨{ s with dev := d }, by simp [h], ask0, hin', fun _ _ _ => ?_, fun _ => rfl⟩
        show 0 < s.rdend - s.rdpos; omega
      | true =>
        obtain ⟨k, s1, e1, a1, in1, c1, p1, z1⟩ := fetch_ok hi'
        simp only [if_true, e1]
        show ∃ s', (if k = 0 then .ok (av, s1) else s1.peekLoop n (av + k) fuel) = _ ∧ _
        have c1' : s1.rdend - s1.rdpos = av + k := by rw [c1, h]
        by_cases hk : k = 0
        · subst hk
          refine ⟨s1, by rw [if_pos rfl, c1']; rfl, ask0.trans a1, by rw [in1, hin'], ?_, fun _ => rfl⟩
          intro hn0 _ hne
          rcases z1 rfl with hfull | hsrc
          · obtain ⟨f1, f2⟩ := hfull
            have f1 : s.rdpos = 0 := f1
            have f2 : s.rdend = s.buff.length := f2
            have := hi.pos
            omega
          · by_cases hav : av = 0
            · exfalso; apply hne
              have hsrc : d.src = [] := hsrc
              show slice s.buff s.rdpos s.rdend ++ s.dev.src = []
              rw [slice_nil (by omega), ← x1, hsrc]; rfl
            · omega
        · rw [if_neg hk]
          obtain ⟨s2, e2, a2, in2, c2, m2⟩ := ih n (av + k) a1.inv c1'.symm
          refine ⟨s2, e2, (ask0.trans a1).trans a2, by rw [in2, in1, hin'], ?_, ?_⟩
          · intro _ _ _
            obtain ⟨s2', e2', _, _, g2⟩ := peekLoop_grows fuel n (av + k) a1.inv c1'.symm
            rw [e2] at e2'
            obtain rfl : s2 = s2' := (Prod.ext_iff.1 (Except.ok.inj e2')).2
            omega
          · intro hlt
            show (if k = 0 then .ok (av, s1) else s1.peekLoop n (av + k) (fuel + 1)) =
              (if k = 0 then .ok (av, s1) else s1.peekLoop n (av + k) fuel)
            rw [if_neg hk, if_neg hk]
            exact m2 (by omega)
    · rw [if_neg hn, if_neg hn]
      refine ⟨s, by rw [h], .refl hi, rfl, fun _ _ _ => by omega, fun _ => rfl⟩

/-- The bound on the rounds of the loop of `peek` is never met. -/
theorem peekLoop_fuel {s : IOBuf α} (hi : Inv s) (n m : Nat) :
    s.peekLoop n (s.rdend - s.rdpos) (n + 1 + m) = s.peekLoop n (s.rdend - s.rdpos) (n + 1) := by
  induction m with
  | zero => rfl
  | succ m ih =>
    obtain ⟨_, _, _, _, _, h⟩ := peekLoop_ok (n + 1 + m) n _ hi rfl
    rw [show n + 1 + (m + 1) = n + 1 + m + 1 by omega, h (by omega), ih]

/-- `peek`: like `read`, but nothing is taken away. -/
theorem peek_ok {s : IOBuf α} (hi : Inv s) (n : Nat) :
    ∃ l s', s.peek n = .ok (l, s') ∧ Asks s s' ∧ s'.input = s.input ∧ l <+: s.input ∧ l.length ≤ n ∧
      (l = [] → n = 0 ∨ s.input = []) := by
  obtain ⟨s1, e, a, hin, hp, _⟩ := peekLoop_ok (n + 1) n _ hi rfl
  have h1 := a.inv.r1
  have h2 := a.inv.r2
  have hk : min (s1.rdend - s1.rdpos) n ≤ s1.rdend - s1.rdpos := Nat.min_le_left _ _
  have hk2 : min (s1.rdend - s1.rdpos) n ≤ n := Nat.min_le_right _ _
  have hk3 : min (s1.rdend - s1.rdpos) n = 0 → s1.rdend - s1.rdpos = 0 ∨ n = 0 := by omega
  generalize hkk : min (s1.rdend - s1.rdpos) n = k at *
  have hlen : (slice s1.buff s1.rdpos (s1.rdpos + k)).length = k := by
    rw [slice_length (by omega)]; omega
  refine ⟨slice s1.buff s1.rdpos (s1.rdpos + k), s1, ?_, a, hin, ?_, by omega, ?_⟩
  · unfold IOBuf.peek
    rw [e]
    show (fromBuf s1.buff s1.rdpos (min (s1.rdend - s1.rdpos) n) >>= fun l => Except.ok (l, s1)) = _
    rw [hkk, fromBuf_ok (by omega)]; rfl
  · rw [← hin]
    show _ <+: slice s1.buff s1.rdpos s1.rdend ++ s1.dev.src
    rw [slice_split (p := s1.rdpos) (q := s1.rdpos + k) (r := s1.rdend) (by omega) (by omega), List.append_assoc]
    exact List.prefix_append _ _
  · intro h
    rw [h] at hlen; simp at hlen
    rcases hk3 hlen.symm with h0 | h0
    · by_cases hi0 : s.input = []
      · exact Or.inr hi0
      · by_cases hn : n = 0
        · exact Or.inl hn
        · have := hp (by omega) (by omega) hi0; omega
    · exact Or.inl h0

/-! ## Writing -/

/-- What an output operation leaves when it accepts `l`. -/
structure Writes (s s' : IOBuf α) (l : List α) : Prop where
  inv : Inv s'
  del : Delivers s s' l
  size : s'.buff.length = s.buff.length
  input : s'.input = s.input
  log : s'.dev.log = s.dev.log

theorem space_ok {s : IOBuf α} (hi : Inv s) (hf : ¬ s.Full) :
    ∃ lim, s.getWriteSpace = lim - s.wrpos ∧ s.wrpos ≤ lim ∧ lim ≤ s.buff.length ∧
      (s.rdpos = s.rdend ∨ s.rdend ≤ s.wrbeg ∨ (lim ≤ s.rdpos ∧ s.wrbeg < s.rdpos)) := by
  have h1 := hi.r1
  have h2 := hi.r2
  have h3 := hi.w1
  have h4 := hi.w2
  have h5 := hi.sep
  have hf' : ¬ (s.rdpos = 0 ∧ s.rdend = s.buff.length) := hf
  unfold IOBuf.getWriteSpace
  split
  · rename_i h
    exact ⟨s.rdpos, wsub_le (by omega), by omega, by omega, by omega⟩
  · rename_i h
    have : s.size = s.buff.length := rfl
    exact ⟨s.size, wsub_le (by omega), by omega, by omega, by omega⟩

theorem direct_ok {s : IOBuf α} (hi : Inv s) (hw : s.wrpos = s.wrbeg) (l : List α) :
    ∃ k s', s.direct l = (k, s') ∧ Writes s s' (l.take k) ∧ k ≤ l.length ∧ (k = 0 → l = [] ∨ s'.dev.Closed) := by
  obtain ⟨n, d, e, hn, ho, hs, hl, hsu, hc, hz⟩ := s.dev.write_ok l
  refine ⟨n, { s with dev := d }, by unfold IOBuf.direct; rw [e], ⟨⟨hi.pos, hi.r1, hi.r2, hi.w1, hi.w2, hi.res, fun h => by show d.src = []; rw [hs]; exact hi.fin h, hi.sep, hi.beg⟩, ⟨Or.inl ?_, ?_, hsu⟩, rfl, ?_, hl⟩, hn, hz⟩
  · have h1 : s.pending = [] := IOBuf.pending_nil hw
    have h2 : IOBuf.pending { s with dev := d } = [] := IOBuf.pending_nil hw
    rw [h1, h2]
    show d.out ++ [] = _
    rw [ho]; simp
  · intro h
    obtain ⟨_, h2⟩ := hc h
    show d.out = _ ∧ d.Closed
    rw [h2]; exact ⟨rfl, h⟩
  · show s.unread ++ d.src = _
    rw [hs]; rfl

theorem writeOnce_ok {s : IOBuf α} (hi : Inv s) (hf : ¬ s.Full) (l : List α)
    (h0 : s.getWriteSpace = 0 → s.wrpos = s.wrbeg) :
    ∃ k s', s.writeOnce l = .ok (k, s') ∧ Writes s s' (l.take k) ∧ k ≤ l.length ∧
      (k = 0 → l = [] ∨ s'.dev.Closed) := by
  obtain ⟨lim, hsp, hl1, hl2, hl3⟩ := space_ok hi hf
  by_cases hz : s.getWriteSpace = 0
  · obtain ⟨k, s', e, hw⟩ := direct_ok hi (h0 hz) l
    exact ⟨k, s', by unfold IOBuf.writeOnce; rw [if_pos hz, e], hw⟩
  · have e0 : s.writeOnce l = s.writeSome l s.getWriteSpace := by unfold IOBuf.writeOnce; rw [if_neg hz]
    rw [e0, hsp]
    by_cases hd : s.wrpos = s.wrbeg ∧ lim - s.wrpos ≤ l.length
    · obtain ⟨k, s', e, hw⟩ := direct_ok hi hd.1 l
      exact ⟨k, s', by unfold IOBuf.writeSome; rw [if_pos hd, e], hw⟩
    · have hk : (l.take (lim - s.wrpos)).length ≤ lim - s.wrpos := by simp; omega
      have hk2 : (l.take (lim - s.wrpos)).length ≤ l.length := by simp; omega
      have htk : l.take (l.take (lim - s.wrpos)).length = l.take (lim - s.wrpos) := by
        simp [List.take_eq_take_iff]
      have hk0 : (l.take (lim - s.wrpos)).length = 0 → l = [] := by
        intro h
        have : l.take (lim - s.wrpos) = [] := List.length_eq_zero_iff.1 h
        rw [List.take_eq_nil_iff] at this
        rcases this with h | h
        · omega
        · exact h
      rw [show (s.writeSome l (lim - s.wrpos)) = (toBuf s.buff s.wrpos (l.take (lim - s.wrpos)) >>= fun b => .ok ((l.take (lim - s.wrpos)).length, { s with buff := b, wrpos := s.wrpos + (l.take (lim - s.wrpos)).length })) by
        unfold IOBuf.writeSome; rw [if_neg hd]; rfl]
      generalize l.take (lim - s.wrpos) = m at *
      have hfit : s.wrpos + m.length ≤ s.buff.length := by omega
      have hlen := store_length hfit
      refine ⟨m.length, { s with buff := store s.buff s.wrpos m, wrpos := s.wrpos + m.length }, ?_, ⟨⟨?_, hi.r1, ?_, ?_, ?_, ?_, hi.fin, ?_, hi.beg⟩, ⟨Or.inl ?_, fun h => ⟨rfl, h⟩, List.suffix_refl _⟩, hlen, ?_, rfl⟩, hk2, fun h => Or.inl (hk0 h)⟩
      · rw [toBuf_ok hfit]; rfl
      · show 0 < (store _ _ _).length; rw [hlen]; exact hi.pos
      · show s.rdend ≤ (store _ _ _).length; rw [hlen]; exact hi.r2
      · show s.wrbeg ≤ s.wrpos + m.length; have := hi.w1; omega
      · show s.wrpos + m.length ≤ (store _ _ _).length; rw [hlen]; exact hfit
      · show s.writeReserve < (store _ _ _).length; rw [hlen]; exact hi.res
      · show s.rdpos = s.rdend ∨ s.rdend ≤ s.wrbeg ∨ (s.wrpos + m.length ≤ s.rdpos ∧ (s.wrbeg < s.rdpos ∨ (s.rdpos = 0 ∧ s.rdend = (store _ _ _).length)))
        omega
      · show s.dev.out ++ slice (store s.buff s.wrpos m) s.wrbeg (s.wrpos + m.length) = s.dev.out ++ slice s.buff s.wrbeg s.wrpos ++ _
        rw [slice_split hi.w1 (Nat.le_add_right _ _), slice_store_mid hfit, slice_store_before hfit (Nat.le_refl _), htk]; simp
      · show slice (store s.buff s.wrpos m) s.rdpos s.rdend ++ s.dev.src = slice s.buff s.rdpos s.rdend ++ s.dev.src
        congr 1
        rcases hl3 with h | h | h
        · rw [slice_nil (by omega), slice_nil (by omega)]
        · exact slice_store_before hfit (by have := hi.w1; omega)
        · exact slice_store_after hfit (by omega)

theorem write_ok {s : IOBuf α} (hi : Inv s) (hf : ¬ s.Full) (l : List α) :
    ∃ k s', s.write l = .ok (k, s') ∧ Writes s s' (l.take k) ∧ k ≤ l.length ∧
      (k = 0 → l = [] ∨ s'.dev.Closed) := by
  by_cases h : s.getWriteSpace = 0 ∧ s.wrpos > s.wrbeg
  · obtain ⟨s1, e1, i1, d1, w1, b1, sr1, l1, p1, q1, f1, v1, _, id1⟩ := intFlush_ok hi
    have hf1 : ¬ s1.Full := by
      unfold IOBuf.Full; rw [b1, p1, q1]; exact hf
    obtain ⟨k, s2, e2, w2, hk, hz⟩ := writeOnce_ok i1 hf1 l (fun _ => w1)
    refine ⟨k, s2, ?_, ⟨w2.inv, by have := d1.trans w2.del; simpa using this, by rw [w2.size, b1], ?_, by rw [w2.log, l1]⟩, hk, hz⟩
    · unfold IOBuf.write
      rw [if_pos h, e1]; exact e2
    · rw [w2.input]
      show slice _ _ _ ++ _ = slice _ _ _ ++ _
      rw [b1, p1, q1, sr1]
  · have hw := hi.w1
    obtain ⟨k, s2, e2, w2⟩ := writeOnce_ok hi hf l (fun h0 => by
      by_cases hx : s.wrpos > s.wrbeg
      · exact absurd ⟨h0, hx⟩ h
      · omega)
    exact ⟨k, s2, by unfold IOBuf.write; rw [if_neg h, e2], w2⟩

theorem flush_ok {s : IOBuf α} (hi : Inv s) :
    ∃ s', s.flush = .ok s' ∧ Writes s s' [] ∧ s'.pending = [] ∧ s'.rdpos = s.rdpos ∧ s'.rdend = s.rdend ∧
      s'.writeReserve = s.writeReserve := by
  obtain ⟨s1, e1, i1, d1, w1, b1, sr1, l1, p1, q1, f1, v1, _, _⟩ := intFlush_ok hi
  refine ⟨s1, e1, ⟨i1, d1, by rw [b1], ?_, l1⟩, IOBuf.pending_nil w1, p1, q1, v1⟩
  show slice _ _ _ ++ _ = slice _ _ _ ++ _
  rw [b1, p1, q1, sr1]

/-- Where `putBack` does no harm to the output. -/
def IOBuf.PutSafe (s : IOBuf α) : Prop := s.pending = [] ∨ s.wrpos < s.rdpos ∨ s.rdend ≤ s.wrbeg

theorem putBack_ok {s : IOBuf α} (hi : Inv s) (hs : s.PutSafe) (l : List α) :
    ∃ b s', s.putBack l = .ok (b, s') ∧ Inv s' ∧ Delivers s s' [] ∧ s'.buff.length = s.buff.length ∧
      s'.dev.log = s.dev.log ∧ s'.input = (if b then l ++ s.input else s.input) ∧
      (b = false → s.rdpos ≤ l.length) ∧ (s.pending = [] → s'.pending = [] ∧ s'.dev.out = s.dev.out) := by
  have h1 := hi.r1
  have h2 := hi.r2
  by_cases hsz : s.size - (s.rdend - s.rdpos) < l.length
  · refine ⟨false, s, by unfold IOBuf.putBack; rw [if_pos hsz], hi, .refl s, rfl, rfl, rfl, ?_, fun h => ⟨h, rfl⟩⟩
    intro _; unfold IOBuf.size at hsz; omega
  · by_cases hr : s.rdpos > l.length
    · have key : ∃ s1, s.putFlush l.length = .ok s1 ∧ Inv s1 ∧ Delivers s s1 [] ∧ s1.buff = s.buff ∧
          s1.dev.src = s.dev.src ∧ s1.dev.log = s.dev.log ∧ s1.rdpos = s.rdpos ∧ s1.rdend = s.rdend ∧
          (s1.wrpos = s1.wrbeg ∨ s1.wrpos + l.length ≤ s1.rdpos ∨ s1.rdend ≤ s1.wrbeg) ∧
          (s.pending = [] → s1.pending = [] ∧ s1.dev.out = s.dev.out) := by
        by_cases hfl : s.wrpos < s.rdpos ∧ s.wrpos + l.length > s.rdpos
        · obtain ⟨s1, e1, i1, d1, w1, b1, sr1, l1, p1, q1, f1, v1, _, id1⟩ := intFlush_ok hi
          exact ⟨s1, by unfold IOBuf.putFlush; rw [if_pos hfl, e1], i1, d1, b1, sr1, l1, p1, q1, Or.inl w1,
            fun h => ⟨IOBuf.pending_nil w1, id1 h⟩⟩
        · refine ⟨s, by unfold IOBuf.putFlush; rw [if_neg hfl], hi, .refl s, rfl, rfl, rfl, rfl, rfl, ?_, fun h => ⟨h, rfl⟩⟩
          rcases hs with h | h | h
          · left
            have : s.pending.length = s.wrpos - s.wrbeg := slice_length hi.w2
            rw [h] at this; simp at this
            have := hi.w1; omega
          · right; left; omega
          · right; right; omega
      obtain ⟨s1, e1, i1, d1, b1, sr1, lg1, p1, q1, hx, hidle⟩ := key
      have hfit : s1.rdpos - l.length + l.length ≤ s1.buff.length := by rw [b1, p1]; omega
      have hlen := store_length hfit
      have hsep := i1.sep
      have hw1 := i1.w1
      have hpend : slice (store s1.buff (s1.rdpos - l.length) l) s1.wrbeg s1.wrpos = s1.pending := by
        rcases hx with h | h | h
        · rw [slice_nil (by omega)]; exact (IOBuf.pending_nil h).symm
        · exact slice_store_before hfit (by omega)
        · exact slice_store_after hfit (by omega)
      refine ⟨true, { s1 with buff := store s1.buff (s1.rdpos - l.length) l, rdpos := s1.rdpos - l.length }, ?_,
        ⟨?_, ?_, ?_, i1.w1, ?_, ?_, i1.fin, ?_, i1.beg⟩, ?_, ?_, lg1, ?_, (by intro h; cases h), ?_⟩
      · unfold IOBuf.putBack
        rw [if_neg hsz, if_pos hr, e1]
        show (toBuf s1.buff (s1.rdpos - l.length) l >>= fun b => _) = _
        rw [toBuf_ok hfit]; rfl
      · show 0 < (store _ _ _).length; rw [hlen]; exact i1.pos
      · show s1.rdpos - l.length ≤ s1.rdend; omega
      · show s1.rdend ≤ (store _ _ _).length; rw [hlen]; exact i1.r2
      · show s1.wrpos ≤ (store _ _ _).length; rw [hlen]; exact i1.w2
      · show s1.writeReserve < (store _ _ _).length; rw [hlen]; exact i1.res
      · show s1.rdpos - l.length = s1.rdend ∨ s1.rdend ≤ s1.wrbeg ∨ (s1.wrpos ≤ s1.rdpos - l.length ∧ (s1.wrbeg < s1.rdpos - l.length ∨ (s1.rdpos - l.length = 0 ∧ s1.rdend = (store _ _ _).length)))
        have := i1.beg
        omega
      · have : Delivers s1 { s1 with buff := store s1.buff (s1.rdpos - l.length) l, rdpos := s1.rdpos - l.length } [] := .of_same rfl rfl hpend
        have := d1.trans this; simpa using this
      · show (store _ _ _).length = _; rw [hlen, b1]
      · show slice (store s1.buff (s1.rdpos - l.length) l) (s1.rdpos - l.length) s1.rdend ++ s1.dev.src = l ++ (slice s.buff s.rdpos s.rdend ++ s.dev.src)
        rw [slice_split (q := s1.rdpos - l.length + l.length) (by omega) (by omega), slice_store_mid hfit,
          slice_store_after hfit (Nat.le_refl _), show s1.rdpos - l.length + l.length = s1.rdpos by omega, sr1, q1, p1, b1, List.append_assoc]
      · intro h
        obtain ⟨x1, x2⟩ := hidle h
        exact ⟨by show slice _ _ _ = _; rw [hpend, x1], x2⟩
    · exact ⟨false, s, by unfold IOBuf.putBack; rw [if_neg hsz, if_neg hr], hi, .refl s, rfl, rfl, rfl, fun _ => by omega, fun h => ⟨h, rfl⟩⟩

/-! ## Programs -/

/-- The calls of the user. `peek n` asks for `n + 1` bytes; for zero bytes see `c75_peek0_violated`. -/
inductive Op (α : Type) where
  | read (n : Nat)
  | peek (n : Nat)
  | canRead
  | fetch
  | discard (n : Nat)
  | putBack (l : List α)
  | reserve (n : Nat)
  | write (l : List α)
  | flush

/-- What a call returns. -/
inductive Ret (α : Type) where
  | bytes (l : List α)
  | flag (b : Bool)
  | num (n : Nat)
  | unit
deriving DecidableEq

def IOBuf.op (s : IOBuf α) : Op α → Except Err (Ret α × IOBuf α)
  | .read n => do let r ← s.read n; return (.bytes r.1, r.2)
  | .peek n => do let r ← s.peek (n + 1); return (.bytes r.1, r.2)
  | .canRead => do let r ← s.canRead; return (.flag r.1, r.2)
  | .fetch => do let r ← s.fetch; return (.num r.1, r.2)
  | .discard n => .ok (.unit, s.discardInput n)
  | .putBack l => do let r ← s.putBack l; return (.flag r.1, r.2)
  | .reserve n => .ok (.unit, s.reserveWrite n)
  | .write l => do let r ← s.write l; return (.num r.1, r.2)
  | .flush => do let s ← s.flush; return (.unit, s)

def IOBuf.run (s : IOBuf α) : List (Op α) → Except Err (List (Ret α) × IOBuf α)
  | [] => .ok ([], s)
  | o :: os => do
    let r ← s.op o
    let q ← r.2.run os
    return (r.1 :: q.1, q.2)

/-- The two streams as the user sees them: the bytes to come, the bytes accepted, and how many bytes
the target had each time the source was asked. -/
structure View (α : Type) where
  inp : List α
  acc : List α
  log : List Nat

/-- The source was asked some times; all the accepted bytes had been sent before. -/
def Asked (sure : Prop) (v v' : View α) : Prop :=
  ∃ k m, v'.log = v.log ++ List.replicate k m ∧ (sure → m = v.acc.length) ∧ v'.acc = v.acc

/-- The specification of a call. `sure` says that the target does not close itself. -/
def Good (sure : Prop) (v : View α) : Op α → Ret α → View α → Prop
  | .read n, .bytes l, v' => l ++ v'.inp = v.inp ∧ l.length ≤ n ∧ (l = [] → n = 0 ∨ v.inp = []) ∧ Asked sure v v'
  | .peek n, .bytes l, v' =>
    v'.inp = v.inp ∧ l <+: v.inp ∧ l.length ≤ n + 1 ∧ (l = [] → v.inp = []) ∧ Asked sure v v'
  | .canRead, .flag b, v' => b = !v.inp.isEmpty ∧ v'.inp = v.inp ∧ Asked sure v v'
  | .fetch, .num _, v' => v'.inp = v.inp ∧ Asked sure v v'
  | .discard n, .unit, v' => ∃ k, k ≤ n ∧ v'.inp = v.inp.drop k ∧ v'.acc = v.acc ∧ v'.log = v.log
  | .putBack l, .flag b, v' => v'.inp = (if b then l ++ v.inp else v.inp) ∧ v'.acc = v.acc ∧ v'.log = v.log
  | .reserve _, .unit, v' => v'.inp = v.inp ∧ v'.acc = v.acc ∧ v'.log = v.log
  | .write l, .num k, v' => v'.inp = v.inp ∧ v'.acc = v.acc ++ l.take k ∧ k ≤ l.length ∧
      (sure → k = 0 → l = []) ∧ v'.log = v.log
  | .flush, .unit, v' => v'.inp = v.inp ∧ v'.acc = v.acc ∧ v'.log = v.log
  | _, _, _ => False

/-- The specification of a program. -/
inductive GoodRun (sure : Prop) : View α → List (Op α) → List (Ret α) → View α → Prop where
  | nil {v} : GoodRun sure v [] [] v
  | cons {v o r v1 os rs v2} : Good sure v o r v1 → GoodRun sure v1 os rs v2 →
      GoodRun sure v (o :: os) (r :: rs) v2

/-- The calls which run into `c77_violated` and its kin are left out. -/
def IOBuf.Safe (s : IOBuf α) : Op α → Prop
  | .write _ => ¬ s.Full
  | .putBack _ => s.PutSafe
  | _ => True

/-- Every call of the program is safe at its time. -/
def Guarded : IOBuf α → List (Op α) → Prop
  | _, [] => True
  | s, o :: os => s.Safe o ∧ ∀ r s', s.op o = .ok (r, s') → Guarded s' os

/-- The target has got the bytes `acc` but for those which wait in the buffer, or it has closed itself
and got only a part from the front. -/
def Tracks (s : IOBuf α) (acc : List α) : Prop :=
  s.dev.out ++ s.pending = acc ∨ (s.dev.Closed ∧ s.dev.out <+: acc)

theorem Tracks.step {s s' : IOBuf α} {acc l : List α} (h : Tracks s acc) (hd : Delivers s s' l) :
    Tracks s' (acc ++ l) := by
  rcases h with h | ⟨hc, hp⟩
  · rcases hd.eq with e | ⟨c, p⟩
    · left; rw [e, h]
    · right; exact ⟨c, by rw [h] at p; exact p⟩
  · obtain ⟨ho, hc'⟩ := hd.stay hc
    right; exact ⟨hc', by rw [ho]; exact hp.trans (List.prefix_append _ _)⟩

theorem Tracks.step0 {s s' : IOBuf α} {acc : List α} (h : Tracks s acc) (hd : Delivers s s' []) :
    Tracks s' acc := by simpa using h.step hd

theorem Tracks.prefix {s : IOBuf α} {acc : List α} (h : Tracks s acc) : s.dev.out <+: acc := by
  rcases h with h | ⟨_, h⟩
  · rw [← h]; exact List.prefix_append _ _
  · exact h

theorem Open.mono {d d' : Dev α} (h : d.Open) (hs : d'.wscript <:+ d.wscript) : d'.Open :=
  fun hm => h (hs.mem hm)

theorem Tracks.eq {s : IOBuf α} {acc : List α} (h : Tracks s acc) (ho : s.dev.Open) :
    s.dev.out ++ s.pending = acc := by
  rcases h with h | ⟨hc, _⟩
  · exact h
  · exact absurd hc ho.not_closed

theorem asked_of {s s' : IOBuf α} {acc : List α} {inp' : List α} (ht : Tracks s acc) (a : Asks s s') :
    Asked s.dev.Open ⟨s.input, acc, s.dev.log⟩ ⟨inp', acc, s'.dev.log⟩ := by
  obtain ⟨k, e, hp⟩ := a.log
  by_cases hk : k = 0
  · subst hk
    exact ⟨0, acc.length, by simpa using e, fun _ => rfl, rfl⟩
  · refine ⟨k, s'.dev.out.length, e, ?_, rfl⟩
    intro ho
    have := (ht.step0 a.del).eq (Open.mono ho a.del.suf)
    rw [hp (by omega), List.append_nil] at this
    rw [this]

theorem discard_ok {s : IOBuf α} (hi : Inv s) (n : Nat) :
    Inv (s.discardInput n) ∧ ∃ k, k ≤ n ∧ (s.discardInput n).input = s.input.drop k := by
  have h1 := hi.r1
  have h2 := hi.r2
  have hk : min n (s.rdend - s.rdpos) ≤ s.rdend - s.rdpos := Nat.min_le_right _ _
  have hk2 : min n (s.rdend - s.rdpos) ≤ n := Nat.min_le_left _ _
  unfold IOBuf.discardInput
  generalize min n (s.rdend - s.rdpos) = k at *
  refine ⟨⟨hi.pos, by show s.rdpos + k ≤ s.rdend; omega, h2, hi.w1, hi.w2, hi.res, hi.fin, ?_, hi.beg⟩, k, hk2, ?_⟩
  · show s.rdpos + k = s.rdend ∨ s.rdend ≤ s.wrbeg ∨ (s.wrpos ≤ s.rdpos + k ∧ (s.wrbeg < s.rdpos + k ∨ (s.rdpos + k = 0 ∧ s.rdend = s.buff.length)))
    have := hi.sep; have := hi.w1; omega
  · show slice s.buff (s.rdpos + k) s.rdend ++ s.dev.src = (slice s.buff s.rdpos s.rdend ++ s.dev.src).drop k
    have hl : (slice s.buff s.rdpos (s.rdpos + k)).length = k := by rw [slice_length (by omega)]; omega
    rw [slice_split (p := s.rdpos) (q := s.rdpos + k) (r := s.rdend) (by omega) (by omega), List.append_assoc]
    exact (List.drop_left' hl).symm

/-- A safe call does what the specification says. -/
theorem op_ok {s : IOBuf α} (hi : Inv s) {acc : List α} (ht : Tracks s acc) (o : Op α) (hs : s.Safe o) :
    ∃ r s' acc', s.op o = .ok (r, s') ∧ Inv s' ∧ Tracks s' acc' ∧ s'.dev.wscript <:+ s.dev.wscript ∧
      s'.buff.length = s.buff.length ∧
      Good s.dev.Open ⟨s.input, acc, s.dev.log⟩ o r ⟨s'.input, acc', s'.dev.log⟩ := by
  cases o with
  | read n =>
    obtain ⟨l, s', e, a, h1, h2, h3⟩ := read_ok hi n
    refine ⟨.bytes l, s', acc, ?_, a.inv, ht.step0 a.del, a.del.suf, a.size, h1, h2, h3, asked_of ht a⟩
    show (s.read n >>= fun r => _) = _
    rw [e]; rfl
  | peek n =>
    obtain ⟨l, s', e, a, h1, h2, h3, h4⟩ := peek_ok hi (n + 1)
    refine ⟨.bytes l, s', acc, ?_, a.inv, ht.step0 a.del, a.del.suf, a.size, h1, h2, h3, (fun h => (h4 h).resolve_left (Nat.succ_ne_zero n)), asked_of ht a⟩
    show (s.peek (n + 1) >>= fun r => _) = _
    rw [e]; rfl
  | canRead =>
    obtain ⟨s', e, a, h1⟩ := canRead_ok hi
    refine ⟨.flag _, s', acc, ?_, a.inv, ht.step0 a.del, a.del.suf, a.size, rfl, h1, asked_of ht a⟩
    show (s.canRead >>= fun r => _) = _
    rw [e]; rfl
  | fetch =>
    obtain ⟨k, s', e, a, h1, _⟩ := fetch_ok hi
    refine ⟨.num k, s', acc, ?_, a.inv, ht.step0 a.del, a.del.suf, a.size, h1, asked_of ht a⟩
    show (s.fetch >>= fun r => _) = _
    rw [e]; rfl
  | discard n =>
    obtain ⟨hi', k, hk, hin⟩ := discard_ok hi n
    exact ⟨.unit, _, acc, rfl, hi', ht, List.suffix_refl _, rfl, k, hk, hin, rfl, rfl⟩
  | putBack l =>
    obtain ⟨b, s', e, i', d', hsz, hl, hin, _⟩ := putBack_ok hi hs l
    refine ⟨.flag b, s', acc, ?_, i', ht.step0 d', d'.suf, hsz, hin, rfl, hl⟩
    show (s.putBack l >>= fun r => _) = _
    rw [e]; rfl
  | reserve n =>
    refine ⟨.unit, _, acc, rfl, ⟨hi.pos, hi.r1, hi.r2, hi.w1, hi.w2, ?_, hi.fin, hi.sep, hi.beg⟩, ht, List.suffix_refl _, rfl, rfl, rfl, rfl⟩
    show min n (s.buff.length / 2) < s.buff.length
    have := hi.pos; omega
  | write l =>
    obtain ⟨k, s', e, w, hk, hz⟩ := write_ok hi hs l
    refine ⟨.num k, s', acc ++ l.take k, ?_, w.inv, ht.step w.del, w.del.suf, w.size, w.input, rfl, hk, ?_, w.log⟩
    · show (s.write l >>= fun r => _) = _
      rw [e]; rfl
    · intro ho h0
      rcases hz h0 with h | h
      · exact h
      · exact absurd h (Open.mono ho w.del.suf).not_closed
  | flush =>
    obtain ⟨s', e, w, _⟩ := flush_ok hi
    refine ⟨.unit, s', acc, ?_, w.inv, ht.step0 w.del, w.del.suf, w.size, w.input, rfl, w.log⟩
    show (s.flush >>= fun r => _) = _
    rw [e]; rfl

theorem Good.weaken {p q : Prop} (h : q → p) {v v' : View α} {o : Op α} {r : Ret α} (hg : Good p v o r v') :
    Good q v o r v' := by
  have key : Asked p v v' → Asked q v v' := by
    rintro ⟨k, m, h1, h2, h3⟩; exact ⟨k, m, h1, fun x => h2 (h x), h3⟩
  cases o <;> cases r <;> simp only [Good] at hg ⊢ <;> try exact hg
  · exact ⟨hg.1, hg.2.1, hg.2.2.1, key hg.2.2.2⟩
  · exact ⟨hg.1, hg.2.1, hg.2.2.1, hg.2.2.2.1, key hg.2.2.2.2⟩
  · exact ⟨hg.1, hg.2.1, key hg.2.2⟩
  · exact ⟨hg.1, key hg.2⟩
  · exact ⟨hg.1, hg.2.1, hg.2.2.1, fun x => hg.2.2.2.1 (h x), hg.2.2.2.2⟩

theorem run_ok (os : List (Op α)) : ∀ {s : IOBuf α} {acc : List α} {sure : Prop}, Inv s → Tracks s acc →
    (sure → s.dev.Open) → Guarded s os →
    ∃ rs s' acc', s.run os = .ok (rs, s') ∧ Inv s' ∧ Tracks s' acc' ∧ (sure → s'.dev.Open) ∧
      GoodRun sure ⟨s.input, acc, s.dev.log⟩ os rs ⟨s'.input, acc', s'.dev.log⟩ := by
  induction os with
  | nil => intro s acc sure hi ht ho _; exact ⟨[], s, acc, rfl, hi, ht, ho, .nil⟩
  | cons o os ih =>
    intro s acc sure hi ht ho hg
    obtain ⟨r, s1, acc1, e1, i1, t1, su1, _, g1⟩ := op_ok hi ht o hg.1
    obtain ⟨rs, s2, acc2, e2, i2, t2, o2, g2⟩ := ih i1 t1 (fun h => Open.mono (ho h) su1) (hg.2 _ _ e1)
    refine ⟨r :: rs, s2, acc2, ?_, i2, t2, o2, .cons (g1.weaken ho) g2⟩
    show (s.op o >>= fun r => r.2.run os >>= fun q => .ok (r.1 :: q.1, q.2)) = _
    rw [e1]
    show (s1.run os >>= fun q => _) = _
    rw [e2]; rfl

theorem new_inv {b : List α} (hb : 0 < b.length) (d : Dev α) : Inv (IOBuf.new b d) :=
  ⟨hb, Nat.le_refl _, Nat.le_refl _, Nat.le_refl _, Nat.zero_le _, hb, (by intro h; cases h), Or.inl rfl, Or.inl rfl⟩

theorem new_input {b : List α} (d : Dev α) : (IOBuf.new b d).input = d.src := by
  show slice b b.length b.length ++ d.src = _
  rw [slice_nil (Nat.le_refl _)]; rfl

theorem new_pending {b : List α} (d : Dev α) : (IOBuf.new b d).pending = [] := slice_nil (Nat.le_refl _)

/-- C77. Missing: writes while unread input fills the whole buffer (`c77_violated`,
`c77_outside_violated`) and `putBack` onto pending output (`c77_putBack_violated`); `Guarded` leaves
these calls out. Every other program on a new buffer in front of a target which stays open runs without
undefined behaviour, delivers the source's bytes and accepts bytes as if there were no buffer; the
target has all accepted bytes but those in the buffer, once and in order, and had all of them whenever
the source was asked for data. -/
theorem c77_partial (b : List α) (hb : 0 < b.length) (d : Dev α) (ho : d.Open) (hout : d.out = [])
    (os : List (Op α)) (hg : Guarded (IOBuf.new b d) os) :
    ∃ rs s' acc, (IOBuf.new b d).run os = .ok (rs, s') ∧ s'.dev.out ++ s'.pending = acc ∧
      GoodRun True ⟨d.src, [], d.log⟩ os rs ⟨s'.input, acc, s'.dev.log⟩ := by
  obtain ⟨rs, s', acc, e, _, t, o, g⟩ := run_ok os (acc := []) (sure := True) (new_inv hb d)
    (Or.inl (by rw [new_pending]; show d.out ++ [] = []; rw [hout]; rfl)) (fun _ => ho) hg
  rw [new_input] at g
  exact ⟨rs, s', acc, e, t.eq (o trivial), g⟩

/-- A program which only reads, in any way. -/
def Op.isInput : Op α → Prop
  | .write _ => False
  | .flush => False
  | _ => True

theorem guarded_input (os : List (Op α)) : ∀ {s : IOBuf α}, Inv s → s.pending = [] → (∀ o ∈ os, o.isInput) →
    Guarded s os := by
  induction os with
  | nil => intro s _ _ _; trivial
  | cons o os ih =>
    intro s hi hp ho
    have hs : s.Safe o := by
      cases o with
      | write l => exact (ho _ (List.mem_cons_self ..)).elim
      | putBack l => exact Or.inl hp
      | _ => trivial
    refine ⟨hs, fun r s' e => ?_⟩
    have key : Inv s' ∧ s'.pending = [] := by
      cases o with
      | write l => exact (ho _ (List.mem_cons_self ..)).elim
      | flush => exact (ho _ (List.mem_cons_self ..)).elim
      | read n =>
        obtain ⟨l, s1, e1, a, _⟩ := read_ok hi n
        have e : (s.read n >>= fun r => Except.ok (Ret.bytes r.1, r.2)) = .ok (r, s') := e
        rw [e1] at e; cases e
        exact ⟨a.inv, (a.idle hp).1⟩
      | peek n =>
        obtain ⟨l, s1, e1, a, _⟩ := peek_ok hi (n + 1)
        have e : (s.peek (n + 1) >>= fun r => Except.ok (Ret.bytes r.1, r.2)) = .ok (r, s') := e
        rw [e1] at e; cases e
        exact ⟨a.inv, (a.idle hp).1⟩
      | canRead =>
        obtain ⟨s1, e1, a, _⟩ := canRead_ok hi
        have e : (s.canRead >>= fun r => Except.ok (Ret.flag r.1, r.2)) = .ok (r, s') := e
        rw [e1] at e; cases e
        exact ⟨a.inv, (a.idle hp).1⟩
      | fetch =>
        obtain ⟨k, s1, e1, a, _⟩ := fetch_ok hi
        have e : (s.fetch >>= fun r => Except.ok (Ret.num r.1, r.2)) = .ok (r, s') := e
        rw [e1] at e; cases e
        exact ⟨a.inv, (a.idle hp).1⟩
      | discard n => cases e; exact ⟨(discard_ok hi n).1, hp⟩
      | putBack l =>
        obtain ⟨b, s1, e1, i1, _, _, _, _, _, hid⟩ := putBack_ok hi (Or.inl hp) l
        have e : (s.putBack l >>= fun r => Except.ok (Ret.flag r.1, r.2)) = .ok (r, s') := e
        rw [e1] at e; cases e
        exact ⟨i1, (hid hp).1⟩
      | reserve n =>
        cases e
        refine ⟨⟨hi.pos, hi.r1, hi.r2, hi.w1, hi.w2, ?_, hi.fin, hi.sep, hi.beg⟩, hp⟩
        show min n (s.buff.length / 2) < s.buff.length
        have := hi.pos; omega
    exact ih key.1 key.2 (fun o h => ho o (List.mem_cons_of_mem _ h))

/-- C75: reading through the buffer in any way (`read`, `peek`, `canRead`, `fetch`, `discardInput`,
`putBack`, `reserveWrite`) is reading the source's bytes in order; what is put back comes next. -/
theorem c75 (b : List α) (hb : 0 < b.length) (d : Dev α) (os : List (Op α)) (hos : ∀ o ∈ os, o.isInput) :
    ∃ rs s' acc, (IOBuf.new b d).run os = .ok (rs, s') ∧
      GoodRun False ⟨d.src, d.out, d.log⟩ os rs ⟨s'.input, acc, s'.dev.log⟩ := by
  obtain ⟨rs, s', acc, e, _, _, _, g⟩ := run_ok os (acc := d.out) (sure := False) (new_inv hb d)
    (Or.inl (by rw [new_pending]; exact List.append_nil _)) (fun h => h.elim)
    (guarded_input os (new_inv hb d) (new_pending d) hos)
  rw [new_input] at g
  exact ⟨rs, s', acc, e, g⟩

/-- C75: bytes just read can always be put back, but for those at the very beginning of the buffer:
a call is refused only if not more bytes than that were taken from the buffer since it was filled. -/
theorem c75_putBack {s : IOBuf α} (hi : Inv s) (hp : s.pending = []) (l : List α) (hl : l.length < s.rdpos) :
    ∃ s', s.putBack l = .ok (true, s') ∧ s'.input = l ++ s.input := by
  obtain ⟨b, s', e, _, _, _, _, hin, hb, _⟩ := putBack_ok hi (Or.inl hp) l
  cases b with
  | false => have := hb rfl; omega
  | true => exact ⟨s', e, by simpa using hin⟩

/-- What the calls of `write` accepted. -/
def accepted : List (Op α) → List (Ret α) → List α
  | .write l :: os, .num k :: rs => l.take k ++ accepted os rs
  | _ :: os, _ :: rs => accepted os rs
  | _, _ => []

/-- A program which only writes. -/
def Op.isOutput : Op α → Prop
  | .write _ => True
  | .flush => True
  | _ => False

theorem GoodRun.accepted {p : Prop} {v v' : View α} {os : List (Op α)} {rs : List (Ret α)}
    (h : GoodRun p v os rs v') : v'.acc = v.acc ++ accepted os rs := by
  induction h with
  | nil => simp [IOBuffer.accepted]
  | cons g _ ih =>
    rename_i v o r v1 os rs v2 _
    rw [ih]
    cases o <;> cases r <;> simp only [Good] at g
    case write.num l k => simp [IOBuffer.accepted, g.2.1]
    case read.bytes => obtain ⟨_, _, _, _, _, _, _, h⟩ := g; simp [IOBuffer.accepted, h]
    case peek.bytes => obtain ⟨_, _, _, _, _, _, _, _, h⟩ := g; simp [IOBuffer.accepted, h]
    case canRead.flag => obtain ⟨_, _, _, _, _, _, h⟩ := g; simp [IOBuffer.accepted, h]
    case fetch.num => obtain ⟨_, _, _, _, _, h⟩ := g; simp [IOBuffer.accepted, h]
    case discard.unit => obtain ⟨_, _, _, h, _⟩ := g; simp [IOBuffer.accepted, h]
    case putBack.flag => obtain ⟨_, h, _⟩ := g; simp [IOBuffer.accepted, h]
    case reserve.unit => obtain ⟨_, h, _⟩ := g; simp [IOBuffer.accepted, h]
    case flush.unit => obtain ⟨_, h, _⟩ := g; simp [IOBuffer.accepted, h]

theorem intFlush_rd {s s' : IOBuf α} (hi : Inv s) (e : s.intFlush = .ok s') :
    s'.rdpos = s.rdpos ∧ s'.rdend = s.rdend := by
  obtain ⟨s1, e1, _, _, _, _, _, _, p1, q1, _⟩ := intFlush_ok hi
  rw [e1] at e; cases e; exact ⟨p1, q1⟩

theorem writeOnce_rd {s s' : IOBuf α} {l : List α} {k : Nat} (e : s.writeOnce l = .ok (k, s')) :
    s'.rdpos = s.rdpos ∧ s'.rdend = s.rdend := by
  unfold IOBuf.writeOnce at e
  split at e
  · cases e; exact ⟨rfl, rfl⟩
  · unfold IOBuf.writeSome at e
    split at e
    · cases e; exact ⟨rfl, rfl⟩
    · have e : (toBuf s.buff s.wrpos (l.take s.getWriteSpace) >>= fun b => Except.ok ((l.take s.getWriteSpace).length, { s with buff := b, wrpos := s.wrpos + (l.take s.getWriteSpace).length })) = .ok (k, s') := e
      cases hb : toBuf s.buff s.wrpos (l.take s.getWriteSpace) with
      | error x => rw [hb] at e; cases e
      | ok b => rw [hb] at e; cases e; exact ⟨rfl, rfl⟩

theorem write_rd {s s' : IOBuf α} (hi : Inv s) {l : List α} {k : Nat} (e : s.write l = .ok (k, s')) :
    s'.rdpos = s.rdpos ∧ s'.rdend = s.rdend := by
  unfold IOBuf.write at e
  split at e
  · obtain ⟨s1, e1, _⟩ := intFlush_ok hi
    obtain ⟨h1, h2⟩ := intFlush_rd hi e1
    rw [e1] at e
    obtain ⟨h3, h4⟩ := writeOnce_rd (s := s1) e
    exact ⟨by rw [h3, h1], by rw [h4, h2]⟩
  · exact writeOnce_rd e

theorem guarded_output (os : List (Op α)) : ∀ {s : IOBuf α}, Inv s → s.rdpos = s.rdend →
    (∀ o ∈ os, o.isOutput) → Guarded s os := by
  induction os with
  | nil => intro s _ _ _; trivial
  | cons o os ih =>
    intro s hi hr ho
    have h0 := ho _ (List.mem_cons_self ..)
    have hrest := fun o h => ho o (List.mem_cons_of_mem _ h)
    have hf : ¬ s.Full := by
      rintro ⟨h1, h2⟩; have := hi.pos; omega
    cases o with
    | write l =>
      refine ⟨hf, fun r s' e => ?_⟩
      obtain ⟨k, s1, e1, w, _⟩ := write_ok hi hf l
      obtain ⟨h1, h2⟩ := write_rd hi e1
      have e : (s.write l >>= fun r => Except.ok (Ret.num r.1, r.2)) = .ok (r, s') := e
      rw [e1] at e; cases e
      exact ih w.inv (by rw [h1, h2, hr]) hrest
    | flush =>
      refine ⟨trivial, fun r s' e => ?_⟩
      obtain ⟨s1, e1, w, _, h1, h2, _⟩ := flush_ok hi
      have e : (s.flush >>= fun s => Except.ok (Ret.unit, s)) = .ok (r, s') := e
      rw [e1] at e; cases e
      exact ih w.inv (by rw [h1, h2, hr]) hrest
    | _ => exact h0.elim

/-- C76: writing through the buffer. The target gets the accepted bytes once and in order whatever
parts of the blocks it takes; if it closes itself, it has got a part from the front. While it stays
open, every write accepts something, and only the bytes in the buffer are still on the way. -/
theorem c76 (b : List α) (hb : 0 < b.length) (d : Dev α) (hout : d.out = []) (os : List (Op α))
    (hos : ∀ o ∈ os, o.isOutput) :
    ∃ rs s', (IOBuf.new b d).run os = .ok (rs, s') ∧ s'.dev.out <+: accepted os rs ∧
      (d.Open → s'.dev.out ++ s'.pending = accepted os rs) ∧
      GoodRun d.Open ⟨d.src, [], d.log⟩ os rs ⟨d.src, accepted os rs, d.log⟩ := by
  obtain ⟨rs, s', acc, e, _, t, o, g⟩ := run_ok os (acc := []) (sure := d.Open) (new_inv hb d)
    (Or.inl (by rw [new_pending]; show d.out ++ [] = []; rw [hout]; rfl)) (fun h => h)
    (guarded_output os (new_inv hb d) rfl hos)
  rw [new_input] at g
  have ha : acc = accepted os rs := by have := g.accepted; simpa using this
  have hv : s'.input = d.src ∧ s'.dev.log = d.log := by
    have : ∀ {v v' : View α} {os : List (Op α)} {rs : List (Ret α)}, GoodRun d.Open v os rs v' → (∀ o ∈ os, o.isOutput) →
        v'.inp = v.inp ∧ v'.log = v.log := by
      intro v v' os rs g
      induction g with
      | nil => intro _; exact ⟨rfl, rfl⟩
      | cons g _ ih =>
        rename_i v o r v1 os rs v2 _
        intro ho
        obtain ⟨h1, h2⟩ := ih (fun o h => ho o (List.mem_cons_of_mem _ h))
        have h0 := ho _ (List.mem_cons_self ..)
        rw [h1, h2]
        cases o <;> cases r <;> simp only [Good] at g <;> first | exact h0.elim | exact ⟨g.1, g.2.2⟩ | exact ⟨g.1, g.2.2.2.2⟩
    have := this g hos
    exact this
  rw [hv.1, hv.2, ha] at g
  exact ⟨rs, s', e, by rw [← ha]; exact t.prefix, fun h => by rw [← ha]; exact t.eq (o h), g⟩

/-- C76: after `flush` an open target has everything. -/
theorem c76_flush {s : IOBuf α} (hi : Inv s) (ho : s.dev.Open) :
    ∃ s', s.flush = .ok s' ∧ s'.pending = [] ∧ s'.dev.out = s.dev.out ++ s.pending ∧ s'.input = s.input := by
  obtain ⟨s', e, w, hp, _⟩ := flush_ok hi
  refine ⟨s', e, hp, ?_, w.input⟩
  rcases w.del.eq with h | ⟨h, _⟩
  · rw [hp] at h; simpa using h
  · exact absurd h (Open.mono ho w.del.suf).not_closed

/-- C77 is violated: `canRead` fills the buffer with input, a write overwrites it. -/
theorem c77_violated :
    ((IOBuf.new [0, 0, 0, 0] { src := [1, 2, 3, 4, 5] }).run [.canRead, .write [9], .read 4]).toOption.map (·.1) =
      some [Ret.flag true, .num 1, .bytes [9, 2, 3, 4]] := by decide

/-- C77 is violated: the same start, then the free space is computed as a huge number and the next
write goes beyond the buffer. -/
theorem c77_outside_violated :
    (match (IOBuf.new [0, 0, 0, 0] { src := [1, 2, 3, 4, 5] }).run [.canRead, .write [9, 9, 9], .read 1, .write [7, 7, 7]] with
     | .error .ub => true
     | _ => false) = true := by decide

/-- C77 is violated: `putBack` overwrites bytes waiting for the target, which gets 5 instead of 9. -/
theorem c77_putBack_violated :
    ((IOBuf.new [0, 0, 0, 0] { src := [1, 2, 3, 4] }).run
      [.read 2, .write [8], .write [9], .putBack [5], .flush]).toOption.map (fun r => (r.1, r.2.dev.out)) =
    some ([Ret.bytes [1, 2], .num 1, .num 1, .flag true, .unit], [8, 5]) := by decide

/-- C75 is violated by `peek` of zero bytes, which returns the negative of the count of buffered bytes. -/
theorem c75_peek0_violated :
    ((IOBuf.new [0, 0, 0, 0] { src := [1, 2, 3] }).peek0).toOption.map (·.1) = some (2 ^ 64 - 3) := by decide

/-- A mixed program: reading, writing and putting back with scripts. -/
example : ((IOBuf.new [0, 0, 0, 0, 0, 0, 0, 0]
      { src := [1, 2, 3, 4, 5, 6, 7, 8, 9, 10], rscript := [3, 1], wscript := [1, 2, 1] }).run
    [.write [50, 51], .read 2, .write [52], .putBack [77], .peek 2, .read 5, .read 5, .write [53], .read 5, .flush]).toOption.map
      (fun r => (r.1, r.2.dev.out, r.2.dev.log)) =
    some ([Ret.num 2, .bytes [1, 2], .num 1, .flag true, .bytes [77, 3, 4], .bytes [77, 3, 4], .bytes [5, 6], .num 1,
      .bytes [7, 8, 9, 10], .unit], [50, 51, 52, 53], [2, 3, 4]) := by decide

end LS.IOBuffer

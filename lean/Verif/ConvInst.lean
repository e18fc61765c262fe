import Verif.ConvProps
import Verif.Base64
import Verif.Base32
import Verif.Base16
import Verif.Base85
import Verif.UrlEncode
import Verif.Utf
/-!
# C12 for the converters of the library

The hypotheses of `Conv.c12_write` and `Conv.c12_read` hold for the converters modelled.
-/

namespace LS.Conv
variable {σ α β : Type} {c : Conv σ α β}

/-- `flush` does nothing. -/
theorem flushOnce_id (h : ∀ s, c.flush s = some s) : c.FlushOnce := by
  intro s sf n o s3 hi hf hd
  exact ⟨s3, h s3, c.drain_post hd⟩

/-- `flush` keeps the flag `hasItems`. -/
theorem flushOnce_keep (h : ∀ s, ∃ s', c.flush s = some s' ∧ c.hasItems s' = c.hasItems s) :
    c.FlushOnce := by
  intro s sf n o s3 hi hf hd
  obtain ⟨s', h1, h2⟩ := h s3
  exact ⟨s', h1, by rw [h2]; exact c.drain_post hd⟩

/-- `flush` sets a mark which `getNext` keeps, and does nothing if it is set. -/
theorem flushOnce_mark (J : σ → Prop) (h1 : ∀ s s', c.flush s = some s' → J s')
    (h2 : ∀ s x s', J s → c.getNext s = some (x, s') → J s')
    (h3 : ∀ s, J s → c.hasItems s = false → ∃ s', c.flush s = some s' ∧ c.hasItems s' = false) :
    c.FlushOnce := by
  have key : ∀ n s o s', J s → c.drain n s = some (o, s') → J s' := by
    intro n
    induction n with
    | zero =>
      intro s o s' hJ hd
      rw [drain] at hd
      split at hd
      · cases hd
      · cases hd; exact hJ
    | succ n ih =>
      intro s o s' hJ hd
      rw [drain] at hd
      split at hd
      · split at hd
        · cases hd
        · next hg =>
          split at hd
          · cases hd
          · next hd2 => cases hd; exact ih _ _ _ (h2 _ _ _ hJ hg) hd2
      · cases hd; exact hJ
  intro s sf n o s3 hi hf hd
  exact h3 s3 (key _ _ _ _ (h1 _ _ hf) hd) (c.drain_post hd)

/-- `flush` does nothing. -/
theorem flushEarly_id (h : ∀ s, c.flush s = some s) : c.FlushEarly := by
  intro n s o s2 o2 s3 hd hf
  have hi := c.drain_post hd
  simp only [flushToIter, h, c.drain_idle hi] at hf
  cases hf
  exact ⟨n, s, h s, by simpa using hd⟩

end LS.Conv

namespace LS

theorem Utf.enc_quiet : Utf.enc.Quiet (fun s => s.eolb = false) (fun _ => True) where
  eolb _ h := h
  write s a s' hs _ h := by
    simp only [Utf.enc, Utf.Enc.write] at h
    cases h; exact hs
  getNext s x s' hs h := by
    simp only [Utf.enc, Utf.Enc.getNext] at h
    split at h
    · cases h
    · split at h
      · cases h
      · cases h; exact hs

theorem Utf.enc_once : Utf.enc.FlushOnce := Conv.flushOnce_id fun _ => rfl

theorem Utf.dec_quiet : Utf.dec.Quiet (fun s => s.eolb = false) (fun _ => True) where
  eolb _ h := h
  write s a s' hs _ h := by
    simp only [Utf.dec, Utf.Dec.write] at h
    repeat' split at h
    all_goals first
      | (cases h; exact hs)
      | (cases h; rfl)
      | (cases h; done)
  getNext s x s' hs h := by
    simp only [Utf.dec, Utf.Dec.getNext] at h
    split at h
    · cases h
    · cases h; exact hs

theorem Utf.dec_once : Utf.dec.FlushOnce := Conv.flushOnce_id fun _ => rfl

theorem UrlEncode.enc_quiet : UrlEncode.enc.Quiet (fun s => s.eolb = false) (fun _ => True) where
  eolb _ h := h
  write s a s' hs _ h := by
    simp only [UrlEncode.enc, UrlEncode.Enc.write] at h
    repeat' split at h
    all_goals first
      | (cases h; exact hs)
      | (cases h; rfl)
      | (cases h; done)
  getNext s x s' hs h := by
    simp only [UrlEncode.enc, UrlEncode.Enc.getNext] at h
    repeat' split at h
    all_goals first
      | (cases h; exact hs)
      | (cases h; rfl)
      | (cases h; done)

theorem UrlEncode.enc_once : UrlEncode.enc.FlushOnce := Conv.flushOnce_id fun _ => rfl

theorem UrlEncode.dec_quiet : UrlEncode.dec.Quiet (fun s => s.eolb = false) (fun _ => True) where
  eolb _ h := h
  write s a s' hs _ h := by
    simp only [UrlEncode.dec, UrlEncode.Dec.write] at h
    repeat' split at h
    all_goals first
      | (cases h; exact hs)
      | (cases h; rfl)
      | (cases h; done)
  getNext s x s' hs h := by
    simp only [UrlEncode.dec, UrlEncode.Dec.getNext] at h
    repeat' split at h
    all_goals first
      | (cases h; exact hs)
      | (cases h; rfl)
      | (cases h; done)

theorem UrlEncode.dec_once : UrlEncode.dec.FlushOnce := Conv.flushOnce_id fun _ => rfl

theorem Base16.enc_quiet : Base16.enc.Quiet (fun s => s.eolb = false) (fun _ => True) where
  eolb _ h := h
  write s a s' hs _ h := by
    simp only [Base16.enc, Base16.Enc.write] at h
    repeat' split at h
    all_goals first
      | (cases h; exact hs)
      | (cases h; rfl)
      | (cases h; done)
  getNext s x s' hs h := by
    simp only [Base16.enc, Base16.Enc.getNext] at h
    repeat' split at h
    all_goals first
      | (cases h; exact hs)
      | (cases h; rfl)
      | (cases h; done)

theorem Base16.enc_once : Base16.enc.FlushOnce := Conv.flushOnce_id fun _ => rfl

theorem Base16.dec_quiet : Base16.dec.Quiet (fun s => s.eolb = false) (fun _ => True) where
  eolb _ h := h
  write s a s' hs _ h := by
    simp only [Base16.dec, Base16.Dec.write] at h
    repeat' split at h
    all_goals first
      | (cases h; exact hs)
      | (cases h; rfl)
      | (cases h; done)
  getNext s x s' hs h := by
    simp only [Base16.dec, Base16.Dec.getNext] at h
    repeat' split at h
    all_goals first
      | (cases h; exact hs)
      | (cases h; rfl)
      | (cases h; done)

theorem Base16.dec_once : Base16.dec.FlushOnce := by
  refine Conv.flushOnce_mark (fun s => s.wrpos ≠ 1) ?_ ?_ ?_
  · intro s s' h
    simp only [Base16.dec, Base16.Dec.flush, Base16.Dec.write] at h
    split at h
    · next hw =>
      repeat' split at h
      all_goals first
        | (exfalso; omega)
        | (cases h; simp; done)
        | (cases h; done)
    · next hw => cases h; exact hw
  · intro s x s' hs h
    simp only [Base16.dec, Base16.Dec.getNext] at h
    repeat' split at h
    all_goals first
      | (cases h; exact hs)
      | (cases h; rfl)
      | (cases h; done)
  · intro s hs hi
    exact ⟨s, by simp [Base16.dec, Base16.Dec.flush, hs], hi⟩

theorem Base64.enc_quiet : Base64.enc.Quiet (fun s => s.eolb = false) (fun _ => True) where
  eolb _ h := h
  write s a s' hs _ h := by
    simp only [Base64.enc, Base64.Enc.write, hs, Bool.false_eq_true, if_false] at h
    repeat' split at h
    all_goals first
      | (cases h; exact hs)
      | (cases h; rfl)
      | (cases h; done)
  getNext s x s' hs h := by
    simp only [Base64.enc, Base64.Enc.getNext] at h
    repeat' split at h
    all_goals first
      | (cases h; exact hs)
      | (cases h; rfl)
      | (cases h; done)

theorem Base64.enc_once : Base64.enc.FlushOnce := by
  refine Conv.flushOnce_mark (fun s => s.eolb = true) ?_ ?_ ?_
  · intro s s' h
    simp only [Base64.enc, Base64.Enc.flush] at h
    split at h
    · cases h; assumption
    · repeat' split at h
      all_goals first
        | (cases h; rfl)
        | (cases h; done)
  · intro s x s' hs h
    simp only [Base64.enc, Base64.Enc.getNext] at h
    repeat' split at h
    all_goals first
      | (cases h; exact hs)
      | (cases h; rfl)
      | (cases h; done)
  · intro s hs hi
    exact ⟨s, by simp [Base64.enc, Base64.Enc.flush, hs], hi⟩

theorem Base64.dec_quiet (p : Nat) :
    Base64.dec.Quiet (fun s => s.eolb = false ∧ s.padChar = p) (fun a => a ≠ p) where
  eolb _ h := h.1
  write s a s' hs ha h := by
    simp only [Base64.dec, Base64.Dec.write, hs.1, hs.2, ha, Bool.false_eq_true, if_false] at h
    repeat' split at h
    all_goals first
      | (cases h; exact ⟨rfl, rfl⟩)
      | (cases h; done)
  getNext s x s' hs h := by
    simp only [Base64.dec, Base64.Dec.getNext] at h
    repeat' split at h
    all_goals first
      | (cases h; exact hs)
      | (cases h; rfl)
      | (cases h; done)

theorem Base64.dec_once : Base64.dec.FlushOnce :=
  Conv.flushOnce_keep fun s => ⟨{ s with eolb := true }, rfl, rfl⟩

theorem Base32.enc_quiet : Base32.enc.Quiet (fun s => s.eolb = false) (fun _ => True) where
  eolb _ h := h
  write s a s' hs _ h := by
    simp only [Base32.enc, Base32.Enc.write, hs, Bool.false_eq_true, if_false] at h
    repeat' split at h
    all_goals first
      | (cases h; exact hs)
      | (cases h; rfl)
      | (cases h; done)
  getNext s x s' hs h := by
    simp only [Base32.enc, Base32.Enc.getNext] at h
    repeat' split at h
    all_goals first
      | (cases h; exact hs)
      | (cases h; rfl)
      | (cases h; done)

theorem Base32.enc_once : Base32.enc.FlushOnce := by
  refine Conv.flushOnce_mark (fun s => s.eolb = true) ?_ ?_ ?_
  · intro s s' h
    simp only [Base32.enc, Base32.Enc.flush] at h
    split at h
    · cases h; assumption
    · repeat' split at h
      all_goals first
        | (cases h; rfl)
        | (cases h; done)
  · intro s x s' hs h
    simp only [Base32.enc, Base32.Enc.getNext] at h
    repeat' split at h
    all_goals first
      | (cases h; exact hs)
      | (cases h; rfl)
      | (cases h; done)
  · intro s hs hi
    exact ⟨s, by simp [Base32.enc, Base32.Enc.flush, hs], hi⟩

theorem Base32.dec_quiet (p : Nat) :
    Base32.dec.Quiet (fun s => s.eolb = false ∧ s.padChar = p) (fun a => a ≠ p) where
  eolb _ h := h.1
  write s a s' hs ha h := by
    simp only [Base32.dec, Base32.Dec.write, hs.1, hs.2, ha, Bool.false_eq_true, if_false] at h
    repeat' split at h
    all_goals first
      | (cases h; exact ⟨rfl, rfl⟩)
      | (cases h; done)
  getNext s x s' hs h := by
    simp only [Base32.dec, Base32.Dec.getNext] at h
    repeat' split at h
    all_goals first
      | (cases h; exact hs)
      | (cases h; rfl)
      | (cases h; done)

theorem Base32.dec_once : Base32.dec.FlushOnce :=
  Conv.flushOnce_keep fun s => ⟨{ s with eolb := true }, rfl, rfl⟩

theorem Base85.enc_quiet : Base85.enc.Quiet (fun s => s.eolb = false) (fun _ => True) where
  eolb _ h := h
  write s a s' hs _ h := by
    simp only [Base85.enc, Base85.Enc.write, hs, Bool.false_eq_true, if_false] at h
    repeat' split at h
    all_goals first
      | (cases h; exact hs)
      | (cases h; rfl)
      | (cases h; done)
  getNext s x s' hs h := by
    simp only [Base85.enc, Base85.Enc.getNext, Base85.Enc.reset] at h
    repeat' split at h
    all_goals first
      | (cases h; exact hs)
      | (cases h; rfl)
      | (cases h; done)

theorem Base85.enc_once : Base85.enc.FlushOnce := by
  refine Conv.flushOnce_mark (fun s => s.eolb = true) ?_ ?_ ?_
  · intro s s' h
    simp only [Base85.enc, Base85.Enc.flush] at h
    split at h
    · cases h; assumption
    · cases h; rfl
  · intro s x s' hs h
    simp only [Base85.enc, Base85.Enc.getNext, Base85.Enc.reset] at h
    repeat' split at h
    all_goals first
      | (cases h; exact hs)
      | (cases h; rfl)
      | (cases h; done)
  · intro s hs hi
    exact ⟨s, by simp [Base85.enc, Base85.Enc.flush, hs], hi⟩

theorem Base85.dec_quiet : Base85.dec.Quiet (fun s => s.eolb = false) (fun _ => True) where
  eolb _ h := h
  write s a s' hs _ h := by
    simp only [Base85.dec, Base85.Dec.write, hs, Bool.false_eq_true, if_false] at h
    repeat' split at h
    all_goals first
      | (cases h; exact hs)
      | (cases h; rfl)
      | (cases h; done)
  getNext s x s' hs h := by
    simp only [Base85.dec, Base85.Dec.getNext, Base85.Dec.reset] at h
    repeat' split at h
    all_goals first
      | (cases h; exact hs)
      | (cases h; rfl)
      | (cases h; done)

theorem Base85.pad_idle {k : Nat} {s : Base85.Dec} (h : s.eolb = false) (hw : s.wrpos + k < 5)
    (hi : s.hasItems = false) :
    ∃ s', Base85.Dec.writePad k s = some s' ∧ s'.hasItems = false ∧ s'.maxreadpos = s.maxreadpos := by
  induction k generalizing s with
  | zero => exact ⟨s, rfl, hi, rfl⟩
  | succ k ih =>
    have e : s.write 35 = some
        { s with accum := (s.accum * 85 + 84) % 4294967296, wrpos := s.wrpos + 1 } := by
      have : s.wrpos ≠ 4 := by omega
      simp only [Base85.Dec.write, h, Base85.decoder]
      simp [this, h]
    simp only [Base85.Dec.writePad, e]
    exact ih h (by simp; omega) hi

theorem Base85.dec_once : Base85.dec.FlushOnce := by
  refine Conv.flushOnce_mark (fun s => s.eolb = true ∧ (s.wrpos = 0 ∨ s.maxreadpos.isSome)) ?_ ?_ ?_
  · intro s s' h
    simp only [Base85.dec, Base85.Dec.flush] at h
    repeat' split at h
    · cases h
    · cases h
    · cases h; exact ⟨rfl, .inr rfl⟩
    · next hw => cases h; exact ⟨rfl, .inl (by simpa using hw)⟩
  · intro s x s' hs h
    simp only [Base85.dec, Base85.Dec.getNext, Base85.Dec.reset] at h
    split at h
    · next hm =>
      split at h
      · cases h; exact ⟨hs.1, .inl rfl⟩
      · cases h; exact ⟨hs.1, .inr (by simp [hm])⟩
    · cases h
  · intro s hs hi
    simp only [Base85.dec, Base85.Dec.flush] at hi ⊢
    split
    · next hw =>
      obtain ⟨m, hm⟩ := Option.isSome_iff_exists.1 (hs.2.resolve_left hw)
      have : ∃ s', Base85.Dec.writePad (5 - s.wrpos) s = some s' ∧ s'.hasItems = false ∧
          s'.maxreadpos = s.maxreadpos := by
        cases hk : 5 - s.wrpos with
        | zero => exact ⟨s, rfl, hi, rfl⟩
        | succ k =>
          have e : s.write 35 = some
              { s with eolb := false, readpos := 0, needItems := true, hasItems := false, accum := 84
                       wrpos := 1 } := by
            simp only [Base85.Dec.write, hs.1, Base85.decoder, Base85.Dec.reset]
            simp
          simp only [Base85.Dec.writePad, e]
          exact Base85.pad_idle rfl (by simp; omega) rfl
      obtain ⟨s', g1, g2, g3⟩ := this
      simp only [g1, g3, hm]
      exact ⟨_, rfl, g2⟩
    · exact ⟨_, rfl, hi⟩

/-- C12 for the library: for each converter and any division of the input into blocks, block writes
(`runBlocks`) give what single writes (`run`) give, and reading through an iterator gives the same.
The input of the Base64 and Base32 decoders is without the padding character (see `Conv.c12_blocks`
and `Conv.c12_pull` for input with it). -/
theorem c12_library :
    (∀ {s : Base64.Enc}, s.eolb = false → s.hasItems = false → ∀ ls fuel,
      Base64.enc.runBlocks fuel s ls = Base64.enc.run fuel s ls.flatten ∧
      ∀ out N, Base64.enc.run fuel s ls.flatten = some out → out.length < N →
        Base64.enc.readAll N s ls.flatten = some (out, [])) ∧
    (∀ {s : Base64.Dec}, s.eolb = false → s.hasItems = false → ∀ ls fuel,
      (∀ a ∈ ls.flatten, a ≠ s.padChar) →
      Base64.dec.runBlocks fuel s ls = Base64.dec.run fuel s ls.flatten ∧
      ∀ out N, Base64.dec.run fuel s ls.flatten = some out → out.length < N →
        Base64.dec.readAll N s ls.flatten = some (out, [])) ∧
    (∀ {s : Base32.Enc}, s.eolb = false → s.hasItems = false → ∀ ls fuel,
      Base32.enc.runBlocks fuel s ls = Base32.enc.run fuel s ls.flatten ∧
      ∀ out N, Base32.enc.run fuel s ls.flatten = some out → out.length < N →
        Base32.enc.readAll N s ls.flatten = some (out, [])) ∧
    (∀ {s : Base32.Dec}, s.eolb = false → s.hasItems = false → ∀ ls fuel,
      (∀ a ∈ ls.flatten, a ≠ s.padChar) →
      Base32.dec.runBlocks fuel s ls = Base32.dec.run fuel s ls.flatten ∧
      ∀ out N, Base32.dec.run fuel s ls.flatten = some out → out.length < N →
        Base32.dec.readAll N s ls.flatten = some (out, [])) ∧
    (∀ {s : Base16.Enc}, s.eolb = false → s.hasItems = false → ∀ ls fuel,
      Base16.enc.runBlocks fuel s ls = Base16.enc.run fuel s ls.flatten ∧
      ∀ out N, Base16.enc.run fuel s ls.flatten = some out → out.length < N →
        Base16.enc.readAll N s ls.flatten = some (out, [])) ∧
    (∀ {s : Base16.Dec}, s.eolb = false → s.hasItems = false → ∀ ls fuel,
      Base16.dec.runBlocks fuel s ls = Base16.dec.run fuel s ls.flatten ∧
      ∀ out N, Base16.dec.run fuel s ls.flatten = some out → out.length < N →
        Base16.dec.readAll N s ls.flatten = some (out, [])) ∧
    (∀ {s : Base85.Enc}, s.eolb = false → s.hasItems = false → ∀ ls fuel,
      Base85.enc.runBlocks fuel s ls = Base85.enc.run fuel s ls.flatten ∧
      ∀ out N, Base85.enc.run fuel s ls.flatten = some out → out.length < N →
        Base85.enc.readAll N s ls.flatten = some (out, [])) ∧
    (∀ {s : Base85.Dec}, s.eolb = false → s.hasItems = false → ∀ ls fuel,
      Base85.dec.runBlocks fuel s ls = Base85.dec.run fuel s ls.flatten ∧
      ∀ out N, Base85.dec.run fuel s ls.flatten = some out → out.length < N →
        Base85.dec.readAll N s ls.flatten = some (out, [])) ∧
    (∀ {s : UrlEncode.Enc}, s.eolb = false → s.hasItems = false → ∀ ls fuel,
      UrlEncode.enc.runBlocks fuel s ls = UrlEncode.enc.run fuel s ls.flatten ∧
      ∀ out N, UrlEncode.enc.run fuel s ls.flatten = some out → out.length < N →
        UrlEncode.enc.readAll N s ls.flatten = some (out, [])) ∧
    (∀ {s : UrlEncode.Dec}, s.eolb = false → s.hasItems = false → ∀ ls fuel,
      UrlEncode.dec.runBlocks fuel s ls = UrlEncode.dec.run fuel s ls.flatten ∧
      ∀ out N, UrlEncode.dec.run fuel s ls.flatten = some out → out.length < N →
        UrlEncode.dec.readAll N s ls.flatten = some (out, [])) ∧
    (∀ {s : Utf.Enc}, s.eolb = false → s.hasItems = false → ∀ ls fuel,
      Utf.enc.runBlocks fuel s ls = Utf.enc.run fuel s ls.flatten ∧
      ∀ out N, Utf.enc.run fuel s ls.flatten = some out → out.length < N →
        Utf.enc.readAll N s ls.flatten = some (out, [])) ∧
    (∀ {s : Utf.Dec}, s.eolb = false → s.hasItems = false → ∀ ls fuel,
      Utf.dec.runBlocks fuel s ls = Utf.dec.run fuel s ls.flatten ∧
      ∀ out N, Utf.dec.run fuel s ls.flatten = some out → out.length < N →
        Utf.dec.readAll N s ls.flatten = some (out, [])) := by
  refine ⟨?_, ?_, ?_, ?_, ?_, ?_, ?_, ?_, ?_, ?_, ?_, ?_⟩
  · intro s h1 h2 ls fuel
    exact ⟨Conv.c12_write Base64.enc_quiet fuel h1 h2 ls (fun _ _ => trivial), fun out N h hN =>
      Conv.c12_read Base64.enc_quiet Base64.enc_once h1 h2 (fun _ _ => trivial) h hN⟩
  · intro s h1 h2 ls fuel hl
    exact ⟨Conv.c12_write (Base64.dec_quiet s.padChar) fuel ⟨h1, rfl⟩ h2 ls hl, fun out N h hN =>
      Conv.c12_read (Base64.dec_quiet s.padChar) Base64.dec_once ⟨h1, rfl⟩ h2 hl h hN⟩
  · intro s h1 h2 ls fuel
    exact ⟨Conv.c12_write Base32.enc_quiet fuel h1 h2 ls (fun _ _ => trivial), fun out N h hN =>
      Conv.c12_read Base32.enc_quiet Base32.enc_once h1 h2 (fun _ _ => trivial) h hN⟩
  · intro s h1 h2 ls fuel hl
    exact ⟨Conv.c12_write (Base32.dec_quiet s.padChar) fuel ⟨h1, rfl⟩ h2 ls hl, fun out N h hN =>
      Conv.c12_read (Base32.dec_quiet s.padChar) Base32.dec_once ⟨h1, rfl⟩ h2 hl h hN⟩
  · intro s h1 h2 ls fuel
    exact ⟨Conv.c12_write Base16.enc_quiet fuel h1 h2 ls (fun _ _ => trivial), fun out N h hN =>
      Conv.c12_read Base16.enc_quiet Base16.enc_once h1 h2 (fun _ _ => trivial) h hN⟩
  · intro s h1 h2 ls fuel
    exact ⟨Conv.c12_write Base16.dec_quiet fuel h1 h2 ls (fun _ _ => trivial), fun out N h hN =>
      Conv.c12_read Base16.dec_quiet Base16.dec_once h1 h2 (fun _ _ => trivial) h hN⟩
  · intro s h1 h2 ls fuel
    exact ⟨Conv.c12_write Base85.enc_quiet fuel h1 h2 ls (fun _ _ => trivial), fun out N h hN =>
      Conv.c12_read Base85.enc_quiet Base85.enc_once h1 h2 (fun _ _ => trivial) h hN⟩
  · intro s h1 h2 ls fuel
    exact ⟨Conv.c12_write Base85.dec_quiet fuel h1 h2 ls (fun _ _ => trivial), fun out N h hN =>
      Conv.c12_read Base85.dec_quiet Base85.dec_once h1 h2 (fun _ _ => trivial) h hN⟩
  · intro s h1 h2 ls fuel
    exact ⟨Conv.c12_write UrlEncode.enc_quiet fuel h1 h2 ls (fun _ _ => trivial), fun out N h hN =>
      Conv.c12_read UrlEncode.enc_quiet UrlEncode.enc_once h1 h2 (fun _ _ => trivial) h hN⟩
  · intro s h1 h2 ls fuel
    exact ⟨Conv.c12_write UrlEncode.dec_quiet fuel h1 h2 ls (fun _ _ => trivial), fun out N h hN =>
      Conv.c12_read UrlEncode.dec_quiet UrlEncode.dec_once h1 h2 (fun _ _ => trivial) h hN⟩
  · intro s h1 h2 ls fuel
    exact ⟨Conv.c12_write Utf.enc_quiet fuel h1 h2 ls (fun _ _ => trivial), fun out N h hN =>
      Conv.c12_read Utf.enc_quiet Utf.enc_once h1 h2 (fun _ _ => trivial) h hN⟩
  · intro s h1 h2 ls fuel
    exact ⟨Conv.c12_write Utf.dec_quiet fuel h1 h2 ls (fun _ _ => trivial), fun out N h hN =>
      Conv.c12_read Utf.dec_quiet Utf.dec_once h1 h2 (fun _ _ => trivial) h hN⟩

theorem Utf.enc_early : Utf.enc.FlushEarly := Conv.flushEarly_id fun _ => rfl
theorem Utf.dec_early : Utf.dec.FlushEarly := Conv.flushEarly_id fun _ => rfl
theorem UrlEncode.enc_early : UrlEncode.enc.FlushEarly := Conv.flushEarly_id fun _ => rfl
theorem UrlEncode.dec_early : UrlEncode.dec.FlushEarly := Conv.flushEarly_id fun _ => rfl
theorem Base16.enc_early : Base16.enc.FlushEarly := Conv.flushEarly_id fun _ => rfl

/-! ## Examples and counterexamples -/

/-- Two block reads of the text U+20AC, "a", U+20AC. -/
example : Utf.dec.blockReads [1, 2] {} [0xE2, 0x82, 0xAC, 0x61, 0xE2, 0x82, 0xAC] =
    some [[0x20AC], [0x61, 0x20AC]] := by decide +kernel

/-- "Man" and one more letter in Base64, in blocks and read through an iterator. -/
example : Base64.enc.runBlocks 8 (Base64.Enc.new Base64.standardTable 61) [[77], [], [97, 110], [77]] =
    some [84, 87, 70, 117, 84, 81, 61, 61] ∧
    Base64.enc.readAll 20 (Base64.Enc.new Base64.standardTable 61) [77, 97, 110, 77] =
      some ([84, 87, 70, 117, 84, 81, 61, 61], []) := by decide +kernel

/-- C12 is false for block reads: `hasItems` of the read iterator writes the only item of the source
to the converter, then `blockRead` into an array of two throws, since it reads the empty source.
Without the question for `hasItems` the item is read. -/
theorem c12_blockRead_violated :
    Utf.dec.iterHasItems {} [0x61] = some (true,
      { outchar := some 0x61, state := 0, hasItems := true, needItems := false }, []) ∧
    Utf.dec.blockRead 2 { outchar := some 0x61, state := 0, hasItems := true, needItems := false } [] =
      none ∧
    (Utf.dec.blockRead 2 {} [0x61]).map (·.1) = some [0x61] := by decide +kernel

/-- C12 is false across the end of a logical block: after the padding of a Base64 text the single
writes go on with the next text, a block write stops. -/
theorem c12_eolb_violated :
    Base64.dec.writeMany 8 (Base64.Dec.new Base64.standardTable 61) [84, 81, 61, 84, 81, 61] ≠
      (Base64.dec.blockWrite 8 (Base64.Dec.new Base64.standardTable 61) [84, 81, 61, 84, 81, 61]).map
        (·.2) := by decide +kernel

end LS

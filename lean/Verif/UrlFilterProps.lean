import Verif.UrlFilter
import Verif.FilterIterProps
/-!
# Properties of the old URL filters and of the filters for 16-bit characters (C133)
-/

namespace LS.UrlFilter

open LS.FilterIter

/-! ## Specification -/

namespace Spec

/-- The hexadecimal digits of RFC 3986. -/
def digits : List Nat := "0123456789ABCDEF".toList.map Char.toNat

/-- Characters that stand for themselves. -/
def plain : List Nat := "ABCDEFGHIJKLMNOPQRSTUVWXYZabcdefghijklmnopqrstuvwxyz0123456789-_".toList.map Char.toNat

/-- RFC 3986, section 2.1: a character or its percent-encoding. -/
def encode (c : Nat) : List Nat := if c ∈ plain then [c] else [37, digits.getD (c / 16) 0, digits.getD (c % 16) 0]

/-- The value of a hexadecimal digit, small or big. -/
def value (c : Nat) : Option Nat :=
  if 48 ≤ c ∧ c ≤ 57 then some (c - 48) else if 65 ≤ c ∧ c ≤ 70 then some (c - 55) else if 97 ≤ c ∧ c ≤ 102 then some (c - 87) else none

/-- A piece of a well-formed text. -/
inductive Piece where
  | char (c : Nat)
  | plus
  | hex (h l : Nat)
deriving DecidableEq, Repr

/-- The piece is well formed. -/
def Piece.ok : Piece → Prop
  | .char c => c ≠ 37 ∧ c ≠ 43
  | .plus => True
  | .hex h l => (value h).isSome ∧ (value l).isSome

/-- Its text. -/
def Piece.text : Piece → List Nat
  | .char c => [c]
  | .plus => [43]
  | .hex h l => [37, h, l]

/-- What it stands for. -/
def Piece.val : Piece → Nat
  | .char c => c
  | .plus => 32
  | .hex h l => (value h).getD 0 * 16 + (value l).getD 0

/-- The bytes of a 16-bit character. -/
def bytes (big : Bool) (c : Nat) : List Nat := if big = true then [c / 256, c % 256] else [c % 256, c / 256]

end Spec

/-! ## A machine without a state -/

/-- The machine that gives `f a` for `a`. -/
def each {A B : Type} (f : A → List B) : FilterIter.Spec.Machine Unit A B := ⟨fun _ a => ((), f a), fun _ => ((), [])⟩

theorem whole_each {A B : Type} (f : A → List B) (l : List A) : FilterIter.Spec.whole (each f) () l = l.flatMap f := by
  have : ∀ l, FilterIter.Spec.given (each f) () l = l.flatMap f := by
    intro l
    induction l with
    | nil => rfl
    | cons x r ih =>
      rw [List.flatMap_cons, ← ih]
      rfl
  rw [FilterIter.Spec.whole, this]
  exact List.append_nil _

/-- A reader that asks `hasItems` gets everything if the filter gives something for each item and nothing at the end. -/
theorem readsWhile_works {S A B Q : Type} {F : Flt S A B} {m : FilterIter.Spec.Machine Q A B} (h : Works F m) (he : ∀ q a, (m.emit q a).2 ≠ []) (hf : ∀ q, (m.fin q).2 = [])
    (n : Nat) (r : Rd S A B) (hi : h.inv r.flt) (hn : (h.rest r).length ≤ n) : readsWhile F n r = (h.rest r, none) := by
  induction n generalizing r with
  | zero =>
    rw [List.eq_nil_of_length_eq_zero (Nat.le_zero.1 hn)]
    rfl
  | succ n ih =>
    have hh := C130_hasItems_partial h he hf r hi
    rcases C130_getNext h r hi with ⟨h1, h2⟩ | ⟨b, bs, r', h1, h2, h3, h4⟩
    · rw [h1] at hh ⊢
      simp only [readsWhile]
      rw [if_neg (fun c => hh.1 c rfl)]
    · have := ih r' h3 (by rw [h4]; rw [h1, List.length_cons] at hn; omega)
      simp only [readsWhile]
      rw [if_pos (hh.2 (by rw [h1]; exact List.cons_ne_nil _ _)), h2]
      simp only [this, h4, h1]

/-! ## The encoder -/

/-- What is ready. -/
def Enc.pend (s : Enc) : List Nat := [s.b2, s.b1, s.b0].drop (3 - s.pt)

/-- The encoder works as a machine. -/
def encWorks : Works enc (each fun x => (Enc.new.input x).pend) where
  inv := fun s => s.pt ≤ 3
  q := fun _ => ()
  pend := Enc.pend
  closed := fun _ => False
  shut := fun _ _ c => c.elim
  has := by
    intro s h
    obtain ⟨a, b, c, i⟩ := s
    simp only at h
    rcases (show i = 0 ∨ i = 1 ∨ i = 2 ∨ i = 3 by omega) with rfl | rfl | rfl | rfl <;> simp [enc, Enc.pend]
  need := by
    intro s h e _
    obtain ⟨a, b, c, i⟩ := s
    simp only at h
    rcases (show i = 0 ∨ i = 1 ∨ i = 2 ∨ i = 3 by omega) with rfl | rfl | rfl | rfl
    · rfl
    · cases e
    · cases e
    · cases e
  out := by
    intro s x xs h e
    obtain ⟨a, b, c, i⟩ := s
    simp only at h
    rcases (show i = 0 ∨ i = 1 ∨ i = 2 ∨ i = 3 by omega) with rfl | rfl | rfl | rfl
    · cases e
    · injection e with e1 e2
      subst e1
      subst e2
      exact ⟨⟨a, b, c, 0⟩, rfl, Nat.zero_le 3, rfl, rfl⟩
    · injection e with e1 e2
      subst e1
      subst e2
      exact ⟨⟨a, b, c, 1⟩, rfl, by show 1 ≤ 3; omega, rfl, rfl⟩
    · injection e with e1 e2
      subst e1
      subst e2
      exact ⟨⟨a, b, c, 2⟩, rfl, by show 2 ≤ 3; omega, rfl, rfl⟩
  inp := by
    intro s x h e
    obtain ⟨a, b, c, i⟩ := s
    have : i = 0 := by simpa [enc] using e
    subst this
    refine ⟨_, rfl, ?_, rfl, ?_⟩
    · unfold Enc.input
      split
      · show 1 ≤ 3
        omega
      · exact Nat.le_refl 3
    · show Enc.pend (Enc.input _ x) = Enc.pend (Enc.input _ x)
      unfold Enc.input
      split <;> rfl
  flush := by
    intro s h _
    exact ⟨h, rfl, (List.append_nil _).symm⟩
  fin := fun _ => rfl

theorem encode_eq : ∀ x, x < 256 → (Enc.new.input x).pend = Spec.encode x := by decide +kernel

theorem flatMap_encode (l : List Nat) (hl : ∀ x, x ∈ l → x < 256) : l.flatMap (fun x => (Enc.new.input x).pend) = l.flatMap Spec.encode := by
  induction l with
  | nil => rfl
  | cons x r ih => rw [List.flatMap_cons, List.flatMap_cons, ih (fun y hy => hl y (by simp [hy])), encode_eq x (hl x (by simp))]

/-- C133 — every text read through the encoder is percent-encoded. -/
theorem C133_encode (l : List Nat) (hl : ∀ x, x ∈ l → x < 256) (n : Nat) (hn : (l.flatMap Spec.encode).length < n) :
    reads enc n (rd Enc.new l) = (l.flatMap Spec.encode, some .noItems) := by
  have hw : FilterIter.Spec.whole (each fun x => (Enc.new.input x).pend) (encWorks.q Enc.new) l = l.flatMap Spec.encode := (whole_each _ l).trans (flatMap_encode l hl)
  rw [C130_read encWorks Enc.new l (Nat.zero_le 3) rfl n (by rw [hw]; exact hn), hw]

/-- C133 — a reader of the encoder that asks `hasItems` gets everything and no exception. -/
theorem C133_encode_hasItems (l : List Nat) (hl : ∀ x, x ∈ l → x < 256) (n : Nat) (hn : (l.flatMap Spec.encode).length ≤ n) :
    readsWhile enc n (rd Enc.new l) = (l.flatMap Spec.encode, none) := by
  have hw : encWorks.rest (rd Enc.new l) = l.flatMap Spec.encode := (whole_each _ l).trans (flatMap_encode l hl)
  rw [readsWhile_works encWorks ?_ (fun _ => rfl) n (rd Enc.new l) (Nat.zero_le 3) (by rw [hw]; exact hn), hw]
  intro _ a
  show (Enc.new.input a).pend ≠ []
  unfold Enc.input
  split <;> exact List.cons_ne_nil _ _

/-- C133 — every text written through the encoder is percent-encoded. -/
theorem C133_encode_write (l : List Nat) (hl : ∀ x, x ∈ l → x < 256) (cap : Nat) (hn : (l.flatMap Spec.encode).length ≤ cap) :
    ∃ w w', writes enc ⟨Enc.new, [], cap⟩ l = .ok w ∧ FilterIter.flush enc w = .ok w' ∧ w'.out = l.flatMap Spec.encode := by
  have hw : FilterIter.Spec.whole (each fun x => (Enc.new.input x).pend) (encWorks.q Enc.new) l = l.flatMap Spec.encode := (whole_each _ l).trans (flatMap_encode l hl)
  obtain ⟨w, w', h1, h2, h3⟩ := C130_write_all encWorks Enc.new l cap (Nat.zero_le 3) rfl (open_of encWorks (fun _ c => c) _ _) (by rw [hw]; exact hn)
  exact ⟨w, w', h1, h2, by rw [h3, hw]⟩

example : [97, 32, 255].flatMap Spec.encode = [97, 37, 50, 48, 37, 70, 70] := by decide

/-! ## The decoder -/

theorem digitVal_value (c v : Nat) (h : Spec.value c = some v) : v < 16 ∧ (digitVal c = v ∨ digitVal c = v + 256) := by
  unfold Spec.value at h
  unfold digitVal
  split at h
  · injection h with h
    rw [if_neg (by omega), if_neg (by omega)]
    omega
  · split at h
    · injection h with h
      rw [if_neg (by omega), if_pos (by omega)]
      omega
    · split at h
      · injection h with h
        rw [if_pos (by omega)]
        omega
      · cases h

theorem out_hex (h l : Nat) (hh : (Spec.value h).isSome) (hl : (Spec.value l).isSome) :
    Dec.output ⟨some 37, some h, some l, 3⟩ = .ok ((Spec.value h).getD 0 * 16 + (Spec.value l).getD 0, ⟨some 37, some h, some l, 0⟩) := by
  obtain ⟨a, ha⟩ := Option.isSome_iff_exists.1 hh
  obtain ⟨b, hb⟩ := Option.isSome_iff_exists.1 hl
  obtain ⟨h1, h2⟩ := digitVal_value h a ha
  obtain ⟨h3, h4⟩ := digitVal_value l b hb
  rw [ha, hb]
  show Except.ok ((digitVal h * 16 + digitVal l) % 256, _) = _
  rw [show (digitVal h * 16 + digitVal l) % 256 = a * 16 + b by omega]
  rfl

/-- What is in the filter after the text of a piece. -/
def after (s : Dec) : Spec.Piece → Dec
  | .char c => { s with b0 := some c, pt := 1 }
  | .plus => { s with b0 := some 43, pt := 1 }
  | .hex h l => ⟨some 37, some h, some l, 3⟩

theorem after_full (s : Dec) (p : Spec.Piece) (hp : p.ok) : dec.need (after s p) = false ∧ dec.has (after s p) = true := by
  cases p with
  | char c =>
    refine ⟨?_, rfl⟩
    simp only [dec, after, decide_eq_false_iff_not]
    intro h
    rcases h with h | h
    · omega
    · exact hp.1 (Option.some.inj h.2)
  | plus => exact ⟨rfl, rfl⟩
  | hex h l => exact ⟨rfl, rfl⟩

theorem after_out (s : Dec) (p : Spec.Piece) (hp : p.ok) : ∃ s', dec.out (after s p) = .ok (p.val, s') ∧ s'.pt = 0 := by
  cases p with
  | char c =>
    refine ⟨{ s with b0 := some c, pt := 0 }, ?_, rfl⟩
    show (if c = 37 then _ else if c = 43 then _ else _) = _
    rw [if_neg hp.1, if_neg hp.2]
    rfl
  | plus => exact ⟨{ s with b0 := some 43, pt := 0 }, rfl, rfl⟩
  | hex h l => exact ⟨_, out_hex h l hp.1 hp.2, rfl⟩

theorem fetch_full {S A B : Type} (F : Flt S A B) (s : S) (src : List A) (h : F.need s = false) : fetchLoop F s src = .ok (s, src) := by
  cases src with
  | nil => rfl
  | cons x r =>
    simp only [fetchLoop, h]
    rfl

theorem fetch_one {S A B : Type} (F : Flt S A B) (s s' : S) (x : A) (src : List A) (h : F.need s = true) (hi : F.inp s x = .ok s') :
    fetchLoop F s (x :: src) = fetchLoop F s' src := by
  simp only [fetchLoop, h, if_true, hi]

theorem fetch_piece (s : Dec) (hs : s.pt = 0) (p : Spec.Piece) (hp : p.ok) (r : List Nat) : fetchLoop dec s (p.text ++ r) = .ok (after s p, r) := by
  obtain ⟨a, b, c, i⟩ := s
  simp only at hs
  subst hs
  rw [← fetch_full dec (after ⟨a, b, c, 0⟩ p) r (after_full _ p hp).1]
  cases p with
  | char x => exact fetch_one dec _ _ x r rfl rfl
  | plus => exact fetch_one dec _ _ 43 r rfl rfl
  | hex h l =>
    show fetchLoop dec _ (37 :: h :: l :: r) = _
    rw [fetch_one dec _ ⟨some 37, b, c, 1⟩ 37 _ rfl rfl, fetch_one dec _ ⟨some 37, some h, c, 2⟩ h _ rfl rfl, fetch_one dec _ ⟨some 37, some h, some l, 3⟩ l _ rfl rfl]
    rfl

theorem getNext_piece (r : Rd Dec Nat Nat) (hs : r.flt.pt = 0) (hc : ready r = false) (p : Spec.Piece) (hp : p.ok) (l : List Nat) (hl : r.src = p.text ++ l) :
    ∃ s', getNext dec r = .ok (p.val, ⟨s', l, .used p.val⟩) ∧ s'.pt = 0 := by
  obtain ⟨s, src, cell⟩ := r
  simp only at hs hl
  subst hl
  obtain ⟨s', e, h0⟩ := after_out s p hp
  obtain ⟨f1, f2⟩ := after_full s p hp
  have hf : fill dec s (p.text ++ l) = .ok (after s p, l) := by
    have hh : ¬ dec.has s = true := by
      simp only [dec, decide_eq_true_eq]
      omega
    rw [fill, if_neg hh, blockFetch, fetch_piece s hs p hp l]
    simp only [f1]
    rfl
  have ht : takeOne dec (after s p) l = .ok (p.val, ⟨s', l, .ready p.val⟩) := by
    simp only [takeOne, f2, if_true, e]
  refine ⟨s', ?_, h0⟩
  cases cell with
  | ready z => cases hc
  | empty => simp only [getNext, getBuffer, hf, ht]
  | used z => simp only [getNext, getBuffer, hf, ht]

theorem text_ne (p : Spec.Piece) (r : List Nat) : p.text ++ r ≠ [] := by
  cases p <;> exact List.cons_ne_nil _ _

theorem dec_reads (ps : List Spec.Piece) (hp : ∀ p, p ∈ ps → p.ok) (r : Rd Dec Nat Nat) (hs : r.flt.pt = 0) (hc : ready r = false) (hl : r.src = ps.flatMap Spec.Piece.text)
    (n : Nat) (hn : ps.length < n) : reads dec n r = (ps.map Spec.Piece.val, some .noItems) ∧ readsWhile dec n r = (ps.map Spec.Piece.val, none) := by
  induction ps generalizing r n with
  | nil =>
    cases n with
    | zero => omega
    | succ n =>
      obtain ⟨⟨a, b, c, i⟩, src, cell⟩ := r
      simp only at hs hl
      subst hs
      have hl : src = [] := hl
      subst hl
      cases cell with
      | ready z => cases hc
      | empty => exact ⟨rfl, rfl⟩
      | used z => exact ⟨rfl, rfl⟩
  | cons p ps ih =>
    cases n with
    | zero => omega
    | succ n =>
      rw [List.flatMap_cons] at hl
      obtain ⟨s', e, h0⟩ := getNext_piece r hs hc p (hp p (by simp)) _ hl
      obtain ⟨i1, i2⟩ := ih (fun q hq => hp q (by simp [hq])) ⟨s', ps.flatMap Spec.Piece.text, .used p.val⟩ h0 rfl rfl n (by rw [List.length_cons] at hn; omega)
      have hh : hasItems dec r = true := by
        have h1 : r.src.isEmpty = false := by
          rw [hl]
          cases h : p.text ++ ps.flatMap Spec.Piece.text with
          | nil => exact absurd h (text_ne _ _)
          | cons _ _ => rfl
        have h2 : dec.need r.flt = true := by
          simp only [dec, decide_eq_true_eq]
          exact Or.inl hs
        simp only [hasItems, h1, h2, Bool.not_false, Bool.and_self, Bool.or_true]
      constructor
      · simp only [reads, e, i1, List.map_cons]
      · simp only [readsWhile, hh, if_true, e, i2, List.map_cons]

/-- C133 — a well-formed text of any length read through the decoder gives what its pieces stand for. -/
theorem C133_decode (ps : List Spec.Piece) (hp : ∀ p, p ∈ ps → p.ok) (n : Nat) (hn : ps.length < n) :
    reads dec n (rd Dec.new (ps.flatMap Spec.Piece.text)) = (ps.map Spec.Piece.val, some .noItems) :=
  (dec_reads ps hp (rd Dec.new _) rfl rfl rfl n hn).1

/-- C133 — a reader of the decoder that asks `hasItems` gets everything and no exception. -/
theorem C133_decode_hasItems (ps : List Spec.Piece) (hp : ∀ p, p ∈ ps → p.ok) (n : Nat) (hn : ps.length < n) :
    readsWhile dec n (rd Dec.new (ps.flatMap Spec.Piece.text)) = (ps.map Spec.Piece.val, none) :=
  (dec_reads ps hp (rd Dec.new _) rfl rfl rfl n hn).2

example : reads dec 9 (rd Dec.new [97, 43, 37, 52, 49, 37, 102, 70]) = ([97, 32, 65, 255], some .noItems) :=
  C133_decode [.char 97, .plus, .hex 52 49, .hex 102 70] (by intro p h; simp at h; rcases h with rfl | rfl | rfl | rfl <;> simp [Spec.Piece.ok, Spec.value]) 9 (by decide)

theorem feed_one (s s' : Dec) (b : Nat) (out : List Nat) (cap : Nat) (hh : dec.has s = true) (ho : dec.out s = .ok (b, s')) (h0 : s'.pt = 0) (hc : out.length < cap) :
    feed dec ⟨s, out, cap⟩ = .ok ⟨s', out ++ [b], cap⟩ := by
  have h2 : dec.has s' = false := by
    simp only [dec, decide_eq_false_iff_not]
    omega
  have hl : ∀ f, feedLoop dec (f + 1) false ⟨s', out ++ [b], cap⟩ = .ok ⟨s', out ++ [b], cap⟩ := by
    intro f
    simp only [feedLoop, h2]
    rfl
  show feedLoop dec (cap + 1 + 1) true ⟨s, out, cap⟩ = _
  rw [feedLoop]
  simp only [hh, ho, hc, if_true, true_and, true_or]
  exact hl cap

theorem write_more (s s' : Dec) (x : Nat) (out : List Nat) (cap : Nat) (hn : dec.need s = true) (hi : dec.inp s x = .ok s') (hn' : dec.need s' = true) :
    write dec ⟨s, out, cap⟩ x = .ok ⟨s', out, cap⟩ := by
  simp only [write, feedFull, hn, if_true, hi, hn']

theorem write_last (s s' s'' : Dec) (x b : Nat) (out : List Nat) (cap : Nat) (hn : dec.need s = true) (hi : dec.inp s x = .ok s') (hn' : dec.need s' = false) (hh : dec.has s' = true)
    (ho : dec.out s' = .ok (b, s'')) (h0 : s''.pt = 0) (hc : out.length < cap) : write dec ⟨s, out, cap⟩ x = .ok ⟨s'', out ++ [b], cap⟩ := by
  simp only [write, feedFull, hn, if_true, hi, hn']
  exact feed_one s' s'' b out cap hh ho h0 hc

theorem writes_piece (s : Dec) (hs : s.pt = 0) (p : Spec.Piece) (hp : p.ok) (l : List Nat) (out : List Nat) (cap : Nat) (hc : out.length < cap) :
    ∃ s', s'.pt = 0 ∧ writes dec ⟨s, out, cap⟩ (p.text ++ l) = writes dec ⟨s', out ++ [p.val], cap⟩ l := by
  obtain ⟨a, b, c, i⟩ := s
  simp only at hs
  subst hs
  obtain ⟨s', e, h0⟩ := after_out ⟨a, b, c, 0⟩ p hp
  obtain ⟨f1, f2⟩ := after_full ⟨a, b, c, 0⟩ p hp
  refine ⟨s', h0, ?_⟩
  cases p with
  | char x =>
    show writes dec _ (x :: l) = _
    rw [writes, write_last _ _ s' x _ out cap rfl rfl f1 f2 e h0 hc]
  | plus =>
    show writes dec _ (43 :: l) = _
    rw [writes, write_last _ _ s' 43 _ out cap rfl rfl f1 f2 e h0 hc]
  | hex h k =>
    show writes dec _ (37 :: h :: k :: l) = _
    rw [writes, write_more _ ⟨some 37, b, c, 1⟩ 37 out cap rfl rfl rfl]
    simp only
    rw [writes, write_more _ ⟨some 37, some h, c, 2⟩ h out cap rfl rfl rfl]
    simp only
    rw [writes, write_last _ _ s' k _ out cap rfl rfl f1 f2 e h0 hc]

theorem dec_writes (ps : List Spec.Piece) (hp : ∀ p, p ∈ ps → p.ok) (s : Dec) (hs : s.pt = 0) (out : List Nat) (cap : Nat) (hc : out.length + ps.length ≤ cap) :
    ∃ s', s'.pt = 0 ∧ writes dec ⟨s, out, cap⟩ (ps.flatMap Spec.Piece.text) = .ok ⟨s', out ++ ps.map Spec.Piece.val, cap⟩ := by
  induction ps generalizing s out with
  | nil => exact ⟨s, hs, by rw [List.map_nil, List.append_nil]; rfl⟩
  | cons p ps ih =>
    rw [List.length_cons] at hc
    obtain ⟨s1, h1, e1⟩ := writes_piece s hs p (hp p (by simp)) (ps.flatMap Spec.Piece.text) out cap (by omega)
    obtain ⟨s2, h2, e2⟩ := ih (fun q hq => hp q (by simp [hq])) s1 h1 (out ++ [p.val]) (by rw [List.length_append, List.length_singleton]; omega)
    refine ⟨s2, h2, ?_⟩
    rw [List.flatMap_cons, e1, e2, List.map_cons, List.append_assoc]
    rfl

/-- C133 — a well-formed text written through the decoder, then `flush`, writes what it stands for. -/
theorem C133_decode_write (ps : List Spec.Piece) (hp : ∀ p, p ∈ ps → p.ok) (cap : Nat) (hc : ps.length ≤ cap) :
    ∃ w, writes dec ⟨Dec.new, [], cap⟩ (ps.flatMap Spec.Piece.text) = .ok w ∧ w.out = ps.map Spec.Piece.val ∧ FilterIter.flush dec w = .ok w := by
  obtain ⟨s, h, e⟩ := dec_writes ps hp Dec.new rfl [] cap (by simpa using hc)
  refine ⟨_, e, rfl, ?_⟩
  have h2 : dec.has s = false := by
    simp only [dec, decide_eq_false_iff_not]
    omega
  have h2 : dec.has (dec.flush s) = false := h2
  simp only [FilterIter.flush, feed, feedLoop, h2]
  rfl

/-- The pieces that the encoder gives for a character. -/
def piece (c : Nat) : Spec.Piece := if c ∈ Spec.plain then .char c else .hex (Spec.digits.getD (c / 16) 0) (Spec.digits.getD (c % 16) 0)

/-- `ok`, decided. -/
def okB : Spec.Piece → Bool
  | .char c => c != 37 && c != 43
  | .plus => true
  | .hex h l => (Spec.value h).isSome && (Spec.value l).isSome

theorem ok_of (p : Spec.Piece) (h : okB p = true) : p.ok := by
  cases p with
  | char c => simpa [okB, Spec.Piece.ok] using h
  | plus => trivial
  | hex a b => simpa [okB, Spec.Piece.ok] using h

theorem piece_ok : ∀ c, c < 256 → ((piece c).text = Spec.encode c ∧ (piece c).val = c ∧ okB (piece c) = true) := by
  decide +kernel

/-- C133 — what the encoder gives, the decoder turns back. -/
theorem C133_roundtrip (l : List Nat) (hl : ∀ x, x ∈ l → x < 256) (n : Nat) (hn : (l.flatMap Spec.encode).length < n) (k : Nat) (hk : l.length < k) :
    reads dec k (rd Dec.new (reads enc n (rd Enc.new l)).1) = (l, some .noItems) := by
  rw [C133_encode l hl n hn]
  have h1 : l.flatMap Spec.encode = (l.map piece).flatMap Spec.Piece.text := by
    induction l with
    | nil => rfl
    | cons x r ih =>
      rw [List.map_cons, List.flatMap_cons, List.flatMap_cons, (piece_ok x (hl x (by simp))).1]
      rw [List.flatMap_cons, List.length_append] at hn
      rw [List.length_cons] at hk
      rw [ih (fun y hy => hl y (by simp [hy])) (by omega) (by omega)]
  have h2 : (l.map piece).map Spec.Piece.val = l := by
    rw [List.map_map]
    conv => rhs; rw [← List.map_id l]
    apply List.map_congr_left
    intro x hx
    exact (piece_ok x (hl x hx)).2.1
  show reads dec k (rd Dec.new (l.flatMap Spec.encode)) = _
  rw [h1, C133_decode (l.map piece) ?_ k (by rw [List.length_map]; exact hk), h2]
  intro p hp
  obtain ⟨x, hx, rfl⟩ := List.mem_map.1 hp
  exact ok_of _ (piece_ok x (hl x hx)).2.2

/-- C133 — violated (urlencode.h:126-128): a single `%` at the end of the text is read as if the digits of the `%41` before stood behind it; without one before it, bytes that were never set are read. -/
theorem C133_percent_end_violated :
    reads dec 9 (rd Dec.new [37, 52, 49, 98, 37]) = ([65, 98, 65], some .noItems) ∧ getNext dec (rd Dec.new [37]) = .error .ub := by
  refine ⟨by decide +kernel, rfl⟩

/-- C133 — violated (urlencode.h:144-145): `%4` at the end of the text is lost without an error, and `hasItems` says yes before it. -/
theorem C133_digit_end_violated :
    reads dec 9 (rd Dec.new [98, 37, 52]) = ([98], some .noItems) ∧ readsWhile dec 9 (rd Dec.new [98, 37, 52]) = ([98], some .noItems) ∧
    ∃ w, writes dec ⟨Dec.new, [], 9⟩ [98, 37, 52] = .ok w ∧ w.out = [98] ∧ FilterIter.flush dec w = .ok w := by
  refine ⟨by decide +kernel, by decide +kernel, ⟨⟨some 37, some 52, none, 2⟩, [98], 9⟩, rfl, rfl, rfl⟩

/-- C133 — violated (urlencode.h:134-135): what stands behind `%` is not checked, `%zz` and `%/!` give a character. -/
theorem C133_digits_violated : reads dec 9 (rd Dec.new [37, 122, 122, 37, 47, 33]) = ([83, 225], some .noItems) := by
  decide +kernel

/-- C133 — violated: `flush` in the middle of an encoded character, a usual call between two writes, gives a character of bytes that were never set. -/
theorem C133_flush_violated : ∃ w, writes dec ⟨Dec.new, [], 9⟩ [37] = .ok w ∧ FilterIter.flush dec w = .error .ub := by
  refine ⟨⟨⟨some 37, none, none, 1⟩, [], 9⟩, rfl, rfl⟩

/-! ## 16-bit characters -/

/-- `WideToBytes` works as a machine. -/
def w2bWorks : Works w2b (⟨fun q a => (q, Spec.bytes q (a % 65536)), fun q => (q, [])⟩ : FilterIter.Spec.Machine Bool Nat Nat) where
  inv := fun s => s.x ≤ 2
  q := fun s => s.big
  pend := fun s => [s.v0, s.v1].drop s.x
  closed := fun _ => False
  shut := fun _ _ c => c.elim
  has := by
    intro s h
    obtain ⟨a, b, i, g⟩ := s
    simp only at h
    rcases (show i = 0 ∨ i = 1 ∨ i = 2 by omega) with rfl | rfl | rfl <;> simp [w2b]
  need := by
    intro s h e _
    obtain ⟨a, b, i, g⟩ := s
    simp only at h
    rcases (show i = 0 ∨ i = 1 ∨ i = 2 by omega) with rfl | rfl | rfl
    · cases e
    · cases e
    · rfl
  out := by
    intro s x xs h e
    obtain ⟨a, b, i, g⟩ := s
    simp only at h
    rcases (show i = 0 ∨ i = 1 ∨ i = 2 by omega) with rfl | rfl | rfl
    · injection e with e1 e2
      subst e1
      subst e2
      exact ⟨⟨a, b, 1, g⟩, rfl, Nat.le_succ 1, rfl, rfl⟩
    · injection e with e1 e2
      subst e1
      subst e2
      exact ⟨⟨a, b, 2, g⟩, rfl, Nat.le_refl 2, rfl, rfl⟩
    · cases e
  inp := by
    intro s a h e
    obtain ⟨b0, b1, i, g⟩ := s
    have : i = 2 := by simpa [w2b] using e
    subst this
    have h1 : a % 65536 / 256 = a / 256 % 256 := by omega
    have h2 : a % 65536 % 256 = a % 256 := by omega
    cases g with
    | true => exact ⟨⟨a / 256 % 256, a % 256, 0, true⟩, rfl, Nat.zero_le 2, rfl, by simp only [Spec.bytes, if_true, h1, h2]; rfl⟩
    | false => exact ⟨⟨a % 256, a / 256 % 256, 0, false⟩, rfl, Nat.zero_le 2, rfl, by simp only [Spec.bytes, h1, h2]; rfl⟩
  flush := by
    intro s h _
    exact ⟨h, rfl, (List.append_nil _).symm⟩
  fin := fun _ => rfl

theorem w2b_whole (big : Bool) (l : List Nat) (hl : ∀ c, c ∈ l → c < 65536) :
    FilterIter.Spec.whole (⟨fun q a => (q, Spec.bytes q (a % 65536)), fun q => (q, [])⟩ : FilterIter.Spec.Machine Bool Nat Nat) big l = l.flatMap (Spec.bytes big) := by
  have : FilterIter.Spec.given (⟨fun q a => (q, Spec.bytes q (a % 65536)), fun q => (q, [])⟩ : FilterIter.Spec.Machine Bool Nat Nat) big l = l.flatMap (Spec.bytes big) := by
    induction l with
    | nil => rfl
    | cons x r ih =>
      rw [List.flatMap_cons, ← ih (fun y hy => hl y (by simp [hy]))]
      simp only [FilterIter.Spec.given, Nat.mod_eq_of_lt (hl x (by simp))]
  rw [FilterIter.Spec.whole, this]
  exact List.append_nil _

/-- C133 — characters of 16 bits read through `WideToBytes` give their bytes in the order chosen. -/
theorem C133_wideToBytes (big : Bool) (l : List Nat) (hl : ∀ c, c ∈ l → c < 65536) (n : Nat) (hn : (l.flatMap (Spec.bytes big)).length < n) :
    reads w2b n (rd (W2B.new big) l) = (l.flatMap (Spec.bytes big), some .noItems) := by
  have hw := w2b_whole big l hl
  rw [C130_read w2bWorks (W2B.new big) l (Nat.le_refl 2) rfl n (by rw [show w2bWorks.q (W2B.new big) = big from rfl, hw]; exact hn), show w2bWorks.q (W2B.new big) = big from rfl, hw]

/-- C133 — also for a reader that asks `hasItems`. -/
theorem C133_wideToBytes_hasItems (big : Bool) (l : List Nat) (hl : ∀ c, c ∈ l → c < 65536) (n : Nat) (hn : (l.flatMap (Spec.bytes big)).length ≤ n) :
    readsWhile w2b n (rd (W2B.new big) l) = (l.flatMap (Spec.bytes big), none) := by
  have hw : w2bWorks.rest (rd (W2B.new big) l) = l.flatMap (Spec.bytes big) := w2b_whole big l hl
  rw [readsWhile_works w2bWorks ?_ (fun _ => rfl) n (rd (W2B.new big) l) (Nat.le_refl 2) (by rw [hw]; exact hn), hw]
  intro q a
  show Spec.bytes q _ ≠ []
  cases q <;> exact List.cons_ne_nil _ _

/-- The machine of `BytesToWide`: the first byte, and the order. -/
def b2wMachine : FilterIter.Spec.Machine (Option Nat × Bool) Nat Nat where
  emit := fun q y => match q with
    | (none, g) => ((some y, g), [])
    | (some a, g) => if a = 254 ∧ y = 255 then ((none, true), []) else if a = 255 ∧ y = 254 then ((none, false), []) else ((none, g), [if g = true then a * 256 + y else a + 256 * y])
  fin := fun q => (q, [])

/-- `BytesToWide` works as its machine. -/
def b2wWorks : Works b2w b2wMachine where
  inv := fun s => s.x ≤ 2
  q := fun s => if s.x = 1 then (some s.v0, s.big) else (none, s.big)
  pend := fun s => if s.x = 2 then [if s.big = true then s.v0 * 256 + s.v1 else s.v0 + 256 * s.v1] else []
  closed := fun _ => False
  shut := fun _ _ c => c.elim
  has := by
    intro s h
    obtain ⟨a, b, i, g⟩ := s
    simp only at h
    rcases (show i = 0 ∨ i = 1 ∨ i = 2 by omega) with rfl | rfl | rfl <;> simp [b2w]
  need := by
    intro s h e _
    obtain ⟨a, b, i, g⟩ := s
    simp only at h
    rcases (show i = 0 ∨ i = 1 ∨ i = 2 by omega) with rfl | rfl | rfl
    · rfl
    · rfl
    · cases e
  out := by
    intro s x xs h e
    obtain ⟨a, b, i, g⟩ := s
    simp only at h
    rcases (show i = 0 ∨ i = 1 ∨ i = 2 by omega) with rfl | rfl | rfl
    · cases e
    · cases e
    · injection e with e1 e2
      subst e1
      subst e2
      exact ⟨⟨a, b, 0, g⟩, rfl, Nat.zero_le 2, rfl, rfl⟩
  inp := by
    intro s y h e
    obtain ⟨a, b, i, g⟩ := s
    have : i < 2 := by simpa [b2w] using e
    rcases (show i = 0 ∨ i = 1 by omega) with rfl | rfl
    · exact ⟨⟨y, b, 1, g⟩, rfl, by show 1 ≤ 2; omega, rfl, rfl⟩
    · have hi : b2w.inp ⟨a, b, 1, g⟩ y = .ok (B2W.mark ⟨a, y, 2, g⟩) := rfl
      have hq : (if (1 : Nat) = 1 then (some a, g) else (none, g)) = (some a, g) := rfl
      refine ⟨_, hi, ?_⟩
      show _ ∧ _ = (b2wMachine.emit (some a, g) y).1 ∧ _ = [] ++ (b2wMachine.emit (some a, g) y).2
      by_cases h1 : a = 254 ∧ y = 255
      · obtain ⟨rfl, rfl⟩ := h1
        exact ⟨Nat.zero_le 2, rfl, rfl⟩
      · by_cases h2 : a = 255 ∧ y = 254
        · obtain ⟨rfl, rfl⟩ := h2
          exact ⟨Nat.zero_le 2, rfl, rfl⟩
        · have hm : B2W.mark ⟨a, y, 2, g⟩ = ⟨a, y, 2, g⟩ := by
            unfold B2W.mark
            simp only [h1, h2, if_false]
            split <;> rfl
          have he : b2wMachine.emit (some a, g) y = ((none, g), [if g = true then a * 256 + y else a + 256 * y]) := by
            simp only [b2wMachine, h1, h2, if_false]
          rw [hm, he]
          exact ⟨Nat.le_refl 2, rfl, rfl⟩
  flush := by
    intro s h _
    exact ⟨h, rfl, (List.append_nil _).symm⟩
  fin := fun _ => rfl

theorem b2w_given (big : Bool) (l : List Nat) (hl : ∀ c, c ∈ l → c < 65536 ∧ c ≠ 65279 ∧ c ≠ 65534) :
    FilterIter.Spec.given b2wMachine (none, big) (l.flatMap (Spec.bytes big)) = l := by
  induction l with
  | nil => rfl
  | cons c r ih =>
    obtain ⟨h1, h2, h3⟩ := hl c (by simp)
    have ih := ih (fun y hy => hl y (by simp [hy]))
    rw [List.flatMap_cons]
    cases big with
    | true =>
      have he : b2wMachine.emit (some (c / 256), true) (c % 256) = ((none, true), [c]) := by
        simp only [b2wMachine]
        rw [if_neg (by omega), if_neg (by omega)]
        simp only [if_true]
        rw [show c / 256 * 256 + c % 256 = c by omega]
      show FilterIter.Spec.given b2wMachine (none, true) (c / 256 :: c % 256 :: r.flatMap (Spec.bytes true)) = _
      show (b2wMachine.emit (some (c / 256), true) (c % 256)).2 ++ FilterIter.Spec.given b2wMachine (b2wMachine.emit (some (c / 256), true) (c % 256)).1 (r.flatMap (Spec.bytes true)) = _
      rw [he, ih]
      rfl
    | false =>
      have he : b2wMachine.emit (some (c % 256), false) (c / 256) = ((none, false), [c]) := by
        simp only [b2wMachine]
        rw [if_neg (by omega), if_neg (by omega)]
        simp only [Bool.false_eq_true, if_false]
        rw [show c % 256 + 256 * (c / 256) = c by omega]
      show FilterIter.Spec.given b2wMachine (none, false) (c % 256 :: c / 256 :: r.flatMap (Spec.bytes false)) = _
      show (b2wMachine.emit (some (c % 256), false) (c / 256)).2 ++ FilterIter.Spec.given b2wMachine (b2wMachine.emit (some (c % 256), false) (c / 256)).1 (r.flatMap (Spec.bytes false)) = _
      rw [he, ih]
      rfl

theorem b2w_whole (big : Bool) (l : List Nat) (hl : ∀ c, c ∈ l → c < 65536 ∧ c ≠ 65279 ∧ c ≠ 65534) :
    FilterIter.Spec.whole b2wMachine (none, big) (l.flatMap (Spec.bytes big)) = l := by
  rw [FilterIter.Spec.whole, b2w_given big l hl]
  exact List.append_nil _

/-- C133 — the bytes of characters of 16 bits, none of them the byte order mark or the mark exchanged, read through `BytesToWide` give the characters. -/
theorem C133_bytesToWide_partial (big : Bool) (l : List Nat) (hl : ∀ c, c ∈ l → c < 65536 ∧ c ≠ 65279 ∧ c ≠ 65534) (n : Nat) (hn : l.length < n) :
    reads b2w n (rd (B2W.new big) (l.flatMap (Spec.bytes big))) = (l, some .noItems) := by
  have hw := b2w_whole big l hl
  have hq : b2wWorks.q (B2W.new big) = (none, big) := rfl
  rw [C130_read b2wWorks (B2W.new big) _ (Nat.zero_le 2) rfl n (by rw [hq, hw]; exact hn), hq, hw]

/-- C133 — the byte order mark in front sets the order, whatever was set by the constructor, and is not given. -/
theorem C133_bom (start big : Bool) (l : List Nat) (hl : ∀ c, c ∈ l → c < 65536 ∧ c ≠ 65279 ∧ c ≠ 65534) (n : Nat) (hn : l.length < n) :
    reads b2w n (rd (B2W.new start) ((65279 :: l).flatMap (Spec.bytes big))) = (l, some .noItems) := by
  have hw : FilterIter.Spec.whole b2wMachine (none, start) ((65279 :: l).flatMap (Spec.bytes big)) = l := by
    rw [List.flatMap_cons, ← b2w_whole big l hl]
    cases big <;> (rw [b2w_whole _ l hl]; exact b2w_whole _ l hl)
  have hq : b2wWorks.q (B2W.new start) = (none, start) := rfl
  rw [C130_read b2wWorks (B2W.new start) _ (Nat.zero_le 2) rfl n (by rw [hq, hw]; exact hn), hq, hw]

example : reads b2w 9 (rd (B2W.new true) [255, 254, 65, 0, 1, 2]) = ([65, 513], some .noItems) :=
  C133_bom true false [65, 513] (by intro c h; simp at h; rcases h with rfl | rfl <;> omega) 9 (by decide)

/-- C133 — violated (utf.h:101-107): a byte order mark inside the text is dropped, the character U+FFFE exchanges the order of all that follows. -/
theorem C133_bytesToWide_violated :
    reads b2w 9 (rd (B2W.new false) ([65, 65279, 66].flatMap (Spec.bytes false))) = ([65, 66], some .noItems) ∧
    reads b2w 9 (rd (B2W.new false) ([65, 65534, 66].flatMap (Spec.bytes false))) = ([65, 16896], some .noItems) := by
  refine ⟨by decide +kernel, by decide +kernel⟩

/-- C133 — violated: `hasItems` says yes before a byte order mark at the end and before a last single byte; the byte is lost without an error. -/
theorem C133_bytesToWide_hasItems_violated :
    readsWhile b2w 9 (rd (B2W.new false) [65, 0, 255, 254]) = ([65], some .noItems) ∧ readsWhile b2w 9 (rd (B2W.new false) [65, 0, 66]) = ([65], some .noItems) := by
  refine ⟨by decide +kernel, by decide +kernel⟩

/-- C133 — violated (utf.h:130-139): a character above U+FFFF is cut to 16 bits, no surrogates are made. -/
theorem C133_wideToBytes_violated : reads w2b 9 (rd (W2B.new true) [128512]) = ([246, 0], some .noItems) := by
  decide +kernel

end LS.UrlFilter

import Verif.Base64Filter
import Verif.FilterIterProps
import Verif.Base64Props
/-!
# Properties of the old Base64 filters (C132)
-/

namespace LS.Base64Filter

open LS.FilterIter LS.Base64

/-! ## The encoder -/

/-- The machine of the encoder: the bytes of the group that is not complete, or nothing more. -/
def encMachine (t : List Nat) (pad : Nat) : FilterIter.Spec.Machine (Option (List Nat)) Nat Nat where
  emit := fun q x => match q with
    | none => (none, [])
    | some [a, b] => (some [], rfc4648 t pad [a, b, x % 256])
    | some l => (some (l ++ [x % 256]), [])
  fin := fun q => match q with
    | none => (none, [])
    | some l => (none, rfc4648 t pad l)

/-- The padding of an encoder. -/
def padOf (noPadding : Bool) : Nat := if noPadding = true then 0 else 61

/-- The characters that the encoder gives from the position `c` on. -/
def chars (t : List Nat) (eq : Nat) : Nat → Nat → Nat → List Nat
  | 0, _, _ => []
  | n + 1, c, b => if eq ≤ c then 61 :: chars t eq n (c + 1) b else t.getD (b / 262144 % 64) 0 :: chars t eq n (c + 1) (b * 64)

/-- The encoder has been flushed. -/
def Enc.done (s : Enc) : Prop := s.eqchr < 7 ∨ s.cycle = 7

instance (s : Enc) : Decidable s.done := inferInstanceAs (Decidable (s.eqchr < 7 ∨ s.cycle = 7))

/-- States that occur. -/
def Enc.inv (noPadding : Bool) (s : Enc) : Prop :=
  (s.eqchr = 7 ∧ s.eos = 7 ∧ s.cycle ≤ 7) ∨ ((s.eqchr = 5 ∨ s.eqchr = 6) ∧ 3 ≤ s.cycle ∧ s.cycle ≤ s.eos ∧ s.eos = if noPadding = true then s.eqchr else 7)

/-- The state of the machine. -/
def Enc.q (s : Enc) : Option (List Nat) :=
  if s.done then none
  else if s.cycle = 1 then some [s.buffer % 256]
  else if s.cycle = 2 then some [s.buffer / 256 % 256, s.buffer % 256]
  else some []

/-- What is ready. -/
def Enc.pend (t : List Nat) (s : Enc) : List Nat := if 3 ≤ s.cycle then chars t s.eqchr (s.eos - s.cycle) s.cycle s.buffer else []

theorem q_0 (b : Nat) : Enc.q ⟨b, 0, 7, 7⟩ = some [] := rfl
theorem q_1 (b : Nat) : Enc.q ⟨b, 1, 7, 7⟩ = some [b % 256] := rfl
theorem q_2 (b : Nat) : Enc.q ⟨b, 2, 7, 7⟩ = some [b / 256 % 256, b % 256] := rfl
theorem q_3 (b : Nat) : Enc.q ⟨b, 3, 7, 7⟩ = some [] := rfl

theorem chars_nil (t : List Nat) (eq n c b : Nat) : chars t eq n c b = [] ↔ n = 0 := by
  cases n with
  | zero => exact ⟨fun _ => rfl, fun _ => rfl⟩
  | succ n =>
    constructor
    · intro h
      unfold chars at h
      split at h <;> cases h
    · intro h
      cases h

/-- The encoder works as its machine. -/
def encWorks (t : List Nat) (noPadding : Bool) : Works (enc t noPadding) (encMachine t (padOf noPadding)) where
  inv := Enc.inv noPadding
  q := Enc.q
  pend := Enc.pend t
  closed := fun p => p = none
  has := by
    intro s hi
    obtain ⟨b, c, e, o⟩ := s
    simp only [enc, decide_eq_true_eq, Enc.pend]
    by_cases h : 3 ≤ c
    · rw [if_pos h, Ne, chars_nil]
      omega
    · rw [if_neg h]
      exact ⟨fun x => absurd x.1 h, fun x => absurd rfl x⟩
  need := by
    intro s hi hp hc
    obtain ⟨b, c, e, o⟩ := s
    simp only [enc, decide_eq_true_eq]
    by_cases h : 3 ≤ c
    · exfalso
      simp only [Enc.pend, if_pos h, chars_nil] at hp
      apply hc
      have : Enc.done ⟨b, c, e, o⟩ := by
        simp only [Enc.done]
        simp only [Enc.inv] at hi
        rcases hi with ⟨h1, h2, h3⟩ | ⟨h1, h2⟩
        · right
          omega
        · left
          omega
      simp only [Enc.q, if_pos this]
    · omega
  shut := by
    intro p l hp
    subst hp
    have : ∀ l : List Nat, FilterIter.Spec.given (encMachine t (padOf noPadding)) none l = [] ∧ FilterIter.Spec.state (encMachine t (padOf noPadding)) none l = none := by
      intro l
      induction l with
      | nil => exact ⟨rfl, rfl⟩
      | cons x r ih => exact ⟨ih.1, ih.2⟩
    rw [FilterIter.Spec.whole, (this l).1, (this l).2]
    rfl
  out := by
    intro s x xs hi hp
    obtain ⟨b, c, e, o⟩ := s
    simp only [Enc.pend] at hp
    by_cases h3 : 3 ≤ c
    · rw [if_pos h3] at hp
      cases hn : o - c with
      | zero =>
        rw [hn] at hp
        cases hp
      | succ n =>
        rw [hn] at hp
        unfold chars at hp
        simp only [Enc.inv] at hi
        by_cases he : e ≤ c
        · rw [if_pos he] at hp
          injection hp with h1 h2
          refine ⟨⟨b, c + 1, e, o⟩, ?_, ?_, ?_, ?_⟩
          · simp only [enc, Enc.output, if_pos he, h1]
          · simp only [Enc.inv]
            omega
          · simp only [Enc.q, Enc.done]
            rw [if_pos (by omega), if_pos (by omega)]
          · simp only [Enc.pend]
            rw [if_pos (by omega), show o - (c + 1) = n by omega, h2]
        · rw [if_neg he] at hp
          injection hp with h1 h2
          by_cases h7 : c + 1 = 7
          · have he7 : e = 7 := by omega
            have ho7 : o = 7 := by omega
            subst he7
            subst ho7
            refine ⟨⟨b * 64, 0, 7, 7⟩, ?_, ?_, ?_, ?_⟩
            · simp only [enc, Enc.output, if_neg he, h1, if_pos h7]
            · exact Or.inl ⟨rfl, rfl, Nat.zero_le 7⟩
            · simp only [Enc.q, Enc.done]
              rw [if_neg (by omega), if_neg (by omega), if_neg (by omega), if_neg (by omega), if_neg (by omega), if_neg (by omega)]
            · simp only [Enc.pend]
              rw [if_neg (by omega), ← h2, show n = 0 by omega]
              rfl
          · refine ⟨⟨b * 64, c + 1, e, o⟩, ?_, ?_, ?_, ?_⟩
            · simp only [enc, Enc.output, if_neg he, h1, if_neg h7]
            · simp only [Enc.inv]
              omega
            · simp only [Enc.q, Enc.done]
              by_cases hd : e < 7
              · rw [if_pos (Or.inl hd), if_pos (Or.inl hd)]
              · rw [if_neg (by omega), if_neg (by omega), if_neg (by omega), if_neg (by omega), if_neg (by omega), if_neg (by omega)]
            · simp only [Enc.pend]
              rw [if_pos (by omega), show o - (c + 1) = n by omega, h2]
    · rw [if_neg h3] at hp
      cases hp
  inp := by
    intro s x hi hn
    obtain ⟨b, c, e, o⟩ := s
    simp only [enc, decide_eq_true_eq] at hn
    simp only [Enc.inv] at hi
    have he : e = 7 := by omega
    have ho : o = 7 := by omega
    subst he
    subst ho
    refine ⟨⟨b * 256 + x % 256, c + 1, 7, 7⟩, rfl, ?_, ?_, ?_⟩
    · exact Or.inl ⟨rfl, rfl, by show c + 1 ≤ 7; omega⟩
    · rcases (show c = 0 ∨ c = 1 ∨ c = 2 by omega) with rfl | rfl | rfl
      · rw [q_0]
        show Enc.q ⟨b * 256 + x % 256, 1, 7, 7⟩ = some [x % 256]
        rw [q_1, show (b * 256 + x % 256) % 256 = x % 256 by omega]
      · rw [q_1]
        show Enc.q ⟨b * 256 + x % 256, 2, 7, 7⟩ = some [b % 256, x % 256]
        rw [q_2, show (b * 256 + x % 256) / 256 % 256 = b % 256 by omega, show (b * 256 + x % 256) % 256 = x % 256 by omega]
      · rw [q_2]
        exact q_3 _
    · rcases (show c = 0 ∨ c = 1 ∨ c = 2 by omega) with rfl | rfl | rfl
      · rw [q_0]
        rfl
      · rw [q_1]
        rfl
      · rw [q_2]
        show chars t 7 4 3 (b * 256 + x % 256) = rfc4648 t (padOf noPadding) [b / 256 % 256, b % 256, x % 256]
        simp only [rfc4648, chars]
        simp only [Nat.reduceLeDiff, if_false, Nat.reduceAdd]
        rw [show (b * 256 + x % 256) / 262144 % 64 = (b / 256 % 256 * 65536 + b % 256 * 256 + x % 256) / 262144 by omega,
          show (b * 256 + x % 256) * 64 / 262144 % 64 = (b / 256 % 256 * 65536 + b % 256 * 256 + x % 256) / 4096 % 64 by omega,
          show (b * 256 + x % 256) * 64 * 64 / 262144 % 64 = (b / 256 % 256 * 65536 + b % 256 * 256 + x % 256) / 64 % 64 by omega,
          show (b * 256 + x % 256) * 64 * 64 * 64 / 262144 % 64 = (b / 256 % 256 * 65536 + b % 256 * 256 + x % 256) % 64 by omega]
  flush := by
    intro s hi hc
    obtain ⟨b, c, e, o⟩ := s
    simp only [Enc.inv] at hi
    simp only [enc, decide_eq_true_eq] at hc
    by_cases hd : Enc.done ⟨b, c, e, o⟩
    · have hfl : Enc.flush noPadding ⟨b, c, e, o⟩ = ⟨b, c, e, o⟩ := by
        have h1 : c ≠ 0 ∧ ¬ c < 3 := by
          simp only [Enc.done] at hd
          omega
        simp only [Enc.flush, if_neg h1.1, if_neg h1.2]
        by_cases hnp : noPadding = true
        · rw [if_pos hnp] at hi ⊢
          congr 1
          omega
        · rw [if_neg hnp]
      refine ⟨by rw [show (enc t noPadding).flush = Enc.flush noPadding from rfl, hfl]; exact hi, ?_, ?_⟩
      · show Enc.q (Enc.flush noPadding _) = _
        rw [hfl]
        simp only [Enc.q, if_pos hd]
        rfl
      · show Enc.pend t (Enc.flush noPadding _) = _
        rw [hfl]
        simp only [Enc.q, if_pos hd]
        exact (List.append_nil _).symm
    · have hlt : c < 3 := by
        rcases hc with hc | hc
        · exact hc
        · exfalso
          simp only [Enc.q, if_neg hd] at hc
          split at hc
          · cases hc
          · split at hc <;> cases hc
      have he : e = 7 := by omega
      have ho : o = 7 := by omega
      subst he
      subst ho
      rcases (show c = 0 ∨ c = 1 ∨ c = 2 by omega) with rfl | rfl | rfl
      · refine ⟨?_, ?_, ?_⟩
        · exact Or.inl ⟨rfl, rfl, Nat.le_refl 7⟩
        · rfl
        · rfl
      · cases noPadding
        · refine ⟨?_, rfl, ?_⟩
          · show Enc.inv false ⟨(b * 256 + 0) * 256 + 0, 3, 5, 7⟩
            simp only [Enc.inv]
            simp
          · show Enc.pend t ⟨(b * 256 + 0) * 256 + 0, 3, 5, 7⟩ = [] ++ rfc4648 t 61 [b % 256]
            simp only [Enc.pend, rfc4648, rfcPad, List.nil_append]
            rw [if_pos (by omega)]
            simp only [Nat.reduceSub, chars]
            simp only [Nat.reduceLeDiff, if_true, if_false, Nat.reduceAdd, Nat.reduceEqDiff]
            rw [show (b * 256 + 0) * 256 + 0 = b * 65536 by omega, show b * 65536 / 262144 % 64 = b % 256 * 65536 / 262144 by omega,
              show b * 65536 * 64 / 262144 % 64 = b % 256 * 65536 / 4096 % 64 by omega]
            rfl
        · refine ⟨?_, rfl, ?_⟩
          · show Enc.inv true ⟨(b * 256 + 0) * 256 + 0, 3, 5, 5⟩
            simp only [Enc.inv]
            simp
          · show Enc.pend t ⟨(b * 256 + 0) * 256 + 0, 3, 5, 5⟩ = [] ++ rfc4648 t 0 [b % 256]
            simp only [Enc.pend, rfc4648, rfcPad, List.nil_append]
            rw [if_pos (by omega)]
            simp only [Nat.reduceSub, chars]
            simp only [Nat.reduceLeDiff, if_true, if_false, Nat.reduceAdd]
            rw [show (b * 256 + 0) * 256 + 0 = b * 65536 by omega, show b * 65536 / 262144 % 64 = b % 256 * 65536 / 262144 by omega,
              show b * 65536 * 64 / 262144 % 64 = b % 256 * 65536 / 4096 % 64 by omega]
      · cases noPadding
        · refine ⟨?_, rfl, ?_⟩
          · show Enc.inv false ⟨b * 256 + 0, 3, 6, 7⟩
            simp only [Enc.inv]
            simp
          · show Enc.pend t ⟨b * 256 + 0, 3, 6, 7⟩ = [] ++ rfc4648 t 61 [b / 256 % 256, b % 256]
            simp only [Enc.pend, rfc4648, rfcPad, List.nil_append]
            rw [if_pos (by omega)]
            simp only [Nat.reduceSub, chars]
            simp only [Nat.reduceLeDiff, if_true, if_false, Nat.reduceAdd, Nat.reduceEqDiff]
            rw [show (b * 256 + 0) / 262144 % 64 = (b / 256 % 256 * 65536 + b % 256 * 256) / 262144 by omega,
              show (b * 256 + 0) * 64 / 262144 % 64 = (b / 256 % 256 * 65536 + b % 256 * 256) / 4096 % 64 by omega,
              show (b * 256 + 0) * 64 * 64 / 262144 % 64 = (b / 256 % 256 * 65536 + b % 256 * 256) / 64 % 64 by omega]
            rfl
        · refine ⟨?_, rfl, ?_⟩
          · show Enc.inv true ⟨b * 256 + 0, 3, 6, 6⟩
            simp only [Enc.inv]
            simp
          · show Enc.pend t ⟨b * 256 + 0, 3, 6, 6⟩ = [] ++ rfc4648 t 0 [b / 256 % 256, b % 256]
            simp only [Enc.pend, rfc4648, rfcPad, List.nil_append]
            rw [if_pos (by omega)]
            simp only [Nat.reduceSub, chars]
            simp only [Nat.reduceLeDiff, if_true, if_false, Nat.reduceAdd]
            rw [show (b * 256 + 0) / 262144 % 64 = (b / 256 % 256 * 65536 + b % 256 * 256) / 262144 by omega,
              show (b * 256 + 0) * 64 / 262144 % 64 = (b / 256 % 256 * 65536 + b % 256 * 256) / 4096 % 64 by omega,
              show (b * 256 + 0) * 64 * 64 / 262144 % 64 = (b / 256 % 256 * 65536 + b % 256 * 256) / 64 % 64 by omega]
  fin := by
    intro p
    cases p <;> rfl

theorem enc_whole (t : List Nat) (pad : Nat) (bs : List Nat) (hb : ∀ x, x ∈ bs → x < 256) :
    FilterIter.Spec.whole (encMachine t pad) (some []) bs = rfc4648 t pad bs := by
  match bs, hb with
  | [], _ => rfl
  | [a], hb =>
    have ha : a % 256 = a := Nat.mod_eq_of_lt (hb a (by simp))
    show rfc4648 t pad [a % 256] = _
    rw [ha]
  | [a, b], hb =>
    have ha : a % 256 = a := Nat.mod_eq_of_lt (hb a (by simp))
    have hb' : b % 256 = b := Nat.mod_eq_of_lt (hb b (by simp))
    show rfc4648 t pad [a % 256, b % 256] = _
    rw [ha, hb']
  | a :: b :: c :: r, hb =>
    have ha : a % 256 = a := Nat.mod_eq_of_lt (hb a (by simp))
    have hb' : b % 256 = b := Nat.mod_eq_of_lt (hb b (by simp))
    have hc : c % 256 = c := Nat.mod_eq_of_lt (hb c (by simp))
    have ih := enc_whole t pad r (fun x hx => hb x (by simp [hx]))
    have : FilterIter.Spec.whole (encMachine t pad) (some []) (a :: b :: c :: r) =
        rfc4648 t pad [a % 256, b % 256, c % 256] ++ FilterIter.Spec.whole (encMachine t pad) (some []) r := by
      show (rfc4648 t pad [a % 256, b % 256, c % 256] ++ _) ++ _ = _
      rw [List.append_assoc]
      rfl
    rw [this, ih, ha, hb', hc]
    rfl

/-- C132 — for every bytes, every table, with and without padding: reading through the encoder gives the text of RFC 4648. -/
theorem C132_encode (t : List Nat) (noPadding : Bool) (bs : List Nat) (hb : ∀ x, x ∈ bs → x < 256) (n : Nat) (hn : (rfc4648 t (padOf noPadding) bs).length < n) :
    reads (enc t noPadding) n (rd Enc.new bs) = (rfc4648 t (padOf noPadding) bs, some .noItems) := by
  have hw : FilterIter.Spec.whole (encMachine t (padOf noPadding)) ((encWorks t noPadding).q Enc.new) bs = rfc4648 t (padOf noPadding) bs := enc_whole t _ bs hb
  rw [C130_read (encWorks t noPadding) Enc.new bs (Or.inl ⟨rfl, rfl, Nat.zero_le 7⟩) rfl n (by rw [hw]; exact hn), hw]

/-- C132 — writing through the encoder and `flush` write the text of RFC 4648. -/
theorem C132_encode_write (t : List Nat) (noPadding : Bool) (bs : List Nat) (hb : ∀ x, x ∈ bs → x < 256) (cap : Nat) (hn : (rfc4648 t (padOf noPadding) bs).length ≤ cap) :
    ∃ w w', writes (enc t noPadding) ⟨Enc.new, [], cap⟩ bs = .ok w ∧ FilterIter.flush (enc t noPadding) w = .ok w' ∧ w'.out = rfc4648 t (padOf noPadding) bs := by
  have hw : FilterIter.Spec.whole (encMachine t (padOf noPadding)) ((encWorks t noPadding).q Enc.new) bs = rfc4648 t (padOf noPadding) bs := enc_whole t _ bs hb
  have ho : ∀ (l : List Nat) (p : Option (List Nat)), p ≠ none → (encWorks t noPadding).open p l := by
    intro l
    induction l with
    | nil => intros; trivial
    | cons x r ih =>
      intro p hp
      refine ⟨hp, ih _ ?_⟩
      cases p with
      | none => exact absurd rfl hp
      | some g =>
        simp only [encMachine]
        split
        · next h => cases h
        · exact Option.some_ne_none _
        · exact Option.some_ne_none _
  obtain ⟨w, w', h1, h2, h3⟩ := C130_write_all (encWorks t noPadding) Enc.new bs cap (Or.inl ⟨rfl, rfl, Nat.zero_le 7⟩) rfl (ho bs _ (Option.some_ne_none [])) (by rw [hw]; exact hn)
  exact ⟨w, w', h1, h2, by rw [h3, hw]⟩

/-- In every state that occurs between two calls, `hasItems` says whether a character is to come. -/
theorem enc_hasItems (t : List Nat) (noPadding : Bool) (r : Rd Enc Nat Nat) (hi : Enc.inv noPadding r.flt)
    (hq : r.flt.q = none ∧ r.src = [] ∨ r.flt.q = some []) :
    FilterIter.hasItems (enc t noPadding) r = true ↔ (encWorks t noPadding).rest r ≠ [] := by
  constructor
  · intro hh hr
    obtain ⟨s, src, cell⟩ := r
    have key : (∀ b, cell ≠ .ready b) → (encWorks t noPadding).tail s src = [] := by
      intro hc
      cases cell with
      | ready b => exact absurd rfl (hc b)
      | empty => exact hr
      | used b => exact hr
    have hc : ∀ b, cell ≠ .ready b := by
      intro b e
      subst e
      cases hr
    have ht := key hc
    rw [Works.tail, List.append_eq_nil_iff] at ht
    simp only [FilterIter.hasItems, Bool.or_eq_true, Bool.and_eq_true] at hh
    rcases hh with (hh | hh) | hh
    · cases cell with
      | ready b => exact hc b rfl
      | empty => cases hh
      | used b => cases hh
    · exact ((encWorks t noPadding).has s hi).1 hh ht.1
    · rcases hq with hq | hq
      · rw [show src = [] from hq.2] at hh
        cases hh.1
      · have h2 := ht.2
        rw [show (encWorks t noPadding).q s = some [] from hq] at h2
        match src, hh with
        | [a], _ =>
          have : rfc4648 t (padOf noPadding) [a % 256] = [] := h2
          simp only [rfc4648] at this
          cases this
        | [a, b], _ =>
          have : rfc4648 t (padOf noPadding) [a % 256, b % 256] = [] := h2
          simp only [rfc4648] at this
          cases this
        | a :: b :: c :: l, _ =>
          rw [FilterIter.Spec.whole, List.append_eq_nil_iff] at h2
          have : rfc4648 t (padOf noPadding) [a % 256, b % 256, c % 256] ++ _ = [] := h2.1
          simp only [rfc4648] at this
          cases this
        | [], hh => cases hh.1
  · intro hr
    cases hh : FilterIter.hasItems (enc t noPadding) r with
    | true => rfl
    | false =>
      exfalso
      apply hr
      rw [C130_hasItems_no (encWorks t noPadding) r hi hh]
      rcases hq with hq | hq
      · rw [show (encWorks t noPadding).q r.flt = none from hq.1]
        rfl
      · rw [show (encWorks t noPadding).q r.flt = some [] from hq]
        rfl

theorem enc_fetch (t : List Nat) (noPadding : Bool) (s : Enc) (src : List Nat) (hi : Enc.inv noPadding s) (hq : s.q ≠ none) (s' : Enc) (src' : List Nat)
    (he : fetchLoop (enc t noPadding) s src = .ok (s', src')) : Enc.inv noPadding s' ∧ s'.q ≠ none ∧ (s'.cycle < 3 → src' = []) := by
  induction src generalizing s with
  | nil =>
    simp only [fetchLoop, Except.ok.injEq, Prod.mk.injEq] at he
    rw [← he.1, ← he.2]
    exact ⟨hi, hq, fun _ => rfl⟩
  | cons x r ih =>
    by_cases hn : (enc t noPadding).need s = true
    · obtain ⟨s1, e1, i1, q1, p1⟩ := (encWorks t noPadding).inp s x hi hn
      simp only [fetchLoop, hn, if_true, e1] at he
      refine ih s1 i1 ?_ he
      have q1 : s1.q = ((encMachine t (padOf noPadding)).emit s.q x).1 := q1
      rw [q1]
      cases h : s.q with
      | none => exact absurd h hq
      | some g =>
        simp only [encMachine]
        split
        · next h => cases h
        · exact Option.some_ne_none _
        · exact Option.some_ne_none _
    · simp only [fetchLoop, if_neg hn, Except.ok.injEq, Prod.mk.injEq] at he
      rw [← he.1, ← he.2]
      refine ⟨hi, hq, fun c => absurd ?_ hn⟩
      simp only [enc, decide_eq_true_eq]
      exact c

theorem enc_fill (t : List Nat) (noPadding : Bool) (s : Enc) (src : List Nat) (hi : Enc.inv noPadding s) (hq : s.q = none ∧ src = [] ∨ s.q = some []) (s' : Enc) (src' : List Nat)
    (he : fill (enc t noPadding) s src = .ok (s', src')) : s'.q = none ∧ src' = [] ∨ s'.q = some [] := by
  unfold fill at he
  by_cases hh : (enc t noPadding).has s = true
  · rw [if_pos hh] at he
    injection he with he
    injection he with h1 h2
    rw [← h1, ← h2]
    exact hq
  · rw [if_neg hh] at he
    unfold blockFetch at he
    rcases hq with ⟨hq, hs⟩ | hq
    · subst hs
      have hp : (encWorks t noPadding).pend s = [] := by
        cases e : (encWorks t noPadding).pend s with
        | nil => rfl
        | cons b bs => exact absurd (((encWorks t noPadding).has s hi).2 (by rw [e]; exact List.cons_ne_nil _ _)) hh
      simp only [fetchLoop] at he
      by_cases hn : (enc t noPadding).need s = true
      · rw [if_pos hn] at he
        injection he with he
        injection he with h1 h2
        refine Or.inl ⟨?_, h2.symm⟩
        have := ((encWorks t noPadding).flush s hi (Or.inl hn)).2.1
        rw [← h1]
        have hq' : (encWorks t noPadding).q s = none := hq
        rw [hq'] at this
        exact this
      · rw [if_neg hn] at he
        injection he with he
        injection he with h1 h2
        rw [← h1, ← h2]
        exact Or.inl ⟨hq, rfl⟩
    · cases hf : fetchLoop (enc t noPadding) s src with
      | error e =>
        rw [hf] at he
        cases he
      | ok x =>
        obtain ⟨s1, src1⟩ := x
        rw [hf] at he
        obtain ⟨i1, q1, n1⟩ := enc_fetch t noPadding s src hi (by rw [hq]; exact Option.some_ne_none _) s1 src1 hf
        simp only at he
        by_cases hn : (enc t noPadding).need s1 = true
        · rw [if_pos hn] at he
          injection he with he
          injection he with h1 h2
          have hs := n1 (by simpa [enc] using hn)
          refine Or.inl ⟨?_, by rw [← h2]; exact hs⟩
          have := ((encWorks t noPadding).flush s1 i1 (Or.inl hn)).2.1
          rw [← h1]
          have this : (Enc.flush noPadding s1).q = ((encMachine t (padOf noPadding)).fin s1.q).1 := this
          show (Enc.flush noPadding s1).q = none
          rw [this]
          cases s1.q <;> rfl
        · rw [if_neg hn] at he
          injection he with he
          injection he with h1 h2
          rw [← h1]
          right
          have hc : ¬ s1.cycle < 3 := by simpa [enc] using hn
          have hd : ¬ s1.done := by
            intro c
            apply q1
            simp only [Enc.q, if_pos c]
          simp only [Enc.q, if_neg hd]
          rw [if_neg (by omega), if_neg (by omega)]

theorem enc_getNext (t : List Nat) (noPadding : Bool) (r r' : Rd Enc Nat Nat) (b : Nat) (hi : Enc.inv noPadding r.flt) (hq : r.flt.q = none ∧ r.src = [] ∨ r.flt.q = some [])
    (he : getNext (enc t noPadding) r = .ok (b, r')) : r'.flt.q = none ∧ r'.src = [] ∨ r'.flt.q = some [] := by
  obtain ⟨s, src, cell⟩ := r
  have key : ∀ (x : Nat) (y : Rd Enc Nat Nat), getBuffer (enc t noPadding) ⟨s, src, .empty⟩ = .ok (x, y) → y.flt.q = none ∧ y.src = [] ∨ y.flt.q = some [] := by
    intro x y h
    obtain ⟨s1, src1, e1, i1, t1, n1⟩ := fill_works (encWorks t noPadding) s src hi
    have h2 := enc_fill t noPadding s src hi hq s1 src1 e1
    simp only [getBuffer, e1, takeOne] at h
    by_cases hh : (enc t noPadding).has s1 = true
    · rw [if_pos hh] at h
      cases hp : (encWorks t noPadding).pend s1 with
      | nil => exact absurd hp (((encWorks t noPadding).has s1 i1).1 hh)
      | cons c cs =>
        obtain ⟨s2, e2, i2, q2, p2⟩ := (encWorks t noPadding).out s1 c cs i1 hp
        rw [e2] at h
        injection h with h
        injection h with h3 h4
        rw [← h4]
        have q2 : s2.q = s1.q := q2
        show s2.q = none ∧ src1 = [] ∨ s2.q = some []
        rw [q2]
        exact h2
    · rw [if_neg hh] at h
      cases h
  simp only [getNext] at he
  cases hg : getBuffer (enc t noPadding) ⟨s, src, cell⟩ with
  | error e =>
    rw [hg] at he
    cases he
  | ok z =>
    obtain ⟨x, y⟩ := z
    rw [hg] at he
    injection he with he
    injection he with h1 h2
    rw [← h2]
    show y.flt.q = none ∧ y.src = [] ∨ y.flt.q = some []
    cases cell with
    | ready c =>
      simp only [getBuffer, Except.ok.injEq, Prod.mk.injEq] at hg
      rw [← hg.2]
      exact hq
    | empty => exact key x y hg
    | used c => exact key x y hg

theorem enc_readsWhile (t : List Nat) (noPadding : Bool) (n : Nat) (r : Rd Enc Nat Nat) (hi : Enc.inv noPadding r.flt) (hq : r.flt.q = none ∧ r.src = [] ∨ r.flt.q = some [])
    (hn : ((encWorks t noPadding).rest r).length ≤ n) : readsWhile (enc t noPadding) n r = ((encWorks t noPadding).rest r, none) := by
  induction n generalizing r with
  | zero =>
    rw [List.eq_nil_of_length_eq_zero (Nat.le_zero.1 hn)]
    rfl
  | succ n ih =>
    have hh := enc_hasItems t noPadding r hi hq
    rcases C130_getNext (encWorks t noPadding) r hi with ⟨h1, h2⟩ | ⟨b, bs, r', h1, h2, h3, h4⟩
    · rw [h1] at hh ⊢
      simp only [readsWhile]
      rw [if_neg (fun c => hh.1 c rfl)]
    · have := ih r' h3 (enc_getNext t noPadding r r' b hi hq h2) (by rw [h4]; rw [h1, List.length_cons] at hn; omega)
      simp only [readsWhile]
      rw [if_pos (hh.2 (by rw [h1]; exact List.cons_ne_nil _ _)), h2]
      simp only [this, h4, h1]

/-- C132 — a reader of the encoder that asks `hasItems` before each character gets the whole text and no exception. -/
theorem C132_encode_hasItems (t : List Nat) (noPadding : Bool) (bs : List Nat) (hb : ∀ x, x ∈ bs → x < 256) (n : Nat) (hn : (rfc4648 t (padOf noPadding) bs).length ≤ n) :
    readsWhile (enc t noPadding) n (rd Enc.new bs) = (rfc4648 t (padOf noPadding) bs, none) := by
  have hr : (encWorks t noPadding).rest (rd Enc.new bs) = rfc4648 t (padOf noPadding) bs := enc_whole t _ bs hb
  rw [enc_readsWhile t noPadding n (rd Enc.new bs) (Or.inl ⟨rfl, rfl, Nat.zero_le 7⟩) (Or.inr rfl) (by rw [hr]; exact hn), hr]

/-- C132 — violated (base64.tcc:73-84): what is written behind a `flush` is lost without an error (`flush` of FilterWrite is a usual call in the middle of a stream). -/
theorem C132_flush_violated : ∃ w1 w2 w3 w4, writes (enc standardTable false) ⟨Enc.new, [], 99⟩ [77, 97, 110] = .ok w1 ∧ FilterIter.flush (enc standardTable false) w1 = .ok w2 ∧
    writes (enc standardTable false) w2 [77, 97, 110] = .ok w3 ∧ FilterIter.flush (enc standardTable false) w3 = .ok w4 ∧ w4.out = [84, 87, 70, 117] := by
  refine ⟨⟨⟨5071214 * 64 ^ 4, 0, 7, 7⟩, [84, 87, 70, 117], 99⟩, ⟨⟨5071214 * 64 ^ 4, 7, 7, 7⟩, [84, 87, 70, 117], 99⟩,
    ⟨⟨((5071214 * 64 ^ 4 * 256 + 77) * 256 + 97) * 256 + 110, 10, 7, 7⟩, [84, 87, 70, 117], 99⟩,
    ⟨⟨((5071214 * 64 ^ 4 * 256 + 77) * 256 + 97) * 256 + 110, 10, 7, 7⟩, [84, 87, 70, 117], 99⟩, ?_, ?_, ?_, ?_, rfl⟩ <;> rfl

/-- C132 — violated (base64.tcc:63-70, exchanged): with three bytes to encode `getRemain` says that nothing remains. -/
theorem C132_getRemain_violated : encRemain (rd Enc.new [77, 97, 110]) = 0 ∧ reads (enc standardTable false) 9 (rd Enc.new [77, 97, 110]) = ([84, 87, 70, 117], some .noItems) := by
  refine ⟨rfl, rfl⟩

/-! ## The decoder -/

/-- The three bytes of a buffer. -/
def bytes3 (b : Nat) : List Nat := [b / 65536 % 256, b / 256 % 256, b % 256]

/-- The state without what is ready. -/
def Dec.canon (s : Dec) : Dec := if s.cycle < 4 then s else if s.eos = 7 then ⟨0, 0, 7⟩ else ⟨0, 7, s.eos⟩

/-- What is ready. -/
def Dec.pend (s : Dec) : List Nat := if s.cycle < 4 then [] else ((bytes3 s.buffer).drop (s.cycle - 4)).take (s.eos - s.cycle)

/-- States that occur. -/
def Dec.inv (s : Dec) : Prop :=
  (s.cycle < 4 ∧ 3 ≤ s.eos ∧ s.eos ≤ 7) ∨ (4 ≤ s.cycle ∧ s.cycle ≤ 6 ∧ s.eos = 7) ∨ (4 ≤ s.cycle ∧ s.eos < 7 ∧ 3 ≤ s.eos ∧ (s.cycle ≤ s.eos ∨ s.cycle = 4))

/-- The machine of the decoder. -/
def decMachine : FilterIter.Spec.Machine Dec Nat Nat where
  emit := fun q x => if 4 ≤ q.cycle then (q, []) else match q.input x with
    | .ok s => (s.canon, s.pend)
    | .error _ => (q, [])
  fin := fun q => if 4 ≤ q.cycle then (q, []) else (q.flush.canon, q.flush.pend)

theorem Dec.canon_inv (s : Dec) (hi : s.inv) : s.canon.inv ∨ 4 ≤ s.canon.cycle := by
  unfold Dec.canon
  split
  · exact Or.inl hi
  · split
    · exact Or.inl (Or.inl ⟨by show 0 < 4; omega, by show 3 ≤ 7; omega, Nat.le_refl 7⟩)
    · exact Or.inr (by show 4 ≤ 7; omega)

theorem Dec.pend_nil (s : Dec) (hi : s.inv) : s.pend ≠ [] ↔ 4 ≤ s.cycle ∧ s.cycle < s.eos := by
  obtain ⟨b, c, e⟩ := s
  simp only [Dec.inv] at hi
  simp only [Dec.pend]
  by_cases h : c < 4
  · rw [if_pos h]
    exact ⟨fun x => absurd rfl x, fun x => by omega⟩
  · rw [if_neg h]
    constructor
    · intro x
      refine ⟨by omega, ?_⟩
      apply Classical.byContradiction
      intro y
      apply x
      rw [show e - c = 0 by omega, List.take_zero]
    · intro x y
      have := congrArg List.length y
      rw [List.length_take, List.length_drop] at this
      simp only [bytes3, List.length_cons, List.length_nil] at this
      omega

theorem Dec.input_inv (s : Dec) (x : Nat) (hi : s.inv) (hc : s.cycle < 4) : ∃ s', s.input x = .ok s' ∧ s'.inv := by
  obtain ⟨b, c, e⟩ := s
  simp only [Dec.inv] at hi
  simp only at hc
  unfold Dec.input
  by_cases h1 : decodeTable x = 255
  · rw [if_pos h1]
    by_cases h2 : x = 61 ∨ x = 46 ∨ x = 126
    · rw [if_pos h2]
      refine ⟨_, rfl, ?_⟩
      simp only [Dec.inv]
      split <;> omega
    · rw [if_neg h2]
      exact ⟨_, rfl, by simp only [Dec.inv]; omega⟩
  · rw [if_neg h1, if_neg (by simp only; omega)]
    exact ⟨_, rfl, by simp only [Dec.inv]; omega⟩

theorem dec_shut (p : Dec) (l : List Nat) (h : 4 ≤ p.cycle) : FilterIter.Spec.whole decMachine p l = [] := by
  have hg : FilterIter.Spec.given decMachine p l = [] ∧ FilterIter.Spec.state decMachine p l = p := by
    induction l with
    | nil => exact ⟨rfl, rfl⟩
    | cons x r ih =>
      have he : decMachine.emit p x = (p, []) := if_pos h
      simp only [FilterIter.Spec.given, FilterIter.Spec.state, he]
      exact ih
  have hf : decMachine.fin p = (p, []) := if_pos h
  rw [FilterIter.Spec.whole, hg.1, hg.2, hf]
  rfl

theorem out_4 (b e : Nat) : dec.out ⟨b, 4, e⟩ = .ok (b / 65536 % 256, ⟨b, 5, e⟩) := by
  show LS.Base64Filter.Dec.output ⟨b, 4, e⟩ = _
  rw [Dec.output, if_neg (by show ¬ 7 < 5; omega), if_neg (by show ¬ 5 = 7; omega)]
  simp only [Nat.reduceAdd, Nat.reduceSub, Nat.reduceMul, Nat.reducePow]

theorem out_5 (b e : Nat) : dec.out ⟨b, 5, e⟩ = .ok (b / 256 % 256, ⟨b, 6, e⟩) := by
  show LS.Base64Filter.Dec.output ⟨b, 5, e⟩ = _
  rw [Dec.output, if_neg (by show ¬ 7 < 6; omega), if_neg (by show ¬ 6 = 7; omega)]
  simp only [Nat.reduceAdd, Nat.reduceSub, Nat.reduceMul, Nat.reducePow]

theorem out_6 (b e : Nat) : dec.out ⟨b, 6, e⟩ = .ok (b % 256, ⟨0, 0, e⟩) := by
  show LS.Base64Filter.Dec.output ⟨b, 6, e⟩ = _
  rw [Dec.output, if_neg (by show ¬ 7 < 7; omega), if_pos (by rfl)]
  simp only [Nat.reduceAdd, Nat.sub_self, Nat.zero_mul, Nat.pow_zero, Nat.div_one]

theorem pend_4 (b k : Nat) : Dec.pend ⟨b, 4, k + 5⟩ = b / 65536 % 256 :: [b / 256 % 256, b % 256].take k := by
  rw [Dec.pend, if_neg (by show ¬ 4 < 4; omega)]
  simp only [show k + 5 - 4 = k + 1 by omega, bytes3, Nat.sub_self, List.drop_zero, List.take_succ_cons]

theorem pend_5 (b k : Nat) : Dec.pend ⟨b, 5, k + 5⟩ = [b / 256 % 256, b % 256].take k := by
  rw [Dec.pend, if_neg (by show ¬ 5 < 4; omega)]
  simp only [show k + 5 - 5 = k by omega, show 5 - 4 = 1 by omega, bytes3, List.drop_succ_cons, List.drop_zero]

theorem pend_6 (b k : Nat) : Dec.pend ⟨b, 6, k + 6⟩ = [b % 256].take k := by
  rw [Dec.pend, if_neg (by show ¬ 6 < 4; omega)]
  simp only [show k + 6 - 6 = k by omega, show 6 - 4 = 2 by omega, bytes3, List.drop_succ_cons, List.drop_zero]

/-- The decoder works as its machine. -/
def decWorks : Works dec decMachine where
  inv := Dec.inv
  q := Dec.canon
  pend := Dec.pend
  closed := fun p => 4 ≤ p.cycle
  has := by
    intro s hi
    rw [Dec.pend_nil s hi]
    simp only [dec, decide_eq_true_eq]
  need := by
    intro s hi hp hc
    simp only [dec, decide_eq_true_eq]
    apply Classical.byContradiction
    intro h
    have h1 : ¬ (4 ≤ s.cycle ∧ s.cycle < s.eos) := fun c => (Dec.pend_nil s hi).2 c hp
    apply hc
    unfold Dec.canon
    rw [if_neg h, if_neg (by rcases hi with hi | hi | hi <;> omega)]
    show 4 ≤ 7
    omega
  shut := fun p l h => dec_shut p l h
  out := by
    intro s b bs hi hp
    obtain ⟨buf, c, e⟩ := s
    have hh : 4 ≤ c ∧ c < e := (Dec.pend_nil _ hi).1 (by rw [hp]; exact List.cons_ne_nil _ _)
    simp only [Dec.inv] at hi
    have hc : c = 4 ∨ c = 5 ∨ c = 6 := by omega
    rcases hc with rfl | rfl | rfl
    · obtain ⟨k, rfl⟩ : ∃ k, e = k + 5 := ⟨e - 5, by omega⟩
      have hp : buf / 65536 % 256 :: [buf / 256 % 256, buf % 256].take k = b :: bs := by rw [← hp]; exact (pend_4 buf k).symm
      injection hp with h1 h2
      refine ⟨⟨buf, 5, k + 5⟩, by rw [← h1]; exact out_4 buf (k + 5), ?_, rfl, by rw [← h2]; exact pend_5 buf k⟩
      simp only [Dec.inv]
      omega
    · obtain ⟨k, rfl⟩ : ∃ k, e = k + 6 := ⟨e - 6, by omega⟩
      have hp : buf / 256 % 256 :: [buf % 256].take k = b :: bs := by rw [← hp]; exact (pend_5 buf (k + 1)).symm
      injection hp with h1 h2
      refine ⟨⟨buf, 6, k + 6⟩, by rw [← h1]; exact out_5 buf (k + 6), ?_, rfl, by rw [← h2]; exact pend_6 buf k⟩
      simp only [Dec.inv]
      omega
    · obtain rfl : e = 7 := by omega
      have hp : [buf % 256] = b :: bs := by rw [← hp]; exact (pend_6 buf 1).symm
      injection hp with h1 h2
      refine ⟨⟨0, 0, 7⟩, by rw [← h1]; exact out_6 buf 7, Or.inl ⟨by decide, by decide, by decide⟩, rfl, by rw [← h2]; rfl⟩
  inp := by
    intro s x hi hn
    have hn : s.cycle < 4 := by simpa [dec] using hn
    obtain ⟨s', e, i⟩ := Dec.input_inv s x hi hn
    have hq : s.canon = s := if_pos hn
    have hp : s.pend = [] := if_pos hn
    have hm : decMachine.emit s x = (s'.canon, s'.pend) := by
      simp only [decMachine, e]
      rw [if_neg (by omega)]
    refine ⟨s', e, i, ?_, ?_⟩
    · rw [hq, hm]
    · rw [hq, hm, hp, List.nil_append]
  flush := by
    intro s hi hn
    by_cases h : s.cycle < 4
    · have hq : s.canon = s := if_pos h
      have hp : s.pend = [] := if_pos h
      have hm : decMachine.fin s = (s.flush.canon, s.flush.pend) := if_neg (by omega)
      rw [hq, hm, hp]
      refine ⟨?_, rfl, rfl⟩
      show s.flush.inv
      unfold Dec.flush
      split
      · rcases hi with hi | hi | hi
        · refine Or.inr (Or.inr ⟨Nat.le_refl 4, ?_, ?_, Or.inr rfl⟩)
          · show 7 - s.cycle < 7
            omega
          · show 3 ≤ 7 - s.cycle
            omega
        · omega
        · omega
      · exact hi
    · have hc : 4 ≤ s.canon.cycle := by
        rcases hn with hn | hn
        · exact absurd (by simpa [dec] using hn) h
        · exact hn
      have hf : dec.flush s = s := if_neg (by omega)
      have hm : decMachine.fin s.canon = (s.canon, []) := if_pos hc
      rw [hf, hm, List.append_nil]
      exact ⟨hi, rfl, rfl⟩
  fin := by
    intro p
    by_cases h : 4 ≤ p.cycle
    · have : decMachine.fin p = (p, []) := if_pos h
      rw [this, this]
    · have : decMachine.fin p = (p.flush.canon, p.flush.pend) := if_neg h
      rw [this]
      by_cases h2 : 0 < p.cycle
      · have hf : p.flush = { p with eos := 7 - p.cycle, cycle := 4 } := if_pos ⟨by omega, h2⟩
        have hc : p.flush.canon = ⟨0, 7, 7 - p.cycle⟩ := by
          rw [hf]
          unfold Dec.canon
          rw [if_neg (by show ¬ 4 < 4; omega), if_neg (by show ¬ 7 - p.cycle = 7; omega)]
        rw [hc]
        rfl
      · have hf : p.flush = p := if_neg (by omega)
        have hq : p.canon = p := if_pos (by omega)
        rw [hf]
        simp only [hq, this, hf]
        exact if_pos (by omega)

/-- The tables that the decoder knows. -/
def Known (t : List Nat) : Prop := ∀ i, i < 64 → decodeTable (t.getD i 0) = i

theorem known_standard : Known standardTable := by unfold Known; decide +kernel

theorem known_forUrl : Known forUrlTable := by unfold Known; decide +kernel

theorem input_1 (x : Nat) (h : decodeTable x < 64) : Dec.input ⟨0, 0, 7⟩ x = .ok ⟨decodeTable x * 262144, 1, 7⟩ := by
  rw [Dec.input, if_neg (by omega), if_neg (by show ¬ 4 < 1; omega)]
  simp only [Nat.zero_or, Nat.shiftLeft_eq, Nat.reduceAdd, Nat.reduceSub, Nat.reduceMul, Nat.reducePow]

theorem input_2 (a x : Nat) (h : decodeTable x < 64) : Dec.input ⟨a * 262144, 1, 7⟩ x = .ok ⟨a * 262144 + decodeTable x * 4096, 2, 7⟩ := by
  rw [Dec.input, if_neg (by omega), if_neg (by show ¬ 4 < 2; omega)]
  have := Nat.shiftLeft_add_eq_or_of_lt (a := a) (b := decodeTable x <<< 12) (i := 18) (by rw [Nat.shiftLeft_eq]; omega)
  simp only [Nat.reduceAdd, Nat.reduceSub, Nat.reduceMul, Nat.shiftLeft_eq, Nat.reducePow] at this ⊢
  rw [← this]

theorem input_3 (a b x : Nat) (h : decodeTable x < 64) :
    Dec.input ⟨a * 262144 + b * 4096, 2, 7⟩ x = .ok ⟨a * 262144 + b * 4096 + decodeTable x * 64, 3, 7⟩ := by
  rw [Dec.input, if_neg (by omega), if_neg (by show ¬ 4 < 3; omega)]
  have := Nat.shiftLeft_add_eq_or_of_lt (a := a * 64 + b) (b := decodeTable x <<< 6) (i := 12) (by rw [Nat.shiftLeft_eq]; omega)
  simp only [Nat.reduceAdd, Nat.reduceSub, Nat.reduceMul, Nat.shiftLeft_eq, Nat.reducePow] at this ⊢
  have e : a * 262144 + b * 4096 = (a * 64 + b) * 4096 := by rw [Nat.add_mul, Nat.mul_assoc]
  rw [e, ← this]

theorem input_4 (a b c x : Nat) (h : decodeTable x < 64) :
    Dec.input ⟨a * 262144 + b * 4096 + c * 64, 3, 7⟩ x = .ok ⟨a * 262144 + b * 4096 + c * 64 + decodeTable x, 4, 7⟩ := by
  rw [Dec.input, if_neg (by omega), if_neg (by show ¬ 4 < 4; omega)]
  have := Nat.shiftLeft_add_eq_or_of_lt (a := a * 4096 + b * 64 + c) (b := decodeTable x) (i := 6) (by omega)
  simp only [Nat.reduceAdd, Nat.reduceSub, Nat.mul_zero, Nat.shiftLeft_eq, Nat.reducePow, Nat.pow_zero, Nat.mul_one] at this ⊢
  rw [show a * 262144 + b * 4096 + c * 64 = (a * 4096 + b * 64 + c) * 64 by omega, ← this]

theorem emit_of (q s : Dec) (x : Nat) (hq : q.cycle < 4) (h : q.input x = .ok s) : decMachine.emit q x = (s.canon, s.pend) := by
  simp only [decMachine, h]
  rw [if_neg (by omega)]

theorem dec_whole_cons (q s : Dec) (x : Nat) (l : List Nat) (hq : q.cycle < 4) (h : q.input x = .ok s) :
    FilterIter.Spec.whole decMachine q (x :: l) = s.pend ++ FilterIter.Spec.whole decMachine s.canon l := by
  simp only [FilterIter.Spec.whole, FilterIter.Spec.given, FilterIter.Spec.state, emit_of q s x hq h, List.append_assoc]

/-- The padding or nothing. -/
theorem rfcPad_1 : rfcPad 61 1 = [61] := rfl
theorem rfcPad_2 : rfcPad 61 2 = [61, 61] := rfl

theorem pad_2 (b : Nat) : Dec.input ⟨b, 2, 7⟩ 61 = .ok ⟨b, 3, 5⟩ := rfl
theorem pad_3 (b : Nat) : Dec.input ⟨b, 3, 7⟩ 61 = .ok ⟨b, 4, 6⟩ := rfl
theorem pad_3' (b : Nat) : Dec.input ⟨b, 3, 5⟩ 61 = .ok ⟨b, 4, 5⟩ := rfl

theorem dec_whole (t : List Nat) (ht : Known t) (bs : List Nat) (hb : ∀ x, x ∈ bs → x < 256) :
    FilterIter.Spec.whole decMachine Dec.new (rfc4648 t 61 bs) = bs := by
  fun_induction rfc4648 t 61 bs with
  | case1 a b c rest v ih =>
    have ha : a < 256 := hb a (by simp)
    have hb' : b < 256 := hb b (by simp)
    have hc : c < 256 := hb c (by simp)
    have k1 := ht (v / 262144) (by omega)
    have k2 := ht (v / 4096 % 64) (by omega)
    have k3 := ht (v / 64 % 64) (by omega)
    have k4 := ht (v % 64) (by omega)
    rw [Dec.new, dec_whole_cons _ _ _ _ (by show 0 < 4; omega) (input_1 _ (by omega)), k1]
    rw [show Dec.canon ⟨v / 262144 * 262144, 1, 7⟩ = ⟨v / 262144 * 262144, 1, 7⟩ from rfl, dec_whole_cons _ _ _ _ (by show 1 < 4; omega) (input_2 _ _ (by omega)), k2]
    rw [show ∀ z, Dec.canon ⟨z, 2, 7⟩ = ⟨z, 2, 7⟩ from fun _ => rfl, dec_whole_cons _ _ _ _ (by show 2 < 4; omega) (input_3 _ _ _ (by omega)), k3]
    rw [show ∀ z, Dec.canon ⟨z, 3, 7⟩ = ⟨z, 3, 7⟩ from fun _ => rfl, dec_whole_cons _ _ _ _ (by show 3 < 4; omega) (input_4 _ _ _ _ (by omega)), k4]
    rw [show ∀ z, Dec.canon ⟨z, 4, 7⟩ = Dec.new from fun _ => rfl, ih (fun x hx => hb x (by simp [hx]))]
    rw [show v / 262144 * 262144 + v / 4096 % 64 * 4096 + v / 64 % 64 * 64 + v % 64 = v by omega]
    rw [show ∀ z, Dec.pend ⟨z, 1, 7⟩ = [] from fun _ => rfl, show ∀ z, Dec.pend ⟨z, 2, 7⟩ = [] from fun _ => rfl, show ∀ z, Dec.pend ⟨z, 3, 7⟩ = [] from fun _ => rfl, pend_4 v 2]
    simp only [List.nil_append, List.take_succ_cons, List.take_zero, List.cons_append]
    rw [show v / 65536 % 256 = a by omega, show v / 256 % 256 = b by omega, show v % 256 = c by omega]
  | case2 a b v =>
    have ha : a < 256 := hb a (by simp)
    have hb' : b < 256 := hb b (by simp)
    have k1 := ht (v / 262144) (by omega)
    have k2 := ht (v / 4096 % 64) (by omega)
    have k3 := ht (v / 64 % 64) (by omega)
    rw [rfcPad_1]
    rw [Dec.new, dec_whole_cons _ _ _ _ (by show 0 < 4; omega) (input_1 _ (by omega)), k1]
    rw [show Dec.canon ⟨v / 262144 * 262144, 1, 7⟩ = ⟨v / 262144 * 262144, 1, 7⟩ from rfl, dec_whole_cons _ _ _ _ (by show 1 < 4; omega) (input_2 _ _ (by omega)), k2]
    rw [show ∀ z, Dec.canon ⟨z, 2, 7⟩ = ⟨z, 2, 7⟩ from fun _ => rfl, dec_whole_cons _ _ _ _ (by show 2 < 4; omega) (input_3 _ _ _ (by omega)), k3]
    rw [show ∀ z, Dec.canon ⟨z, 3, 7⟩ = ⟨z, 3, 7⟩ from fun _ => rfl, dec_whole_cons _ _ _ _ (by show 3 < 4; omega) (pad_3 _)]
    rw [show ∀ z, Dec.canon ⟨z, 4, 6⟩ = ⟨0, 7, 6⟩ from fun _ => rfl, dec_shut ⟨0, 7, 6⟩ [] (by show 4 ≤ 7; omega)]
    rw [show v / 262144 * 262144 + v / 4096 % 64 * 4096 + v / 64 % 64 * 64 = v by omega]
    rw [show ∀ z, Dec.pend ⟨z, 1, 7⟩ = [] from fun _ => rfl, show ∀ z, Dec.pend ⟨z, 2, 7⟩ = [] from fun _ => rfl, show ∀ z, Dec.pend ⟨z, 3, 7⟩ = [] from fun _ => rfl, pend_4 v 1]
    simp only [List.nil_append, List.take_succ_cons, List.take_zero, List.append_nil]
    rw [show v / 65536 % 256 = a by omega, show v / 256 % 256 = b by omega]
  | case3 a v =>
    have ha : a < 256 := hb a (by simp)
    have k1 := ht (v / 262144) (by omega)
    have k2 := ht (v / 4096 % 64) (by omega)
    rw [rfcPad_2]
    rw [Dec.new, dec_whole_cons _ _ _ _ (by show 0 < 4; omega) (input_1 _ (by omega)), k1]
    rw [show Dec.canon ⟨v / 262144 * 262144, 1, 7⟩ = ⟨v / 262144 * 262144, 1, 7⟩ from rfl, dec_whole_cons _ _ _ _ (by show 1 < 4; omega) (input_2 _ _ (by omega)), k2]
    rw [show ∀ z, Dec.canon ⟨z, 2, 7⟩ = ⟨z, 2, 7⟩ from fun _ => rfl, dec_whole_cons _ _ _ _ (by show 2 < 4; omega) (pad_2 _)]
    rw [show ∀ z, Dec.canon ⟨z, 3, 5⟩ = ⟨z, 3, 5⟩ from fun _ => rfl, dec_whole_cons _ _ _ _ (by show 3 < 4; omega) (pad_3' _)]
    rw [show ∀ z, Dec.canon ⟨z, 4, 5⟩ = ⟨0, 7, 5⟩ from fun _ => rfl, dec_shut ⟨0, 7, 5⟩ [] (by show 4 ≤ 7; omega)]
    rw [show v / 262144 * 262144 + v / 4096 % 64 * 4096 = v by omega]
    rw [show ∀ z, Dec.pend ⟨z, 1, 7⟩ = [] from fun _ => rfl, show ∀ z, Dec.pend ⟨z, 2, 7⟩ = [] from fun _ => rfl, show ∀ z, Dec.pend ⟨z, 3, 5⟩ = [] from fun _ => rfl, pend_4 v 0]
    simp only [List.nil_append, List.take_zero, List.append_nil]
    rw [show v / 65536 % 256 = a by omega]
  | case4 => rfl

/-- A character that the decoder passes over (base64.tcc:94-99): no letter of both tables and no padding. -/
def ignored (x : Nat) : Bool := decide (decodeTable x = 255) && !(x == 61 || x == 46 || x == 126)

theorem dec_whole_ignored (q : Dec) (l : List Nat) :
    FilterIter.Spec.whole decMachine q l = FilterIter.Spec.whole decMachine q (l.filter (fun x => !ignored x)) := by
  induction l generalizing q with
  | nil => rfl
  | cons x r ih =>
    by_cases h : ignored x = true
    · rw [List.filter_cons_of_neg (by rw [h]; simp), ← ih q]
      have he : decMachine.emit q x = (q, []) := by
        by_cases hq : 4 ≤ q.cycle
        · exact if_pos hq
        · have hx : decodeTable x = 255 ∧ ¬ (x = 61 ∨ x = 46 ∨ x = 126) := by
            simp only [ignored, Bool.and_eq_true, decide_eq_true_eq, Bool.not_eq_true', Bool.or_eq_false_iff, beq_eq_false_iff_ne] at h
            exact ⟨h.1, by intro c; rcases c with c | c | c; exact h.2.1.1 c; exact h.2.1.2 c; exact h.2.2 c⟩
          rw [emit_of q q x (by omega) (by rw [Dec.input, if_pos hx.1, if_neg hx.2])]
          rw [show q.canon = q from if_pos (by omega), show q.pend = [] from if_pos (by omega)]
      simp only [FilterIter.Spec.whole, FilterIter.Spec.given, FilterIter.Spec.state, he, List.nil_append]
    · rw [List.filter_cons_of_pos (by simpa using h)]
      have := ih (decMachine.emit q x).1
      simp only [FilterIter.Spec.whole] at this
      simp only [FilterIter.Spec.whole, FilterIter.Spec.given, FilterIter.Spec.state, List.append_assoc, this]

/-- C132 — the text of RFC 4648 of any bytes, in either alphabet, with any characters strewn in that belong to none, read through the decoder gives the bytes. -/
theorem C132_decode (t : List Nat) (ht : t = standardTable ∨ t = forUrlTable) (bs : List Nat) (hb : ∀ x, x ∈ bs → x < 256) (text : List Nat)
    (hx : text.filter (fun x => !ignored x) = rfc4648 t 61 bs) (n : Nat) (hn : bs.length < n) : reads dec n (rd Dec.new text) = (bs, some .noItems) := by
  have hk : Known t := by
    rcases ht with rfl | rfl
    · exact known_standard
    · exact known_forUrl
  have hw : FilterIter.Spec.whole decMachine (decWorks.q Dec.new) text = bs := by
    rw [dec_whole_ignored, hx]
    exact dec_whole t hk bs hb
  rw [C130_read decWorks Dec.new text (Or.inl ⟨by decide, by decide, by decide⟩) rfl n (by rw [hw]; exact hn), hw]

/-- The premise is not empty: spaces, line ends and all else outside of the alphabets are strewn in. -/
example : (∀ x, x ∈ [32, 10, 13, 9, 0, 33, 255] → ignored x = true) ∧ (∀ x, x ∈ standardTable ++ forUrlTable ++ [61, 46, 126] → ignored x = false) := by decide +kernel

example : reads dec 4 (rd Dec.new [84, 87, 10, 70, 117]) = ([77, 97, 110], some .noItems) :=
  C132_decode standardTable (Or.inl rfl) [77, 97, 110] (by decide) _ (by decide +kernel) 4 (by decide)

/-- Without padding the text is the same up to its end. -/
theorem dec_whole_np (t : List Nat) (ht : Known t) (bs : List Nat) (hb : ∀ x, x ∈ bs → x < 256) (hl : bs.length % 3 ≠ 2) :
    FilterIter.Spec.whole decMachine Dec.new (rfc4648 t 0 bs) = bs := by
  fun_induction rfc4648 t 0 bs with
  | case1 a b c rest v ih =>
    have ha : a < 256 := hb a (by simp)
    have hb' : b < 256 := hb b (by simp)
    have hc : c < 256 := hb c (by simp)
    have k1 := ht (v / 262144) (by omega)
    have k2 := ht (v / 4096 % 64) (by omega)
    have k3 := ht (v / 64 % 64) (by omega)
    have k4 := ht (v % 64) (by omega)
    rw [Dec.new, dec_whole_cons _ _ _ _ (by show 0 < 4; omega) (input_1 _ (by omega)), k1]
    rw [show Dec.canon ⟨v / 262144 * 262144, 1, 7⟩ = ⟨v / 262144 * 262144, 1, 7⟩ from rfl, dec_whole_cons _ _ _ _ (by show 1 < 4; omega) (input_2 _ _ (by omega)), k2]
    rw [show ∀ z, Dec.canon ⟨z, 2, 7⟩ = ⟨z, 2, 7⟩ from fun _ => rfl, dec_whole_cons _ _ _ _ (by show 2 < 4; omega) (input_3 _ _ _ (by omega)), k3]
    rw [show ∀ z, Dec.canon ⟨z, 3, 7⟩ = ⟨z, 3, 7⟩ from fun _ => rfl, dec_whole_cons _ _ _ _ (by show 3 < 4; omega) (input_4 _ _ _ _ (by omega)), k4]
    rw [show ∀ z, Dec.canon ⟨z, 4, 7⟩ = Dec.new from fun _ => rfl, ih (fun x hx => hb x (by simp [hx])) (by simp only [List.length_cons] at hl; omega)]
    rw [show v / 262144 * 262144 + v / 4096 % 64 * 4096 + v / 64 % 64 * 64 + v % 64 = v by omega]
    rw [show ∀ z, Dec.pend ⟨z, 1, 7⟩ = [] from fun _ => rfl, show ∀ z, Dec.pend ⟨z, 2, 7⟩ = [] from fun _ => rfl, show ∀ z, Dec.pend ⟨z, 3, 7⟩ = [] from fun _ => rfl, pend_4 v 2]
    simp only [List.nil_append, List.take_succ_cons, List.take_zero, List.cons_append]
    rw [show v / 65536 % 256 = a by omega, show v / 256 % 256 = b by omega, show v % 256 = c by omega]
  | case2 a b v => exact absurd rfl hl
  | case3 a v =>
    have ha : a < 256 := hb a (by simp)
    have k1 := ht (v / 262144) (by omega)
    have k2 := ht (v / 4096 % 64) (by omega)
    rw [show rfcPad 0 2 = [] from rfl]
    rw [Dec.new, dec_whole_cons _ _ _ _ (by show 0 < 4; omega) (input_1 _ (by omega)), k1]
    rw [show Dec.canon ⟨v / 262144 * 262144, 1, 7⟩ = ⟨v / 262144 * 262144, 1, 7⟩ from rfl, dec_whole_cons _ _ _ _ (by show 1 < 4; omega) (input_2 _ _ (by omega)), k2]
    rw [show ∀ z, Dec.canon ⟨z, 2, 7⟩ = ⟨z, 2, 7⟩ from fun _ => rfl]
    rw [show ∀ z, FilterIter.Spec.whole decMachine ⟨z, 2, 7⟩ [] = Dec.pend ⟨z, 4, 5⟩ from fun _ => rfl]
    rw [show v / 262144 * 262144 + v / 4096 % 64 * 4096 = v by omega]
    rw [show ∀ z, Dec.pend ⟨z, 1, 7⟩ = [] from fun _ => rfl, show ∀ z, Dec.pend ⟨z, 2, 7⟩ = [] from fun _ => rfl, pend_4 v 0]
    simp only [List.nil_append, List.take_zero]
    rw [show v / 65536 % 256 = a by omega]
  | case4 => rfl

/-- C132 — text without padding gives the bytes unless two bytes are left over. -/
theorem C132_decode_unpadded_partial (t : List Nat) (ht : t = standardTable ∨ t = forUrlTable) (bs : List Nat) (hb : ∀ x, x ∈ bs → x < 256) (hl : bs.length % 3 ≠ 2) (text : List Nat)
    (hx : text.filter (fun x => !ignored x) = rfc4648 t 0 bs) (n : Nat) (hn : bs.length < n) : reads dec n (rd Dec.new text) = (bs, some .noItems) := by
  have hk : Known t := by
    rcases ht with rfl | rfl
    · exact known_standard
    · exact known_forUrl
  have hw : FilterIter.Spec.whole decMachine (decWorks.q Dec.new) text = bs := by
    rw [dec_whole_ignored, hx]
    exact dec_whole_np t hk bs hb hl
  rw [C130_read decWorks Dec.new text (Or.inl ⟨by decide, by decide, by decide⟩) rfl n (by rw [hw]; exact hn), hw]

/-- C132 — violated (base64.tcc:146-151): the text "QUI" of the bytes "AB" without padding gives nothing, and a single left character, that stands for no byte, gives two bytes. -/
theorem C132_decode_unpadded_violated :
    rfc4648 standardTable 0 [65, 66] = [81, 85, 73] ∧ reads dec 9 (rd Dec.new [81, 85, 73]) = ([], some .noItems) ∧ reads dec 9 (rd Dec.new [81]) = ([64, 0], some .noItems) := by
  refine ⟨rfl, by decide +kernel, by decide +kernel⟩

/-- C132 — violated: a reader that asks `hasItems` fails at text that ends with a line end. -/
theorem C132_decode_hasItems_violated : readsWhile dec 9 (rd Dec.new [84, 87, 70, 117, 10]) = ([77, 97, 110], some .noItems) := by
  decide +kernel

/-- C132 — violated (base64.tcc:103): a letter written behind the padding, as in two texts one after the other, shifts by a negative number. -/
theorem C132_decode_after_padding_violated : ∃ w, writes dec ⟨Dec.new, [], 99⟩ [81, 81, 61, 61] = .ok w ∧ w.out = [65] ∧ write dec w 81 = .error .ub := by
  refine ⟨⟨⟨262144 * 16 + 4096 * 16, 5, 5⟩, [65], 99⟩, ?_, rfl, ?_⟩
  · rfl
  · rfl

/-- C132 — the encoder and the decoder together: what `ReadAndEncodeBase64` gives, `ReadAndDecodeBase64` turns back. -/
theorem C132_roundtrip (t : List Nat) (ht : t = standardTable ∨ t = forUrlTable) (bs : List Nat) (hb : ∀ x, x ∈ bs → x < 256) (n : Nat) (hn : (rfc4648 t 61 bs).length < n) (k : Nat) (hk : bs.length < k) :
    reads dec k (rd Dec.new (reads (enc t false) n (rd Enc.new bs)).1) = (bs, some .noItems) := by
  have hk' : Known t := by
    rcases ht with rfl | rfl
    · exact known_standard
    · exact known_forUrl
  have hw : FilterIter.Spec.whole decMachine (decWorks.q Dec.new) (rfc4648 t 61 bs) = bs := dec_whole t hk' bs hb
  have he : (reads (enc t false) n (rd Enc.new bs)).1 = rfc4648 t 61 bs := by rw [C132_encode t false bs hb n hn]; rfl
  rw [he, C130_read decWorks Dec.new _ (Or.inl ⟨by decide, by decide, by decide⟩) rfl k (by rw [hw]; exact hk), hw]

theorem open_cons (q s : Dec) (x : Nat) (l : List Nat) (hq : q.cycle < 4) (h : q.input x = .ok s) (ho : decWorks.open s.canon l) : decWorks.open q (x :: l) := by
  refine ⟨?_, ?_⟩
  · show ¬ 4 ≤ q.cycle
    omega
  · rw [emit_of q s x hq h]
    exact ho

theorem dec_open (t : List Nat) (ht : Known t) (bs : List Nat) (hb : ∀ x, x ∈ bs → x < 256) : decWorks.open Dec.new (rfc4648 t 61 bs) := by
  fun_induction rfc4648 t 61 bs with
  | case1 a b c rest v ih =>
    have ha : a < 256 := hb a (by simp)
    have hb' : b < 256 := hb b (by simp)
    have hc : c < 256 := hb c (by simp)
    have k1 := ht (v / 262144) (by omega)
    have k2 := ht (v / 4096 % 64) (by omega)
    have k3 := ht (v / 64 % 64) (by omega)
    have k4 := ht (v % 64) (by omega)
    refine open_cons _ _ _ _ (by show 0 < 4; omega) (input_1 _ (by omega)) ?_
    refine open_cons _ _ _ _ (by show 1 < 4; omega) (input_2 _ _ (by omega)) ?_
    refine open_cons _ _ _ _ (by show 2 < 4; omega) (input_3 _ _ _ (by omega)) ?_
    refine open_cons _ _ _ _ (by show 3 < 4; omega) (input_4 _ _ _ _ (by omega)) ?_
    exact ih (fun x hx => hb x (by simp [hx]))
  | case2 a b v =>
    have ha : a < 256 := hb a (by simp)
    have hb' : b < 256 := hb b (by simp)
    have k1 := ht (v / 262144) (by omega)
    have k2 := ht (v / 4096 % 64) (by omega)
    have k3 := ht (v / 64 % 64) (by omega)
    refine open_cons _ _ _ _ (by show 0 < 4; omega) (input_1 _ (by omega)) ?_
    refine open_cons _ _ _ _ (by show 1 < 4; omega) (input_2 _ _ (by omega)) ?_
    refine open_cons _ _ _ _ (by show 2 < 4; omega) (input_3 _ _ _ (by omega)) ?_
    exact open_cons _ _ _ _ (by show 3 < 4; omega) (pad_3 _) trivial
  | case3 a v =>
    have ha : a < 256 := hb a (by simp)
    have k1 := ht (v / 262144) (by omega)
    have k2 := ht (v / 4096 % 64) (by omega)
    refine open_cons _ _ _ _ (by show 0 < 4; omega) (input_1 _ (by omega)) ?_
    refine open_cons _ _ _ _ (by show 1 < 4; omega) (input_2 _ _ (by omega)) ?_
    refine open_cons _ _ _ _ (by show 2 < 4; omega) (pad_2 _) ?_
    exact open_cons _ _ _ _ (by show 3 < 4; omega) (pad_3' _) trivial
  | case4 => trivial

/-- C132 — the text of RFC 4648 written through the decoder, then `flush`, writes the bytes. -/
theorem C132_decode_write (t : List Nat) (ht : t = standardTable ∨ t = forUrlTable) (bs : List Nat) (hb : ∀ x, x ∈ bs → x < 256) (cap : Nat) (hn : bs.length ≤ cap) :
    ∃ w w', writes dec ⟨Dec.new, [], cap⟩ (rfc4648 t 61 bs) = .ok w ∧ FilterIter.flush dec w = .ok w' ∧ w'.out = bs := by
  have hk : Known t := by
    rcases ht with rfl | rfl
    · exact known_standard
    · exact known_forUrl
  have hw : FilterIter.Spec.whole decMachine (decWorks.q Dec.new) (rfc4648 t 61 bs) = bs := dec_whole t hk bs hb
  obtain ⟨w, w', h1, h2, h3⟩ := C130_write_all decWorks Dec.new (rfc4648 t 61 bs) cap (Or.inl ⟨by decide, by decide, by decide⟩) rfl (dec_open t hk bs hb) (by rw [hw]; exact hn)
  exact ⟨w, w', h1, h2, by rw [h3, hw]⟩

/-! ## The decoder of hexadecimal digits -/

/-- The digits of a byte. -/
def hexText (bs : List Nat) : List Nat := bs.flatMap (fun b => ["0123456789abcdef".toList.map Char.toNat |>.getD (b / 16) 0, "0123456789abcdef".toList.map Char.toNat |>.getD (b % 16) 0])

/-- The two digits of a byte are found in the table. -/
theorem hexTab_digit : ∀ d, d < 16 → hexTab ("0123456789abcdef".toList.map Char.toNat |>.getD d 0) = some d := by decide +kernel

theorem or_digits : ∀ a, a < 16 → ∀ b, b < 16 → (a * 16 ||| b) % 256 = a * 16 + b := by decide +kernel

theorem hex_getNext (a b : Nat) (x y : Option Nat) (r : List Nat) (ha : a < 16) (hb : b < 16) (c d : Nat) (hc : hexTab c = some a) (hd : hexTab d = some b) (cell : Cell Nat) (he : ∀ z, cell ≠ .ready z) :
    getNext (hexDec hexTab) ⟨⟨x, y, 0⟩, c :: d :: r, cell⟩ = .ok (a * 16 + b, ⟨⟨some a, some b, 0⟩, r, .used (a * 16 + b)⟩) := by
  have hf : fill (hexDec hexTab) ⟨x, y, 0⟩ (c :: d :: r) = .ok (⟨some a, some b, 2⟩, r) := by
    have : fill (hexDec hexTab) ⟨x, y, 0⟩ (c :: d :: r) = fill (hexDec hexTab) ⟨hexTab c, hexTab d, 2⟩ r := by
      cases r <;> rfl
    rw [this, hc, hd]
    cases r <;> rfl
  have ht : takeOne (hexDec hexTab) ⟨some a, some b, 2⟩ r = .ok (a * 16 + b, ⟨⟨some a, some b, 0⟩, r, .ready (a * 16 + b)⟩) := by
    show Except.ok ((a * 16 ||| b) % 256, _) = _
    rw [or_digits a ha b hb]
  cases cell with
  | ready z => exact absurd rfl (he z)
  | empty => simp only [getNext, getBuffer, hf, ht]
  | used z => simp only [getNext, getBuffer, hf, ht]

theorem hex_reads (bs : List Nat) (hb : ∀ x, x ∈ bs → x < 256) (x y : Option Nat) (cell : Cell Nat) (he : ∀ z, cell ≠ .ready z) (n : Nat) (hn : bs.length < n) :
    reads (hexDec hexTab) n ⟨⟨x, y, 0⟩, hexText bs, cell⟩ = (bs, some .noItems) := by
  induction bs generalizing x y cell n with
  | nil =>
    cases n with
    | zero => omega
    | succ n =>
      cases cell with
      | ready z => exact absurd rfl (he z)
      | empty => rfl
      | used z => rfl
  | cons b r ih =>
    cases n with
    | zero => omega
    | succ n =>
      have h := hb b (by simp)
      have hg := hex_getNext (b / 16) (b % 16) x y (hexText r) (by omega) (by omega) _ _ (hexTab_digit (b / 16) (by omega)) (hexTab_digit (b % 16) (by omega)) cell he
      have ht : hexText (b :: r) = ("0123456789abcdef".toList.map Char.toNat |>.getD (b / 16) 0) :: ("0123456789abcdef".toList.map Char.toNat |>.getD (b % 16) 0) :: hexText r := rfl
      have := ih (fun z hz => hb z (by simp [hz])) (some (b / 16)) (some (b % 16)) (.used (b / 16 * 16 + b % 16)) (by intro z c; cases c) n (by rw [List.length_cons] at hn; omega)
      rw [ht, reads, hg]
      simp only [this]
      rw [show b / 16 * 16 + b % 16 = b by omega]

/-- C132 — the hexadecimal digits of any bytes read through the decoder give the bytes. -/
theorem C132_hex (bs : List Nat) (hb : ∀ x, x ∈ bs → x < 256) (n : Nat) (hn : bs.length < n) :
    reads (hexDec hexTab) n (rd (HexDec.new false) (hexText bs)) = (bs, some .noItems) :=
  hex_reads bs hb none none .empty (by intro z c; cases c) n hn

example : hexText [255, 16] = [102, 102, 49, 48] := by decide

/-- C132 — violated (base64.h:214): a decoder made with its table of digits starts with an item ready that was never set. -/
theorem C132_hex_table_violated (tab : Nat → Option Nat) (src : List Nat) : getNext (hexDec tab) (rd (HexDec.new true) src) = .error .ub := rfl

/-- C132 — violated (base64.h:293-297): the last digit of an odd number of them is joined with the second digit of the byte before; a single digit reads what is not set. -/
theorem C132_hex_odd_violated :
    reads (hexDec hexTab) 9 (rd (HexDec.new false) [49, 50, 51]) = ([18, 50], some .noItems) ∧ getNext (hexDec hexTab) (rd (HexDec.new false) [51]) = .error .ub := by
  refine ⟨rfl, rfl⟩

/-- C132 — violated (base64.h:300-305): a character that is no digit reads a cell of the table that was never set; big letters are no digits. -/
theorem C132_hex_letter_violated : getNext (hexDec hexTab) (rd (HexDec.new false) [70, 70]) = .error .ub := rfl

end LS.Base64Filter

import Verif.Lzw
import Verif.ConvProps
/-!
# LZW: codes as bits

The bytes of the compressor are the bits of its codes, and the decompressor gets the codes from the bits.
-/

namespace LS.Lzw

/-- The number of a list of bits, the highest bit first. -/
def val : List Bool → Nat
  | [] => 0
  | b :: l => b.toNat * 2 ^ l.length + val l

/-- The lowest `w` bits of a number, the highest bit first. -/
def bitsN : (w v : Nat) → List Bool
  | 0, _ => []
  | w + 1, v => (v / 2 ^ w % 2 == 1) :: bitsN w v

/-- The bits of bytes. -/
def bytesBits (l : List Nat) : List Bool := l.flatMap (bitsN 8)

/-- The bits of codes with their widths. -/
def codesBits (l : List (Nat × Nat)) : List Bool := l.flatMap fun c => bitsN c.2 c.1

@[simp] theorem bitsN_length (w v : Nat) : (bitsN w v).length = w := by
  induction w with
  | zero => rfl
  | succ w ih => simp [bitsN, ih]

theorem val_lt (l : List Bool) : val l < 2 ^ l.length := by
  induction l with
  | nil => simp [val]
  | cons b l ih =>
    simp only [val, List.length_cons, Nat.pow_succ]
    cases b <;> simp <;> omega

theorem val_append (x y : List Bool) : val (x ++ y) = val x * 2 ^ y.length + val y := by
  induction x with
  | nil => simp [val]
  | cons b x ih =>
    simp only [List.cons_append, val, List.length_append, ih, Nat.pow_add]
    rw [Nat.add_mul, Nat.mul_assoc, Nat.add_assoc]

theorem val_bitsN (w v : Nat) : val (bitsN w v) = v % 2 ^ w := by
  induction w with
  | zero => simp [bitsN, val, Nat.mod_one]
  | succ w ih =>
    simp only [bitsN, val, bitsN_length, ih]
    rw [Nat.pow_succ, Nat.mod_mul]
    have : v / 2 ^ w % 2 < 2 := Nat.mod_lt _ (by omega)
    rcases (by omega : v / 2 ^ w % 2 = 0 ∨ v / 2 ^ w % 2 = 1) with h | h <;> simp [h] <;> omega

theorem bitsN_append (a b v : Nat) : bitsN (a + b) v = bitsN a (v / 2 ^ b) ++ bitsN b v := by
  induction a with
  | zero => simp [bitsN]
  | succ a ih =>
    rw [show a + 1 + b = (a + b) + 1 by omega]
    simp only [bitsN, List.cons_append, ih]
    rw [Nat.div_div_eq_div_mul, ← Nat.pow_add, Nat.add_comm b a]

theorem bitsN_mod (w v : Nat) : bitsN w (v % 2 ^ w) = bitsN w v := by
  have key : ∀ k, k ≤ w → bitsN k (v % 2 ^ w) = bitsN k v := by
    intro k
    induction k with
    | zero => intro _; rfl
    | succ k ih =>
      intro hk
      simp only [bitsN, ih (by omega)]
      congr 2
      have e : 2 ^ w = 2 ^ k * (2 * 2 ^ (w - k - 1)) := by
        rw [← Nat.mul_assoc, ← Nat.pow_succ, ← Nat.pow_add]; congr 1; omega
      rw [e, Nat.mod_mul_right_div_self, Nat.mod_mul_right_mod]
  exact key w (Nat.le_refl _)

theorem bitsN_val (l : List Bool) : bitsN l.length (val l) = l := by
  induction l with
  | nil => rfl
  | cons b l ih =>
    have hl := val_lt l
    have hp : 0 < 2 ^ l.length := Nat.pow_pos (by omega)
    simp only [List.length_cons, bitsN, val]
    have e1 : bitsN l.length (b.toNat * 2 ^ l.length + val l) = l := by
      rw [← bitsN_mod, Nat.mul_comm, Nat.mul_add_mod, Nat.mod_eq_of_lt hl, ih]
    rw [e1]
    congr 1
    rw [Nat.mul_comm, Nat.mul_add_div hp, Nat.div_eq_of_lt hl]
    cases b <;> rfl

theorem bitsN_inj {w a b : Nat} (ha : a < 2 ^ w) (hb : b < 2 ^ w) (h : bitsN w a = bitsN w b) : a = b := by
  have := congrArg val h
  rw [val_bitsN, val_bitsN, Nat.mod_eq_of_lt ha, Nat.mod_eq_of_lt hb] at this
  exact this

@[simp] theorem bytesBits_length (l : List Nat) : (bytesBits l).length = 8 * l.length := by
  induction l with
  | nil => rfl
  | cons x l ih =>
    have : bytesBits (x :: l) = bitsN 8 x ++ bytesBits l := rfl
    rw [this, List.length_append, ih, bitsN_length, List.length_cons]; omega

theorem bytesBits_append (l l' : List Nat) : bytesBits (l ++ l') = bytesBits l ++ bytesBits l' := by
  simp [bytesBits]

theorem codesBits_append (l l' : List (Nat × Nat)) : codesBits (l ++ l') = codesBits l ++ codesBits l' := by
  simp [codesBits]

theorem or_add (q w x : Nat) (h : x < 2 ^ w) : q * 2 ^ w ||| x = q * 2 ^ w + x := by
  rw [Nat.mul_comm, Nat.two_pow_add_eq_or_of_lt h]

/-! ## The output -/

/-- The bits `q` wait in the accumulator. -/
structure Waits (o : OutBuff) (q : List Bool) : Prop where
  len : q.length + o.wrbits = 8
  pos : 0 < o.wrbits
  acc : o.accum = val q * 2 ^ o.wrbits

theorem waits_init : Waits {} [] := ⟨rfl, by decide, rfl⟩

theorem push_eq {p : List Nat} {x : Nat} (h : p.length < 15) : push p x = p ++ [x] := if_neg (by omega)

/-- A code of `n` bits goes to the output as its bits. -/
theorem write_bits : ∀ (fuel : Nat) (o : OutBuff) (q : List Bool) (code n : Nat), Waits o q → code < 2 ^ n →
    n < fuel → o.pend.length * 8 + q.length + n < 128 →
    ∃ bs q', (OutBuff.write fuel o code n).pend = o.pend ++ bs ∧ Waits (OutBuff.write fuel o code n) q' ∧
      q ++ bitsN n code = bytesBits bs ++ q' ∧ (∀ x ∈ bs, x < 256) := by
  intro fuel
  induction fuel with
  | zero => intro o q code n _ _ h; omega
  | succ fuel ih =>
    intro o q code n hw hc hf hl
    have h1 := hw.len
    have h2 := hw.pos
    rw [OutBuff.write]
    split
    · next hge =>
      have hge : o.wrbits ≤ n := hge
      have hx : code / 2 ^ (n - o.wrbits) < 2 ^ o.wrbits := by
        rw [Nat.div_lt_iff_lt_mul (Nat.pow_pos (by omega)), ← Nat.pow_add]
        rwa [show o.wrbits + (n - o.wrbits) = n by omega]
      have hv : (o.accum ||| (code >>> (n - o.wrbits))) = val (q ++ bitsN o.wrbits (code / 2 ^ (n - o.wrbits))) := by
        rw [hw.acc, Nat.shiftRight_eq_div_pow, or_add _ _ _ hx, val_append, val_bitsN, bitsN_length, Nat.mod_eq_of_lt hx]
      have hlen : (q ++ bitsN o.wrbits (code / 2 ^ (n - o.wrbits))).length = 8 := by simp; omega
      have hlt : (o.accum ||| (code >>> (n - o.wrbits))) < 256 := by
        rw [hv]
        have := val_lt (q ++ bitsN o.wrbits (code / 2 ^ (n - o.wrbits)))
        rw [hlen] at this
        exact this
      have hb : bitsN 8 (o.accum ||| (code >>> (n - o.wrbits))) = q ++ bitsN o.wrbits (code / 2 ^ (n - o.wrbits)) := by
        rw [hv, ← hlen, bitsN_val]
      rw [Nat.mod_eq_of_lt hlt, push_eq (by omega), Nat.and_two_pow_sub_one_eq_mod]
      obtain ⟨bs, q', e1, e2, e3, e4⟩ := ih
        { pend := o.pend ++ [o.accum ||| (code >>> (n - o.wrbits))], wrbits := 8, accum := 0 } [] (code % 2 ^ (n - o.wrbits))
        (n - o.wrbits) ⟨rfl, by simp, rfl⟩ (Nat.mod_lt _ (Nat.pow_pos (by omega))) (by omega) (by simp; omega)
      refine ⟨(o.accum ||| (code >>> (n - o.wrbits))) :: bs, q', by rw [e1]; simp, e2, ?_, ?_⟩
      · have : bytesBits ((o.accum ||| (code >>> (n - o.wrbits))) :: bs) = bitsN 8 (o.accum ||| (code >>> (n - o.wrbits))) ++ bytesBits bs := rfl
        rw [this, hb, List.append_assoc, List.append_assoc, ← e3, bitsN_mod, List.nil_append, ← bitsN_append]
        rw [show o.wrbits + (n - o.wrbits) = n by omega]
      · intro x hx
        rcases List.mem_cons.1 hx with rfl | hx
        · exact hlt
        · exact e4 x hx
    · next hge =>
      have hge : n < o.wrbits := by omega
      have hv : (o.accum ||| (code <<< (o.wrbits - n))) = val (q ++ bitsN n code) * 2 ^ (o.wrbits - n) := by
        have hx : code * 2 ^ (o.wrbits - n) < 2 ^ o.wrbits := by
          have : code * 2 ^ (o.wrbits - n) < 2 ^ n * 2 ^ (o.wrbits - n) :=
            Nat.mul_lt_mul_of_pos_right hc (Nat.pow_pos (by omega))
          rwa [← Nat.pow_add, show n + (o.wrbits - n) = o.wrbits by omega] at this
        rw [hw.acc, Nat.shiftLeft_eq, or_add _ _ _ hx, val_append, val_bitsN, bitsN_length, Nat.mod_eq_of_lt hc, Nat.add_mul,
          Nat.mul_assoc, ← Nat.pow_add, show n + (o.wrbits - n) = o.wrbits by omega]
      have hlen : (q ++ bitsN n code).length + (o.wrbits - n) = 8 := by simp; omega
      have hlt : (o.accum ||| (code <<< (o.wrbits - n))) < 256 := by
        rw [hv]
        have h3 := val_lt (q ++ bitsN n code)
        have h4 : val (q ++ bitsN n code) * 2 ^ (o.wrbits - n) < 2 ^ (q ++ bitsN n code).length * 2 ^ (o.wrbits - n) :=
          Nat.mul_lt_mul_of_pos_right h3 (Nat.pow_pos (by omega))
        rw [← Nat.pow_add, hlen] at h4
        exact h4
      rw [Nat.mod_eq_of_lt hlt]
      exact ⟨[], q ++ bitsN n code, by simp, ⟨hlen, by simp; omega, hv⟩, by simp [bytesBits], by simp⟩

/-! ## The input -/

/-- The bits `p` wait in the decompressor. -/
structure Holds (d : Dec) (p : List Bool) : Prop where
  len : d.inbits = p.length
  acc : d.accum = val p

theorem append_none {cb accum inbits b : Nat} {p : List Bool} (hl : inbits = p.length) (ha : accum = val p) (hb : b < 256)
    (h : p.length + 8 < cb) :
    appendBits cb accum inbits b = (val (p ++ bitsN 8 b), (p ++ bitsN 8 b).length, none) := by
  unfold appendBits
  rw [if_neg (by omega), Nat.shiftLeft_eq, ha, or_add _ _ _ (by exact hb), val_append, val_bitsN, bitsN_length,
    Nat.mod_eq_of_lt (by exact hb), hl]
  simp

theorem append_some {cb accum inbits b : Nat} {p x y : List Bool} (hl : inbits = p.length) (ha : accum = val p) (hb : b < 256)
    (hx : x.length = cb) (h : p ++ bitsN 8 b = x ++ y) (hc : val x < 65536) :
    appendBits cb accum inbits b = (val y, y.length, some (val x)) := by
  have hlen := congrArg List.length h
  simp only [List.length_append, bitsN_length] at hlen
  unfold appendBits
  have e : (accum <<< 8) ||| b = val x * 2 ^ y.length + val y := by
    rw [← val_append, ← h, Nat.shiftLeft_eq, ha, or_add _ _ _ (by exact hb), val_append, val_bitsN, bitsN_length,
      Nat.mod_eq_of_lt (by exact hb)]
  have hy := val_lt y
  have hyp : 0 < 2 ^ y.length := Nat.pow_pos (by omega)
  simp only [e]
  rw [if_pos (by omega), show inbits + 8 - cb = y.length by omega, Nat.and_two_pow_sub_one_eq_mod, Nat.shiftRight_eq_div_pow]
  have e1 : (val x * 2 ^ y.length + val y) % 2 ^ y.length = val y := by
    rw [Nat.mul_comm, Nat.mul_add_mod, Nat.mod_eq_of_lt hy]
  have e2 : (val x * 2 ^ y.length + val y) / 2 ^ y.length = val x := by
    rw [Nat.mul_comm, Nat.mul_add_div hyp, Nat.div_eq_of_lt hy, Nat.add_zero]
  rw [e1, e2, Nat.mod_eq_of_lt hc]

/-! ## The driver -/

theorem writeMany_append {σ α β : Type} (c : Conv σ α β) {fuel : Nat} : ∀ {s s' s'' : σ} {l l' : List α} {o o' : List β},
    c.writeMany fuel s l = some (o, s') → c.writeMany fuel s' l' = some (o', s'') →
      c.writeMany fuel s (l ++ l') = some (o ++ o', s'') := by
  intro s s' s'' l
  induction l generalizing s with
  | nil =>
    intro l' o o' h h'
    simp only [Conv.writeMany, Option.some.injEq, Prod.mk.injEq] at h
    obtain ⟨rfl, rfl⟩ := h
    simpa using h'
  | cons a l ih =>
    intro l' o o' h h'
    simp only [Conv.writeMany, List.cons_append] at h ⊢
    cases hw : c.writeToIter fuel s a with
    | none => rw [hw] at h; cases h
    | some r =>
      obtain ⟨o1, s1⟩ := r
      simp only [hw] at h ⊢
      cases hm : c.writeMany fuel s1 l with
      | none => rw [hm] at h; cases h
      | some r =>
        obtain ⟨o2, s2⟩ := r
        simp only [hm, Option.some.injEq, Prod.mk.injEq] at h
        obtain ⟨rfl, rfl⟩ := h
        rw [ih hm h']
        simp

theorem writeMany_one {σ α β : Type} (c : Conv σ α β) {fuel : Nat} {s s' : σ} {a : α} {o : List β}
    (h : c.writeToIter fuel s a = some (o, s')) : c.writeMany fuel s [a] = some (o, s') := by
  simp [Conv.writeMany, h]

theorem drain_idle {σ α β : Type} (c : Conv σ α β) {fuel : Nat} {s : σ} (h : c.hasItems s = false) :
    c.drain fuel s = some ([], s) := by
  cases fuel <;> simp [Conv.drain, h]

/-- The core without bytes to read. -/
def Core.idle (c : Core) : Core := { c with out := [], hasItems := false }

theorem dec_drain (clr : Core → Option Core) : ∀ (fuel : Nat) (d : Dec), d.core.hasItems = true → d.core.out ≠ [] →
    d.core.out.length ≤ fuel →
      (decOf clr).drain fuel d = some (d.core.out, { d with core := d.core.idle }) := by
  intro fuel
  induction fuel with
  | zero =>
    intro d _ h h'
    cases ho : d.core.out with
    | nil => exact absurd ho h
    | cons x l => rw [ho] at h'; simp at h'
  | succ fuel ih =>
    intro d hi hne hl
    have hi' : (decOf clr).hasItems d = true := hi
    rw [Conv.drain, if_pos hi']
    cases ho : d.core.out with
    | nil => exact absurd ho hne
    | cons x l =>
      have hg : (decOf clr).getNext d = some (x, { d with core := { d.core with out := l, hasItems := l.length != 0 } }) := by
        show d.getNext = _
        simp [Dec.getNext, ho]
      rw [hg]
      simp only
      rw [ho] at hl
      cases l with
      | nil =>
        rw [drain_idle _ (by rfl)]
        simp [Core.idle]
      | cons y l =>
        rw [ih _ (by simp) (by simp) (by simpa using hl)]
        simp [Core.idle]

/-- One code, the bytes read at once. -/
def stepCode (clr : Core → Option Core) (c : Core) (code : Nat) : Option (Core × List Nat) :=
  if code = clearCode then (clr c).map fun c' => (c', [])
  else match c.onCode code with
    | none => none
    | some c' => if c'.out = [] ∨ c'.hasItems = false then none else some (c'.idle, c'.out)

/-- Codes with their widths; the widths must be those which the decompressor reads. -/
def runCodes (clr : Core → Option Core) : Core → List (Nat × Nat) → Option (Core × List Nat)
  | c, [] => some (c, [])
  | c, (code, w) :: cs =>
    if w = c.bits ∧ 9 ≤ w ∧ code ≠ endData ∧ code < 2 ^ w ∧ code < 65536 then
      match stepCode clr c code with
      | none => none
      | some (c', o) => if c'.hasItems = true then none else match runCodes clr c' cs with
        | none => none
        | some (c'', o') => some (c'', o ++ o')
    else none

theorem runCodes_append (clr : Core → Option Core) : ∀ {c c' c'' : Core} {l l' : List (Nat × Nat)} {o o' : List Nat},
    runCodes clr c l = some (c', o) → runCodes clr c' l' = some (c'', o') → runCodes clr c (l ++ l') = some (c'', o ++ o') := by
  intro c c' c'' l
  induction l generalizing c with
  | nil =>
    intro l' o o' h h'
    simp only [runCodes, Option.some.injEq, Prod.mk.injEq] at h
    obtain ⟨rfl, rfl⟩ := h
    simpa using h'
  | cons a l ih =>
    intro l' o o' h h'
    obtain ⟨code, w⟩ := a
    simp only [runCodes, List.cons_append] at h ⊢
    split at h
    · next hc =>
      rw [if_pos hc]
      cases hw : stepCode clr c code with
      | none => rw [hw] at h; cases h
      | some r =>
        obtain ⟨c1, o1⟩ := r
        simp only [hw] at h ⊢
        split at h
        · cases h
        · next hi =>
          rw [if_neg hi]
          cases hm : runCodes clr c1 l with
          | none => rw [hm] at h; cases h
          | some r =>
            obtain ⟨c2, o2⟩ := r
            simp only [hm, Option.some.injEq, Prod.mk.injEq] at h
            obtain ⟨rfl, rfl⟩ := h
            rw [ih hm h']
            simp
    · cases h

theorem feed_none (clr : Core → Option Core) {fuel : Nat} {d : Dec} {p : List Bool} {b : Nat} (hd : Holds d p)
    (hi : d.core.hasItems = false) (hb : b < 256) (h : p.length + 8 < d.core.bits) :
    ∃ d', (decOf clr).writeToIter fuel d b = some ([], d') ∧ d'.core = d.core ∧ Holds d' (p ++ bitsN 8 b) := by
  have hi' : (decOf clr).hasItems d = false := hi
  refine ⟨{ d with accum := val (p ++ bitsN 8 b), inbits := (p ++ bitsN 8 b).length }, ?_, rfl, ⟨rfl, rfl⟩⟩
  have hw : (decOf clr).write d b = some { d with accum := val (p ++ bitsN 8 b), inbits := (p ++ bitsN 8 b).length } := by
    show d.write clr b = _
    rw [Dec.write, append_none hd.len hd.acc hb h]
  rw [Conv.writeToIter, drain_idle _ hi']
  simp only [hw]
  rw [drain_idle _ (by exact hi)]
  rfl

/-- Reading bytes up to the end of a code. -/
theorem feed_code (clr : Core → Option Core) {fuel : Nat} : ∀ (bs : List Nat) (d : Dec) (p rest : List Bool) (code : Nat)
    (c' : Core) (o : List Nat), Holds d p → d.core.hasItems = false → p.length < d.core.bits → 9 ≤ d.core.bits →
    (∀ x ∈ bs, x < 256) → p ++ bytesBits bs = bitsN d.core.bits code ++ rest → code < 2 ^ d.core.bits → code < 65536 →
    code ≠ endData → stepCode clr d.core code = some (c', o) → c'.hasItems = false → o.length ≤ fuel →
    ∃ bs1 bs2 p' d', bs = bs1 ++ bs2 ∧ (decOf clr).writeMany fuel d bs1 = some (o, d') ∧ d'.core = c' ∧ Holds d' p' ∧
      p'.length < 8 ∧ p' ++ bytesBits bs2 = rest := by
  intro bs
  induction bs with
  | nil =>
    intro d p rest code c' o hd hi hp hw hb he _ _ _ _ _ _
    exfalso
    have := congrArg List.length he
    simp at this
    omega
  | cons b bs ih =>
    intro d p rest code c' o hd hi hp hw hb he hc hc' hne hs hci hf
    have hb0 := hb b List.mem_cons_self
    have hbs : bytesBits (b :: bs) = bitsN 8 b ++ bytesBits bs := rfl
    by_cases hlt : p.length + 8 < d.core.bits
    · obtain ⟨d1, h1, h2, h3⟩ := feed_none clr (fuel := fuel) hd hi hb0 hlt
      rw [hbs, ← List.append_assoc] at he
      obtain ⟨bs1, bs2, p', d', e1, e2, e3, e4, e5, e6⟩ := ih d1 (p ++ bitsN 8 b) rest code c' o h3 (by rw [h2]; exact hi)
        (by rw [h2]; simp; omega) (by rw [h2]; exact hw) (fun x hx => hb x (List.mem_cons_of_mem _ hx)) (by rw [h2]; exact he)
        (by rw [h2]; exact hc) hc' hne (by rw [h2]; exact hs) hci hf
      refine ⟨b :: bs1, bs2, p', d', by rw [e1]; rfl, ?_, e3, e4, e5, e6⟩
      exact writeMany_append _ (writeMany_one _ h1) e2
    · -- the code ends in this byte
      obtain ⟨y, hy1, hy2⟩ : ∃ y, p ++ bitsN 8 b = bitsN d.core.bits code ++ y ∧ y ++ bytesBits bs = rest := by
        rw [hbs, ← List.append_assoc] at he
        rcases List.append_eq_append_iff.1 he with ⟨a, ha1, ha2⟩ | ⟨a, ha1, ha2⟩
        · have := congrArg List.length ha1
          simp at this
          have ha : a = [] := List.length_eq_zero_iff.1 (by omega)
          subst ha
          exact ⟨[], by simpa using ha1.symm, by simpa using ha2⟩
        · exact ⟨a, ha1, ha2.symm⟩
      have hyl : y.length < 8 := by
        have := congrArg List.length hy1
        simp at this
        omega
      have hap := append_some (cb := d.core.bits) (x := bitsN d.core.bits code) (y := y) hd.len hd.acc hb0 (by simp) hy1
        (by rw [val_bitsN, Nat.mod_eq_of_lt hc]; exact hc')
      rw [val_bitsN, Nat.mod_eq_of_lt hc] at hap
      have hi' : (decOf clr).hasItems d = false := hi
      refine ⟨[b], bs, y, { core := c', accum := val y, inbits := y.length }, rfl, ?_, rfl, ⟨rfl, rfl⟩, hyl, hy2⟩
      apply writeMany_one
      rw [Conv.writeToIter, drain_idle _ hi']
      simp only [List.nil_append]
      have hwr : (decOf clr).write d b = d.write clr b := rfl
      rw [hwr, Dec.write, hap]
      simp only
      unfold stepCode at hs
      split at hs
      · next hcl =>
        rw [if_pos hcl]
        cases hk : clr d.core with
        | none => rw [hk] at hs; cases hs
        | some c1 =>
          rw [hk] at hs
          simp only [Option.map_some, Option.some.injEq, Prod.mk.injEq] at hs
          obtain ⟨rfl, rfl⟩ := hs
          simp only [Option.map_some]
          rw [drain_idle _ (by exact hci)]
      · next hcl =>
        rw [if_neg hcl, if_neg hne]
        cases hk : d.core.onCode code with
        | none => rw [hk] at hs; cases hs
        | some c1 =>
          rw [hk] at hs
          simp only at hs
          split at hs
          · cases hs
          · next hout =>
            simp only [Option.some.injEq, Prod.mk.injEq] at hs
            obtain ⟨rfl, rfl⟩ := hs
            simp only [Option.map_some]
            rw [dec_drain clr fuel _ (by simpa using fun h => hout (Or.inr h)) (by simpa using fun h => hout (Or.inl h)) hf]

/-- Reading the bytes of codes. -/
theorem feed_codes (clr : Core → Option Core) {fuel : Nat} : ∀ (cs : List (Nat × Nat)) (bs : List Nat) (d : Dec) (p rest : List Bool)
    (c' : Core) (o : List Nat), Holds d p → d.core.hasItems = false → p.length < 8 →
    (∀ x ∈ bs, x < 256) → p ++ bytesBits bs = codesBits cs ++ rest → runCodes clr d.core cs = some (c', o) → o.length ≤ fuel →
    ∃ bs1 bs2 p' d', bs = bs1 ++ bs2 ∧ (decOf clr).writeMany fuel d bs1 = some (o, d') ∧ d'.core = c' ∧ Holds d' p' ∧
      d'.core.hasItems = false ∧ p'.length < 8 ∧ p' ++ bytesBits bs2 = rest := by
  intro cs
  induction cs with
  | nil =>
    intro bs d p rest c' o hd hi hp hb he hr hf
    simp only [runCodes, Option.some.injEq, Prod.mk.injEq] at hr
    obtain ⟨rfl, rfl⟩ := hr
    exact ⟨[], bs, p, d, rfl, rfl, rfl, hd, hi, hp, by simpa [codesBits] using he⟩
  | cons a cs ih =>
    intro bs d p rest c' o hd hi hp hb he hr hf
    obtain ⟨code, w⟩ := a
    simp only [runCodes] at hr
    split at hr
    · next hc =>
      obtain ⟨hw, hw9, hne, hc1, hc2⟩ := hc
      subst hw
      cases hs : stepCode clr d.core code with
      | none => rw [hs] at hr; cases hr
      | some r =>
        obtain ⟨c1, o1⟩ := r
        simp only [hs] at hr
        split at hr
        · cases hr
        · next hci =>
          cases hm : runCodes clr c1 cs with
          | none => rw [hm] at hr; cases hr
          | some r =>
            obtain ⟨c2, o2⟩ := r
            simp only [hm, Option.some.injEq, Prod.mk.injEq] at hr
            obtain ⟨rfl, rfl⟩ := hr
            rw [List.length_append] at hf
            have hcb : codesBits ((code, d.core.bits) :: cs) = bitsN d.core.bits code ++ codesBits cs := rfl
            rw [hcb, List.append_assoc] at he
            obtain ⟨bs1, bs2, p', d', e1, e2, e3, e4, e5, e6⟩ := feed_code clr (fuel := fuel) bs d p (codesBits cs ++ rest) code c1 o1
              hd hi (by omega) hw9 hb he hc1 hc2 hne hs (by simpa using hci) (by omega)
            obtain ⟨bs3, bs4, p'', d'', f1, f2, f3, f4, f5, f6, f7⟩ := ih bs2 d' p' rest c2 o2 e4 (by rw [e3]; simpa using hci) e5
              (fun x hx => hb x (by rw [e1]; exact List.mem_append_right _ hx)) e6 (by rw [e3]; exact hm) (by omega)
            exact ⟨bs1 ++ bs3, bs4, p'', d'', by rw [e1, f1, List.append_assoc], writeMany_append _ e2 f2, f3, f4, f5, f6, f7⟩
    · cases hr

/-- Reading the end of the data and the padding. -/
theorem feed_end (clr : Core → Option Core) {fuel : Nat} : ∀ (bs : List Nat) (d : Dec) (p rest : List Bool), Holds d p →
    d.core.hasItems = false → p.length < d.core.bits → 9 ≤ d.core.bits →
    (∀ x ∈ bs, x < 256) → p ++ bytesBits bs = bitsN d.core.bits endData ++ rest → rest.length ≤ 8 →
    ∃ d', (decOf clr).writeMany fuel d bs = some ([], d') ∧ d'.core.hasItems = false ∧ d'.core.eolb = true := by
  intro bs
  induction bs with
  | nil =>
    intro d p rest hd hi hp hw hb he _
    exfalso
    have := congrArg List.length he
    simp at this
    omega
  | cons b bs ih =>
    intro d p rest hd hi hp hw hb he hr
    have hb0 := hb b List.mem_cons_self
    have hbs : bytesBits (b :: bs) = bitsN 8 b ++ bytesBits bs := rfl
    by_cases hlt : p.length + 8 < d.core.bits
    · obtain ⟨d1, h1, h2, h3⟩ := feed_none clr (fuel := fuel) hd hi hb0 hlt
      rw [hbs, ← List.append_assoc] at he
      obtain ⟨d', e2, e3⟩ := ih d1 (p ++ bitsN 8 b) rest h3 (by rw [h2]; exact hi)
        (by rw [h2]; simp; omega) (by rw [h2]; exact hw) (fun x hx => hb x (List.mem_cons_of_mem _ hx)) (by rw [h2]; exact he) hr
      exact ⟨d', writeMany_append _ (l := [b]) (writeMany_one _ h1) e2, e3⟩
    · obtain ⟨y, hy1, hy2⟩ : ∃ y, p ++ bitsN 8 b = bitsN d.core.bits endData ++ y ∧ y ++ bytesBits bs = rest := by
        rw [hbs, ← List.append_assoc] at he
        rcases List.append_eq_append_iff.1 he with ⟨a, ha1, ha2⟩ | ⟨a, ha1, ha2⟩
        · have := congrArg List.length ha1
          simp at this
          have ha : a = [] := List.length_eq_zero_iff.1 (by omega)
          subst ha
          exact ⟨[], by simpa using ha1.symm, by simpa using ha2⟩
        · exact ⟨a, ha1, ha2.symm⟩
      have hpow : 2 ^ 9 ≤ 2 ^ d.core.bits := Nat.pow_le_pow_right (by omega) hw
      have hE : endData < 2 ^ d.core.bits := by unfold endData; omega
      have hap := append_some (cb := d.core.bits) (x := bitsN d.core.bits endData) (y := y) hd.len hd.acc hb0 (by simp) hy1
        (by rw [val_bitsN, Nat.mod_eq_of_lt hE]; decide)
      rw [val_bitsN, Nat.mod_eq_of_lt hE] at hap
      have hi' : (decOf clr).hasItems d = false := hi
      let d1 : Dec := { core := { d.core with eolb := true, prev := 0 }, accum := 0, inbits := 0 }
      have h1 : (decOf clr).writeToIter fuel d b = some ([], d1) := by
        rw [Conv.writeToIter, drain_idle _ hi']
        simp only [List.nil_append]
        have hwr : (decOf clr).write d b = d.write clr b := rfl
        rw [hwr, Dec.write, hap]
        simp only
        rw [if_neg (by decide), if_pos trivial]
        simp only
        rw [drain_idle _ (by exact hi)]
      have hl := congrArg List.length hy2
      simp at hl
      cases bs with
      | nil => exact ⟨d1, writeMany_one _ h1, hi, rfl⟩
      | cons b2 bs =>
        have hbn : bs = [] := List.length_eq_zero_iff.1 (by simp at hl; omega)
        subst hbn
        obtain ⟨d2, g1, g2, g3⟩ := feed_none clr (fuel := fuel) (d := d1) (p := []) ⟨rfl, rfl⟩ hi (hb b2 (by simp))
          (by show 0 + 8 < d.core.bits; omega)
        exact ⟨d2, writeMany_append _ (l := [b]) (writeMany_one _ h1) (writeMany_one _ g1), by rw [g2]; exact hi, by rw [g2]⟩

end LS.Lzw

import Verif.LzwBits
/-!
# LZW: round trip (C10), segments (C11)
-/

namespace LS.Lzw

/-! ## Strings of codes -/

/-- `Str ents c s`: the code `c` stands for the bytes `s`; `ents` are the items (previous code, byte)
with the codes 258, 259, … -/
inductive Str (ents : List (Nat × Nat)) : Nat → List Nat → Prop
  | lit {c : Nat} : c < 256 → Str ents c [c]
  | ext {i p b : Nat} {s : List Nat} : ents[i]? = some (p, b) → Str ents p s → Str ents (258 + i) (s ++ [b])

/-- `Path ents c m`: the codes of the dictionary through which `c` goes, itself first. -/
inductive Path (ents : List (Nat × Nat)) : Nat → List Nat → Prop
  | lit {c : Nat} : c < 256 → Path ents c []
  | ext {i p b : Nat} {m : List Nat} : ents[i]? = some (p, b) → Path ents p m → Path ents (258 + i) ((258 + i) :: m)

/-- Previous codes are older. -/
def Older (ents : List (Nat × Nat)) : Prop := ∀ i p b, ents[i]? = some (p, b) → p < 258 + i

theorem Str.bound {ents : List (Nat × Nat)} {c : Nat} {s : List Nat} (h : Str ents c s) :
    c < 258 + ents.length ∧ c ≠ 256 ∧ c ≠ 257 ∧ s ≠ [] := by
  cases h with
  | lit h => exact ⟨by omega, by omega, by omega, by simp⟩
  | ext h _ =>
    have := (List.getElem?_eq_some_iff.1 h).1
    exact ⟨by omega, by omega, by omega, by simp⟩

theorem Str.mono {ents : List (Nat × Nat)} {c : Nat} {s : List Nat} (h : Str ents c s) (x : List (Nat × Nat)) :
    Str (ents ++ x) c s := by
  induction h with
  | lit h => exact .lit h
  | @ext i p b s h _ ih =>
    have := (List.getElem?_eq_some_iff.1 h).1
    exact .ext (by rw [List.getElem?_append_left this]; exact h) ih

theorem Older.left {ents x : List (Nat × Nat)} (h : Older (ents ++ x)) : Older ents := by
  intro i p b hi
  have := (List.getElem?_eq_some_iff.1 hi).1
  exact h i p b (by rw [List.getElem?_append_left this]; exact hi)

theorem Str.restrict {ents x : List (Nat × Nat)} {c : Nat} {s : List Nat} (ho : Older (ents ++ x)) (h : Str (ents ++ x) c s)
    (hc : c < 258 + ents.length) : Str ents c s := by
  induction h with
  | lit h => exact .lit h
  | @ext i p b s h _ ih =>
    have hi : i < ents.length := by omega
    have := ho i p b h
    rw [List.getElem?_append_left hi] at h
    exact .ext h (ih (by omega))

theorem Path.mono {ents : List (Nat × Nat)} {c : Nat} {m : List Nat} (h : Path ents c m) (x : List (Nat × Nat)) :
    Path (ents ++ x) c m := by
  induction h with
  | lit h => exact .lit h
  | @ext i p b s h _ ih =>
    have := (List.getElem?_eq_some_iff.1 h).1
    exact .ext (by rw [List.getElem?_append_left this]; exact h) ih

theorem Path.det {ents : List (Nat × Nat)} {c : Nat} {m m' : List Nat} (h : Path ents c m) (h' : Path ents c m') : m = m' := by
  induction h generalizing m' with
  | lit h =>
    cases h' with
    | lit _ => rfl
    | ext _ _ => omega
  | @ext i p b s hi _ ih =>
    generalize hg : 258 + i = g at h'
    cases h' with
    | lit _ => omega
    | @ext i' p' b' s' hi' hp' =>
      have : i = i' := by omega
      subst this
      rw [hi] at hi'
      obtain ⟨rfl, rfl⟩ := Prod.mk.inj (Option.some.inj hi')
      rw [ih hp']

theorem Path.bound {ents : List (Nat × Nat)} {c : Nat} {m : List Nat} (h : Path ents c m) : c < 258 + ents.length := by
  cases h with
  | lit h => omega
  | ext h _ => have := (List.getElem?_eq_some_iff.1 h).1; omega

theorem extract_str {ents : List (Nat × Nat)} (ho : Older ents) {c : Nat} {s : List Nat} (h : Str ents c s) :
    ∀ (fuel : Nat) (acc : List Nat), 0 < fuel → c + 2 ≤ fuel + 258 → ∃ m, extract ents fuel c acc = some (s ++ acc, m) ∧ Path ents c m := by
  induction h with
  | @lit c h =>
    intro fuel acc hf _
    obtain ⟨fuel, rfl⟩ : ∃ k, fuel = k + 1 := ⟨fuel - 1, by omega⟩
    rw [extract, if_neg (by unfold firstChainCode; omega)]
    exact ⟨[], by rw [Nat.mod_eq_of_lt h]; rfl, .lit h⟩
  | @ext i p b s h _ ih =>
    intro fuel acc hf hc
    obtain ⟨fuel, rfl⟩ : ∃ k, fuel = k + 1 := ⟨fuel - 1, by omega⟩
    have := ho i p b h
    have e0 : 258 + i - firstChainCode = i := Nat.add_sub_cancel_left 258 i
    rw [extract, if_pos (show 258 + i ≥ firstChainCode from Nat.le_add_right 258 i), e0, h]
    obtain ⟨m, e, hm⟩ := ih fuel (b :: acc) (by omega) (by omega)
    refine ⟨(258 + i) :: m, ?_, .ext h hm⟩
    show (match extract ents fuel p (b :: acc) with | none => none | some (s, m) => some (s, (258 + i) :: m)) = _
    rw [e, List.append_assoc]
    rfl

theorem Str.lit_inv {ents : List (Nat × Nat)} {c : Nat} {s : List Nat} (h : Str ents c s) (hc : c < 256) : s = [c] := by
  cases h with
  | lit _ => rfl
  | ext _ _ => omega

/-! ## The two sides in step -/

/-- The list of items of the compressor (the newest first) for the items `ents` with codes from `n` on. -/
def itemsOf : Nat → List (Nat × Nat) → List (Nat × Nat × Nat)
  | _, [] => []
  | n, (p, b) :: l => itemsOf (n + 1) l ++ [(p, b, n)]

theorem itemsOf_add (l : List (Nat × Nat)) : ∀ n p b, itemsOf n (l ++ [(p, b)]) = (p, b, n + l.length) :: itemsOf n l := by
  induction l with
  | nil => intro n p b; rfl
  | cons a l ih =>
    intro n p b
    obtain ⟨x, y⟩ := a
    rw [List.cons_append, itemsOf, ih, itemsOf]
    simp only [List.cons_append, List.length_cons]
    rw [show n + 1 + l.length = n + (l.length + 1) by omega]

/-- The decompressor has seen all codes written; `ents` is the dictionary of the compressor, `s` the
bytes of the current code. -/
structure Sync (c : Comp) (d : Core) (ents : List (Nat × Nat)) (s : List Nat) : Prop where
  next : c.next = 258 + ents.length
  nextLe : c.next ≤ c.maxCode + 1
  maxLt : c.maxCode < 32767
  older : Older ents
  dict : ∀ p b code, findCode c.dict p b = some code → ∃ i, code = 258 + i ∧ ents[i]? = some (p, b)
  bits : c.bits = d.bits
  bits9 : 9 ≤ c.bits
  fits : c.next ≤ 2 ^ c.bits
  tight : c.bits = 9 ∨ 2 ^ (c.bits - 1) < c.next
  idle : d.hasItems = false
  cur : (c.cur = 65535 ∧ s = [] ∧ d.prev = 65535) ∨ Str ents c.cur s
  full : c.dict = itemsOf 258 ents
  marks : ∃ m, (c.cur = 65535 ∧ m = [] ∨ Path ents c.cur m) ∧ ∀ x, x ∈ c.marked ↔ x ∈ d.marked ∨ x ∈ m
  markLt : ∀ x ∈ c.marked, x < c.next
  closed : ∀ i p b, ents[i]? = some (p, b) → 258 + i ∈ c.marked → 258 ≤ p → p ∈ c.marked
  prev : (d.prev = 65535 ∧ d.dict = ents ∧ 258 + ents.length ≠ 2 ^ c.bits ∧ 259 + ents.length ≠ 2 ^ c.bits) ∨
    (∃ E p b, ents = E ++ [(p, b)] ∧ d.dict = E ∧ d.prev = p ∧ (c.cur ≠ 65535 → s.head? = some b))

theorem bits_le {c : Comp} {d : Core} {ents : List (Nat × Nat)} {s : List Nat} (h : Sync c d ents s) : c.bits ≤ 15 := by
  have h1 := h.nextLe
  have h2 := h.maxLt
  rcases h.tight with ht | ht
  · omega
  · false_or_by_contra
    rename_i hgt
    have : 2 ^ 15 ≤ 2 ^ (c.bits - 1) := Nat.pow_le_pow_right (by omega) (by omega)
    omega

/-- The decompressor gets the current code: it puts out its bytes and completes its dictionary. -/
theorem emit {clr : Core → Option Core} {c : Comp} {d : Core} {ents : List (Nat × Nat)} {s : List Nat} (h : Sync c d ents s)
    (hc : Str ents c.cur s) :
    ∃ d', stepCode clr d c.cur = some (d', s) ∧ d'.dict = ents ∧ d'.prev = c.cur ∧ d'.hasItems = false ∧
      d'.bits = (if c.next = 2 ^ c.bits then c.bits + 1 else c.bits) ∧
      ∃ m, Path ents c.cur m ∧ ∀ x, x ∈ d'.marked ↔ x ∈ d.marked ∨ x ∈ m := by
  have hb := hc.bound
  have h1 := h.next
  have h2 := h.nextLe
  have h3 := h.maxLt
  unfold stepCode
  rw [if_neg (by unfold clearCode; exact hb.2.1)]
  unfold Core.onCode
  rcases h.prev with ⟨hp, hd, hw1, hw2⟩ | ⟨E, p, b, he, hd, hp, hs⟩
  · -- the first code after a clear
    have hn : (d.dict.length + firstChainCode) % 65536 = 258 + ents.length := by
      rw [hd, Nat.mod_eq_of_lt (by unfold firstChainCode; omega)]; unfold firstChainCode; omega
    simp only [hn]
    have hbits : (if 258 + ents.length + 1 = 2 ^ d.bits then d.bits + 1 else d.bits) = if c.next = 2 ^ c.bits then c.bits + 1 else c.bits := by
      rw [← h.bits, if_neg (by omega), if_neg (by omega)]
    by_cases hl : c.cur < 256
    · rw [if_pos hl]
      rw [hc.lit_inv hl]
      simp only [Core.after, Core.idle, hp, nullChainCode, ne_eq, not_true_eq_false, if_false]
      exact ⟨_, rfl, hd, rfl, rfl, hbits, [], .lit hl, by simp⟩
    · rw [if_neg hl, if_neg (by omega), if_pos (by omega)]
      obtain ⟨m, e, hm⟩ := extract_str h.older hc (d.dict.length + 1) [] (by omega) (by rw [hd]; omega)
      rw [hd] at e ⊢
      simp only [e, List.append_nil, Core.after, Core.idle, hp, nullChainCode, ne_eq, not_true_eq_false, if_false, hb.2.2.2, false_or]
      exact ⟨_, rfl, rfl, rfl, rfl, hbits, m, hm, fun x => by simp [or_comm]⟩
  · have hcn : c.cur ≠ 65535 := by omega
    have hs := hs hcn
    have hel : ents.length = E.length + 1 := by rw [he]; simp
    have hn : (d.dict.length + firstChainCode) % 65536 = 258 + E.length := by
      rw [hd, Nat.mod_eq_of_lt (by unfold firstChainCode; omega)]; unfold firstChainCode; omega
    have hpo : p < 258 + E.length := h.older E.length p b (by rw [he]; simp)
    have hpn : d.prev ≠ 65535 := by omega
    have hoE : Older E := by have := h.older; rw [he] at this; exact this.left
    simp only [hn]
    have hbits : (if 258 + E.length + 1 = 2 ^ d.bits then d.bits + 1 else d.bits) = if c.next = 2 ^ c.bits then c.bits + 1 else c.bits := by
      rw [← h.bits, h1, hel, Nat.add_assoc]
    have hhead : s.headD 0 = b := by
      cases s with
      | nil => simp at hs
      | cons x l => simpa using hs
    by_cases hl : c.cur < 256
    · rw [if_pos hl]
      rw [hc.lit_inv hl] at hs ⊢
      simp only [Core.after, Core.idle, nullChainCode, ne_eq, hpn, not_false_eq_true, if_true]
      have hh : c.cur = b := by simpa using hs
      exact ⟨_, rfl, by rw [hd, he, hp, hh], rfl, rfl, hbits, [], .lit hl, by simp⟩
    · rw [if_neg hl]
      by_cases hnew : c.cur = 258 + E.length
      · -- the code which the decompressor does not know yet
        rw [if_pos hnew, if_neg (by exact hpn)]
        obtain ⟨s1, hs1, rfl⟩ : ∃ s1, Str E p s1 ∧ s = s1 ++ [b] := by
          rw [hnew] at hc
          generalize hg : 258 + E.length = g at hc
          cases hc with
          | lit h => omega
          | @ext i p' b' s1 hi hsp =>
            have : i = E.length := by omega
            subst this
            rw [he] at hi
            simp at hi
            obtain ⟨rfl, rfl⟩ := hi
            have ho := h.older
            rw [he] at hsp ho
            exact ⟨s1, hsp.restrict ho hpo, rfl⟩
        have hs1n := hs1.bound.2.2.2
        obtain ⟨m, e, hm⟩ := extract_str hoE hs1 (E.length + 1) [0] (by omega) (by omega)
        have hh1 : (s1 ++ [0]).headD 0 = b := by
          cases s1 with
          | nil => exact absurd rfl hs1n
          | cons x l => simpa using hs
        have hlf : lastFirst (s1 ++ [0]) = s1 ++ [b] := by
          unfold lastFirst
          rw [List.dropLast_concat]
          cases s1 with
          | nil => exact absurd rfl hs1n
          | cons x l => simp at hs; simp [hs]
        rw [hd, hp]
        simp only [e, hh1, hlf, Core.after, Core.idle]
        rw [if_neg (by simp)]
        refine ⟨_, rfl, by rw [he], rfl, rfl, hbits, (258 + E.length) :: m, ?_, ?_⟩
        · rw [hnew]
          exact .ext (p := p) (b := b) (by rw [he]; simp) (by rw [he]; exact hm.mono _)
        · intro x
          simp [hnew, or_comm, or_assoc, or_left_comm]
      · rw [if_neg hnew, if_pos (by omega)]
        have ho := h.older
        rw [he] at hc ho
        have hcE := hc.restrict ho (by omega)
        obtain ⟨m, e, hm⟩ := extract_str hoE hcE (E.length + 1) [] (by omega) (by omega)
        rw [hd]
        simp only [e, List.append_nil, Core.after, Core.idle, nullChainCode, ne_eq, hpn, not_false_eq_true, if_true, hb.2.2.2, false_or, hhead]
        exact ⟨_, rfl, by rw [he, hp], rfl, rfl, hbits, m, by rw [he]; exact hm.mono _, fun x => by simp [or_comm]⟩

/-! ## Output of the compressor -/

/-- The bytes read `bs` and the bytes which wait are the codes `cs`. -/
def Outs (o : OutBuff) (bs : List Nat) (cs : List (Nat × Nat)) : Prop :=
  ∃ q, Waits o q ∧ bytesBits (bs ++ o.pend) ++ q = codesBits cs ∧ ∀ x ∈ bs ++ o.pend, x < 256

theorem outs_write {c : Comp} {bs : List Nat} {cs : List (Nat × Nat)} {code : Nat} (h : Outs c.out bs cs) (hb : c.bits ≤ 15)
    (hb9 : 9 ≤ c.bits) (hc : code < 2 ^ c.bits) (hp : c.out.pend.length ≤ 8) :
    Outs (c.writeCode code).out bs (cs ++ [(code, c.bits)]) ∧ (c.writeCode code).out.pend.length ≤ c.out.pend.length + 2 ∧
      (c.writeCode code).hasItems = true ∧ (c.writeCode code).out.pend ≠ [] := by
  obtain ⟨q, hq, he, hx⟩ := h
  have hql := hq.len
  have hqp := hq.pos
  obtain ⟨bs', q', e1, e2, e3, e4⟩ := write_bits (c.bits + 1) c.out q code c.bits hq hc (by omega) (by omega)
  have hl := congrArg List.length e3
  simp at hl
  have hql' := e2.len
  have hqp' := e2.pos
  have hne : c.out.pend ++ bs' ≠ [] := by
    intro h
    have := congrArg List.length h
    simp at this
    simp [this.2] at hl
    omega
  refine ⟨⟨q', e2, ?_, ?_⟩, ?_, ?_, ?_⟩
  · show bytesBits (bs ++ (OutBuff.write (c.bits + 1) c.out code c.bits).pend) ++ q' = _
    rw [e1, codesBits_append, ← he, ← List.append_assoc, bytesBits_append, List.append_assoc, List.append_assoc, ← e3]
    simp [codesBits]
  · show ∀ x ∈ bs ++ (OutBuff.write (c.bits + 1) c.out code c.bits).pend, _
    rw [e1]
    intro x hx'
    rcases List.mem_append.1 hx' with h | h
    · exact hx x (List.mem_append_left _ h)
    · rcases List.mem_append.1 h with h | h
      · exact hx x (List.mem_append_right _ h)
      · exact e4 x h
  · show (OutBuff.write (c.bits + 1) c.out code c.bits).pend.length ≤ _
    rw [e1, List.length_append]
    omega
  · show ((OutBuff.write (c.bits + 1) c.out code c.bits).pend.length != 0) = true
    rw [e1]
    simpa using hne
  · show (OutBuff.write (c.bits + 1) c.out code c.bits).pend ≠ []
    rw [e1]; exact hne

/-- Reading all that waits. -/
theorem comp_drain (clr : Comp → Option Comp) : ∀ (fuel : Nat) (c : Comp), c.hasItems = true → c.out.pend ≠ [] →
    c.out.pend.length ≤ fuel →
      (compOf clr).drain fuel c = some (c.out.pend, { c with out := { c.out with pend := [] }, hasItems := false }) := by
  intro fuel
  induction fuel with
  | zero =>
    intro c _ h h'
    cases ho : c.out.pend with
    | nil => exact absurd ho h
    | cons x l => rw [ho] at h'; simp at h'
  | succ fuel ih =>
    intro c hi hne hl
    have hi' : (compOf clr).hasItems c = true := hi
    rw [Conv.drain, if_pos hi']
    cases ho : c.out.pend with
    | nil => exact absurd ho hne
    | cons x l =>
      have hg : (compOf clr).getNext c = some (x, { c with out := { c.out with pend := l }, hasItems := l.length != 0 }) := by
        show c.getNext = _
        simp [Comp.getNext, ho]
      rw [hg]
      simp only
      rw [ho] at hl
      cases l with
      | nil =>
        rw [drain_idle _ (by rfl)]
        simp
      | cons y l =>
        rw [ih _ (by simp) (by simp) (by simpa using hl)]

/-! ## Steps of the compressor -/

/-- What the clear code must do on both sides: they agree again. `T` tells that the compressor does not
give up, `m` is the limit of codes. -/
def ClrOK (T : Prop) (m : Nat) (clrC : Comp → Option Comp) (clrD : Core → Option Core) : Prop :=
  ∀ c d ents b, Sync { c with cur := b } d ents [b] → c.next = c.maxCode + 1 → 508 ≤ c.maxCode → c.maxCode = m → b < 256 → d.prev ≠ 65535 →
    (¬ T ∧ clrC c = none) ∨ ∃ c' d' ents', clrC c = some c' ∧ c'.out = (c.writeCode 256).out ∧ c'.hasItems = (c.writeCode 256).hasItems ∧
      clrD d = some d' ∧ Sync { c' with cur := b } d' ents' [b] ∧ c'.next ≤ c'.maxCode ∧ c'.maxCode = c.maxCode

/-- The compressor as constructed, but for the mark of the end of a block. -/
def Fresh (m : Nat) (c : Comp) : Prop := ∃ e, c = { maxCode := m, eolb := e }

/-- What holds between two bytes: `bs` are the bytes put out so far, `input` the bytes taken. -/
def Inv (clrD : Core → Option Core) (m : Nat) (c : Comp) (bs input : List Nat) : Prop :=
  ∃ cs d o ents s, Outs c.out bs cs ∧ c.out.pend = [] ∧ c.hasItems = false ∧ runCodes clrD {} cs = some (d, o) ∧
    Sync c d ents s ∧ c.next ≤ c.maxCode ∧ 508 ≤ c.maxCode ∧ input = o ++ s ∧
    (c.cur = 65535 → bs = [] ∧ input = [] ∧ Fresh m c) ∧ c.maxCode = m

theorem findCode_cons (d : List (Nat × Nat × Nat)) (p x c p' x' : Nat) :
    findCode ((p, x, c) :: d) p' x' = if p = p' ∧ x = x' then some c else findCode d p' x' := rfl

theorem run_one {clr : Core → Option Core} {d d' : Core} {code : Nat} {o : List Nat} (h9 : 9 ≤ d.bits) (h1 : code ≠ 257)
    (h2 : code < 2 ^ d.bits) (h3 : code < 65536) (h : stepCode clr d code = some (d', o)) (hi : d'.hasItems = false) :
    runCodes clr d [(code, d.bits)] = some (d', o) := by
  rw [runCodes, if_pos ⟨rfl, h9, h1, h2, h3⟩, h]
  simp [hi, runCodes]

/-- After the code was written and the new item added. -/
theorem sync_added {c : Comp} {d d' : Core} {ents : List (Nat × Nat)} {s : List Nat} {b : Nat} {c' : Comp} (h : Sync c d ents s)
    (hn : c.next ≤ c.maxCode) (hc : Str ents c.cur s) (hb : b < 256)
    (e1 : d'.dict = ents) (e2 : d'.prev = c.cur) (e3 : d'.hasItems = false)
    (e4 : d'.bits = if c.next = 2 ^ c.bits then c.bits + 1 else c.bits)
    (g1 : c'.dict = (c.cur, b, c.next) :: c.dict) (g2 : c'.next = c.next + 1) (g3 : c'.maxCode = c.maxCode)
    (g4 : c'.bits = if c.next = 2 ^ c.bits then c.bits + 1 else c.bits) (g5 : c'.cur = b) (g6 : c'.marked = c.marked)
    (e5 : ∃ m, Path ents c.cur m ∧ ∀ x, x ∈ d'.marked ↔ x ∈ d.marked ∨ x ∈ m) :
    Sync c' d' (ents ++ [(c.cur, b)]) [b] := by
  have hbd := hc.bound
  have h1 := h.next
  have h2 := h.fits
  have h3 := h.maxLt
  have h9 := h.bits9
  have hpow : 2 ^ (c.bits + 1) = 2 * 2 ^ c.bits := by rw [Nat.pow_succ]; omega
  have hpos : 2 ^ 9 ≤ 2 ^ c.bits := Nat.pow_le_pow_right (by omega) h9
  refine ⟨?_, ?_, ?_, ?_, ?_, ?_, ?_, ?_, ?_, e3, ?_, ?_, ?_, ?_, ?_, ?_⟩
  · rw [g2, h1]; simp; omega
  · rw [g2, g3]; omega
  · rw [g3]; exact h3
  · intro i p x hi
    by_cases hlt : i < ents.length
    · rw [List.getElem?_append_left hlt] at hi; exact h.older i p x hi
    · have hl := (List.getElem?_eq_some_iff.1 hi).1
      simp at hl
      have : i = ents.length := by omega
      subst this
      simp at hi
      omega
  · intro p x code hf
    rw [g1, findCode_cons] at hf
    split at hf
    · rename_i hpx
      obtain ⟨rfl, rfl⟩ := hpx
      simp at hf
      exact ⟨ents.length, by omega, by simp⟩
    · obtain ⟨i, hi, he⟩ := h.dict p x code hf
      exact ⟨i, hi, by rw [List.getElem?_append_left (List.getElem?_eq_some_iff.1 he).1]; exact he⟩
  · rw [g4, e4]
  · rw [g4]; split <;> omega
  · rw [g2, g4]
    by_cases hh : c.next = 2 ^ c.bits
    · rw [if_pos hh, hpow]; omega
    · rw [if_neg hh]; omega
  · rw [g2, g4]
    by_cases hh : c.next = 2 ^ c.bits
    · rw [if_pos hh]; right; simp; omega
    · rw [if_neg hh]
      rcases h.tight with ht | ht
      · exact Or.inl ht
      · exact Or.inr (by omega)
  · right; rw [g5]; exact .lit hb
  · rw [g1, h.full, itemsOf_add, h1]
  · refine ⟨[], Or.inr (by rw [g5]; exact .lit hb), fun x => ?_⟩
    obtain ⟨m, hm, hx⟩ := e5
    obtain ⟨m', hm', hx'⟩ := h.marks
    have hmm : m' = m := by
      rcases hm' with ⟨hn', _⟩ | hm'
      · omega
      · exact hm'.det hm
    rw [g6, hx', hx, hmm]; simp
  · rw [g6, g2]
    intro x hx
    have := h.markLt x hx
    omega
  · rw [g6]
    intro i p x hi hm hp
    by_cases hlt : i < ents.length
    · rw [List.getElem?_append_left hlt] at hi; exact h.closed i p x hi hm hp
    · have := h.markLt _ hm
      omega
  · right
    exact ⟨ents, c.cur, b, rfl, e1, e2, fun _ => rfl⟩

theorem comp_finish {clr : Comp → Option Comp} {clrD : Core → Option Core} {c : Comp} {bs input : List Nat} {fuel : Nat}
    {cs : List (Nat × Nat)} {d : Core} {o s : List Nat} {ents : List (Nat × Nat)} (h1 : Outs c.out bs cs) (h2 : c.out.pend ≠ [])
    (h3 : c.hasItems = true) (h4 : c.out.pend.length ≤ fuel) (h5 : runCodes clrD {} cs = some (d, o)) (h6 : Sync c d ents s)
    (h7 : c.next ≤ c.maxCode) (h8 : 508 ≤ c.maxCode) (h9 : input = o ++ s) (h10 : c.cur ≠ 65535) {m : Nat} (h11 : c.maxCode = m) :
    ∃ x c', (compOf clr).drain fuel c = some (x, c') ∧ Inv clrD m c' (bs ++ x) input := by
  refine ⟨_, _, comp_drain clr fuel c h3 h2 h4, cs, d, o, ents, s, ?_, rfl, rfl, h5, ?_, h7, h8, h9, fun h => absurd h h10, h11⟩
  · obtain ⟨q, hq, he, hx⟩ := h1
    exact ⟨q, ⟨hq.len, hq.pos, hq.acc⟩, by simpa using he, by simpa using hx⟩
  · exact ⟨h6.next, h6.nextLe, h6.maxLt, h6.older, h6.dict, h6.bits, h6.bits9, h6.fits, h6.tight, h6.idle, h6.cur, h6.full, h6.marks, h6.markLt, h6.closed, h6.prev⟩

/-- One byte. -/
theorem inv_step {T : Prop} {m : Nat} {clrC : Comp → Option Comp} {clrD : Core → Option Core} (hclr : ClrOK T m clrC clrD) {c : Comp} {bs input : List Nat}
    {b fuel : Nat} (h : Inv clrD m c bs input) (hb : b < 256) (hf : 16 ≤ fuel) :
    (¬ T ∧ (c.next = c.maxCode ∧ findCode c.dict c.cur b = none) ∧ (compOf clrC).writeToIter fuel c b = none) ∨ ∃ x c', (compOf clrC).writeToIter fuel c b = some (x, c') ∧ Inv clrD m c' (bs ++ x) (input ++ [b]) := by
  obtain ⟨cs, d, o, ents, s, ho, hp, hi, hr, hs, hn, hm, hin, hnu, hmx⟩ := h
  have hi' : (compOf clrC).hasItems c = false := hi
  have h1 := hs.next
  have h3 := hs.maxLt
  have h9 := hs.bits9
  have hw : (compOf clrC).write c b = c.write clrC b := rfl
  rw [Conv.writeToIter, drain_idle _ hi']
  simp only [List.nil_append]
  rw [hw, Comp.write]
  cases hfc : findCode c.dict c.cur b with
  | some code =>
    simp only
    obtain ⟨i, hi1, hi2⟩ := hs.dict _ _ _ hfc
    have hlt := (List.getElem?_eq_some_iff.1 hi2).1
    have hold := hs.older _ _ _ hi2
    have hcs : Str ents c.cur s := by
      rcases hs.cur with h | h
      · omega
      · exact h
    rw [drain_idle _ (by exact hi)]
    right
    refine ⟨_, _, rfl, cs, d, o, ents, s ++ [b], by simpa using ho, hp, hi, hr, ?_, hn, hm, by rw [hin]; simp, fun h => by have h' : code = 65535 := h; omega, hmx⟩
    refine ⟨h1, hs.nextLe, h3, hs.older, hs.dict, hs.bits, h9, hs.fits, hs.tight, hs.idle, ?_, hs.full, ?_, ?_, ?_, ?_⟩
    · right
      show Str ents code (s ++ [b])
      rw [hi1]
      exact .ext hi2 hcs
    · obtain ⟨m', hm', hx⟩ := hs.marks
      have hm2 : Path ents c.cur m' := by
        rcases hm' with h | h
        · have := hcs.bound; omega
        · exact h
      refine ⟨code :: m', Or.inr (by show Path ents code _; rw [hi1]; exact .ext hi2 hm2), fun x => ?_⟩
      show x ∈ code :: c.marked ↔ _
      rw [List.mem_cons, hx, List.mem_cons]
      exact or_left_comm
    · show ∀ x ∈ code :: c.marked, x < c.next
      intro x hx
      rcases List.mem_cons.1 hx with h | h
      · omega
      · exact hs.markLt x h
    · show ∀ j p x, ents[j]? = some (p, x) → 258 + j ∈ code :: c.marked → 258 ≤ p → p ∈ code :: c.marked
      intro j p x hj hm1 hp1
      rcases List.mem_cons.1 hm1 with h | h
      · have : j = i := by omega
        subst this
        rw [hi2] at hj
        obtain ⟨rfl, rfl⟩ := Prod.mk.inj (Option.some.inj hj)
        refine List.mem_cons_of_mem _ ?_
        obtain ⟨m', hm', hx⟩ := hs.marks
        rw [hx]
        right
        rcases hm' with h | h
        · have := hcs.bound; omega
        · generalize c.cur = q at h hp1 ⊢
          cases h with
          | lit _ => omega
          | ext _ _ => exact List.mem_cons_self
      · exact List.mem_cons_of_mem _ (hs.closed j p x hj h hp1)
    · rcases hs.prev with h | ⟨E, p, x, g1, g2, g3, g4⟩
      · exact Or.inl h
      · refine Or.inr ⟨E, p, x, g1, g2, g3, fun _ => ?_⟩
        have hb4 := hcs.bound
        have := g4 (by omega)
        cases s with
        | nil => simp at this
        | cons y l => simpa using this
  | none =>
    simp only
    by_cases hnull : c.cur = nullChainCode
    · rw [if_pos hnull]
      simp only
      rw [drain_idle _ (by exact hi)]
      have hnull' : c.cur = 65535 := hnull
      rcases hs.cur with ⟨_, rfl, hdp⟩ | hcs
      · right
        refine ⟨_, _, rfl, cs, d, o, ents, [b], by simpa using ho, hp, hi, hr, ?_, hn, hm, by rw [hin]; simp, fun h => by have h' : b = 65535 := h; omega, hmx⟩
        refine ⟨h1, hs.nextLe, h3, hs.older, hs.dict, hs.bits, h9, hs.fits, hs.tight, hs.idle, Or.inr (.lit hb), hs.full, ?_, hs.markLt, hs.closed, ?_⟩
        · obtain ⟨m', hm', hx⟩ := hs.marks
          refine ⟨[], Or.inr (.lit hb), ?_⟩
          rcases hm' with ⟨_, rfl⟩ | h
          · exact hx
          · have := h.bound; omega
        rcases hs.prev with h | ⟨E, p, x, g1, g2, g3, g4⟩
        · exact Or.inl h
        · exfalso
          have := hs.older E.length p x (by rw [g1]; simp)
          have hl := congrArg List.length g1
          simp at hl
          omega
      · have := hcs.bound
        omega
    · rw [if_neg hnull]
      have hcs : Str ents c.cur s := by
        rcases hs.cur with h | h
        · exact absurd h.1 hnull
        · exact h
      have hbd := hcs.bound
      have hb15 := bits_le hs
      have hcl : c.cur < 2 ^ c.bits := by have := hs.fits; omega
      obtain ⟨d', k1, k2, k3, k4, k5, k6⟩ := emit (clr := clrD) hs hcs
      obtain ⟨w1, w2, w3, w4⟩ := outs_write ho hb15 h9 hcl (by rw [hp]; simp)
      rw [hp] at w2
      simp at w2
      have hcb := hs.bits
      have hrun : runCodes clrD d [(c.cur, c.bits)] = some (d', s) := by
        rw [hcb]; exact run_one (by omega) (by omega) (by rw [← hcb]; exact hcl) (by omega) k1 k4
      have hrun' := runCodes_append clrD hr hrun
      -- the state after the new item
      generalize hc3 : ({ c.writeCode c.cur with next := ((c.writeCode c.cur).next + 1) % 65536, dict := ((c.writeCode c.cur).cur, b, (c.writeCode c.cur).next) :: (c.writeCode c.cur).dict } : Comp).increaseBits (c.writeCode c.cur).next = c3
      have q1 : c3.out = (c.writeCode c.cur).out := by rw [← hc3, Comp.increaseBits]; split <;> rfl
      have q2 : c3.hasItems = true := by rw [← hc3, Comp.increaseBits]; split <;> exact w3
      have q3 : c3.next = c.next + 1 := by
        have : (c.next + 1) % 65536 = c.next + 1 := Nat.mod_eq_of_lt (by omega)
        rw [← hc3, Comp.increaseBits]; split <;> exact this
      have q4 : c3.dict = (c.cur, b, c.next) :: c.dict := by rw [← hc3, Comp.increaseBits]; split <;> rfl
      have q5 : c3.maxCode = c.maxCode := by rw [← hc3, Comp.increaseBits]; split <;> rfl
      have q6 : c3.bits = if c.next = 2 ^ c.bits then c.bits + 1 else c.bits := by
        rw [← hc3, Comp.increaseBits]
        have : (c.writeCode c.cur).next = c.next := rfl
        simp only [this]
        have : (c.writeCode c.cur).bits = c.bits := rfl
        simp only [this]
        split <;> rfl
      have q8 : c3.marked = c.marked := by rw [← hc3, Comp.increaseBits]; split <;> rfl
      have hsync := sync_added (c' := { c3 with cur := b }) hs hn hcs hb k2 k3 k4 k5 q4 q3 q5 q6 rfl q8 k6
      have q7 : (c.writeCode c.cur).next = c.next := rfl
      rw [q7, q5]
      by_cases hmax : c.next = c.maxCode
      · rw [if_pos hmax]
        rcases hclr c3 d' _ b hsync (by omega) (by omega) (by omega) hb (by omega) with ⟨r0, r1⟩ | ⟨c4, d2, ents', r1, r2, r3, r4, r5, r6, r7⟩
        · left
          rw [r1]
          exact ⟨r0, ⟨hmax, trivial⟩, rfl⟩
        right
        rw [r1]
        simp only
        have hb15' := bits_le hsync
        have h9' := hsync.bits9
        have h15 : c3.bits ≤ 15 := hb15'
        have h99 : 9 ≤ c3.bits := h9'
        have hp9 : 2 ^ 9 ≤ 2 ^ c3.bits := Nat.pow_le_pow_right (by omega) h99
        obtain ⟨v1, v2, v3, v4⟩ := outs_write (c := c3) (code := 256) (by rw [q1]; exact w1) h15 h99 (by omega) (by rw [q1]; omega)
        have hd3 : d'.bits = c3.bits := by rw [k5, q6]
        have hrun2 : runCodes clrD d' [(256, c3.bits)] = some (d2, []) := by
          rw [← hd3]
          refine run_one (by omega) (by omega) (by rw [hd3]; omega) (by omega) ?_ r5.idle
          unfold stepCode
          rw [if_pos (by rfl), r4]; rfl
        have hrun3 := runCodes_append clrD hrun' hrun2
        rw [q1] at v2
        obtain ⟨x, c', z1, z2⟩ := comp_finish (clr := clrC) (c := { c4 with cur := b }) (input := input ++ [b]) (fuel := fuel)
          (by show Outs c4.out bs _; rw [r2]; exact v1) (by show c4.out.pend ≠ []; rw [r2]; exact v4)
          (by show c4.hasItems = true; rw [r3]; exact v3) (by show c4.out.pend.length ≤ fuel; rw [r2]; omega) hrun3 r5 r6 (by show 508 ≤ c4.maxCode; omega)
          (by rw [hin]; simp) (by show b ≠ 65535; omega) (by show c4.maxCode = m; omega)
        rw [z1]
        exact ⟨x, c', rfl, z2⟩
      · rw [if_neg hmax]
        simp only
        right
        obtain ⟨x, c', z1, z2⟩ := comp_finish (clr := clrC) (c := { c3 with cur := b }) (input := input ++ [b]) (fuel := fuel)
          (by show Outs c3.out bs _; rw [q1]; exact w1) (by show c3.out.pend ≠ []; rw [q1]; exact w4)
          q2 (by show c3.out.pend.length ≤ fuel; rw [q1]; omega) hrun' hsync (by show c3.next ≤ c3.maxCode; omega) (by show 508 ≤ c3.maxCode; omega)
          (by rw [hin]) (by show b ≠ 65535; omega) (by show c3.maxCode = m; omega)
        rw [z1]
        exact ⟨x, c', rfl, z2⟩

theorem inv_many {T : Prop} {m : Nat} {clrC : Comp → Option Comp} {clrD : Core → Option Core} (hclr : ClrOK T m clrC clrD) {fuel : Nat} (hf : 16 ≤ fuel) :
    ∀ (l : List Nat) (c : Comp) (bs input : List Nat), (∀ x ∈ l, x < 256) → Inv clrD m c bs input →
      (¬ T ∧ (compOf clrC).writeMany fuel c l = none) ∨ ∃ x c', (compOf clrC).writeMany fuel c l = some (x, c') ∧ Inv clrD m c' (bs ++ x) (input ++ l) := by
  intro l
  induction l with
  | nil => intro c bs input _ h; exact Or.inr ⟨[], c, rfl, by simpa using h⟩
  | cons a l ih =>
    intro c bs input hl h
    rcases inv_step hclr h (hl a List.mem_cons_self) hf with ⟨r0, _, r1⟩ | ⟨x, c1, e1, h1⟩
    · exact Or.inl ⟨r0, by simp [Conv.writeMany, r1]⟩
    rcases ih c1 _ _ (fun z hz => hl z (List.mem_cons_of_mem _ hz)) h1 with ⟨r0, r1⟩ | ⟨y, c2, e2, h2⟩
    · exact Or.inl ⟨r0, by simp [Conv.writeMany, e1, r1]⟩
    exact Or.inr ⟨x ++ y, c2, by simp [Conv.writeMany, e1, e2], by simpa using h2⟩

theorem init_max {n : Nat} (hn : 9 ≤ n) : 508 ≤ (Comp.init n).maxCode ∧ (Comp.init n).maxCode < 32767 := by
  show 508 ≤ (2 ^ (if n > 15 then 15 else n) + 65536 - 4) % 65536 ∧ (2 ^ (if n > 15 then 15 else n) + 65536 - 4) % 65536 < 32767
  by_cases h : n > 15
  · rw [if_pos h]; decide
  · rw [if_neg h]
    have : n = 9 ∨ n = 10 ∨ n = 11 ∨ n = 12 ∨ n = 13 ∨ n = 14 ∨ n = 15 := by omega
    rcases this with rfl | rfl | rfl | rfl | rfl | rfl | rfl <;> decide

theorem inv_init (clrD : Core → Option Core) {m : Nat} {c : Comp} (hc : Fresh m c) (h1 : 508 ≤ m) (h2 : m < 32767) : Inv clrD m c [] [] := by
  obtain ⟨e, rfl⟩ := hc
  refine ⟨[], {}, [], [], [], ⟨[], waits_init, rfl, by simp⟩, rfl, rfl, rfl, ?_, (by show 258 ≤ m; omega), h1, rfl, fun _ => ⟨rfl, rfl, e, rfl⟩, rfl⟩
  refine ⟨rfl, ?_, h2, ?_, ?_, rfl, (by show 9 ≤ 9; decide), (by show 258 ≤ 2 ^ 9; decide), Or.inl rfl, rfl, Or.inl ⟨rfl, rfl, rfl⟩, rfl, ⟨[], Or.inl ⟨rfl, rfl⟩, by simp⟩, by simp, by simp, Or.inl ⟨rfl, rfl, (by show 258 ≠ 2 ^ 9; decide), (by show 259 ≠ 2 ^ 9; decide)⟩⟩
  · show 258 ≤ m + 1; omega
  · intro i p b h; simp at h
  · intro p b c h; simp [findCode] at h

/-- The last code, before the end code. -/
def lastCode (c : Comp) : Comp :=
  ({ c.writeCode c.cur with next := ((c.writeCode c.cur).next + 1) % 65536 } : Comp).increaseBits (c.writeCode c.cur).next

theorem flush_null {c : Comp} (h : c.cur = 65535) : c.flush = { c with eolb := true } := by
  unfold Comp.flush
  rw [if_neg (fun h' => h' h)]

theorem flush_some {c : Comp} (h : c.cur ≠ 65535) : c.flush = { (lastCode c).writeClearCode endData with out := ((lastCode c).writeClearCode endData).out.padzeroes, cur := nullChainCode, eolb := true } := by
  unfold Comp.flush
  rw [if_pos (by exact h)]
  rfl

/-- The end of the data: everything which was put out decodes to the input. -/
theorem inv_flush {clrC : Comp → Option Comp} {clrD : Core → Option Core} {c : Comp} {bs input : List Nat} {fuel m : Nat}
    (h : Inv clrD m c bs input) (hf : 16 ≤ fuel) (hfi : input.length ≤ fuel) :
    ∃ x c', (compOf clrC).flushToIter fuel c = some (x, c') ∧ (∀ y ∈ bs ++ x, y < 256) ∧ Fresh m c' ∧
      ∃ d', (decOf clrD).writeMany fuel {} (bs ++ x) = some (input, d') ∧ d'.core.hasItems = false ∧
        (c.cur ≠ 65535 → d'.core.eolb = true) := by
  obtain ⟨cs, d, o, ents, s, ho, hp, hi, hr, hs, hn, hm, hin, hnu, hmx⟩ := h
  have hfl : (compOf clrC).flushToIter fuel c = (compOf clrC).drain fuel c.flush := rfl
  have hbits0 : ∀ y ∈ bs, y < 256 := by
    obtain ⟨q, _, _, hx⟩ := ho
    intro y hy
    exact hx y (List.mem_append_left _ hy)
  rw [hfl]
  by_cases hnull : c.cur = 65535
  · rw [flush_null hnull, drain_idle _ (by exact hi)]
    obtain ⟨rfl, rfl, e, hfr⟩ := hnu hnull
    exact ⟨[], _, rfl, by simp, ⟨true, by rw [hfr]⟩, {}, rfl, rfl, fun h => absurd hnull h⟩
  · rw [flush_some hnull]
    have hcs : Str ents c.cur s := by
      rcases hs.cur with h | h
      · exact absurd h.1 hnull
      · exact h
    have hbd := hcs.bound
    have h1 := hs.next
    have h3 := hs.maxLt
    have h9 := hs.bits9
    have hb15 := bits_le hs
    have hcl : c.cur < 2 ^ c.bits := by have := hs.fits; omega
    obtain ⟨d', k1, k2, k3, k4, k5, k6⟩ := emit (clr := clrD) hs hcs
    obtain ⟨w1, w2, w3, w4⟩ := outs_write ho hb15 h9 hcl (by rw [hp]; simp)
    rw [hp] at w2
    simp at w2
    have hcb := hs.bits
    have hrun : runCodes clrD d [(c.cur, c.bits)] = some (d', s) := by
      rw [hcb]; exact run_one (by omega) (by omega) (by rw [← hcb]; exact hcl) (by omega) k1 k4
    have hrun' := runCodes_append clrD hr hrun
    generalize hc3 : lastCode c = c3
    unfold lastCode at hc3
    have q1 : c3.out = (c.writeCode c.cur).out := by rw [← hc3, Comp.increaseBits]; split <;> rfl
    have q6 : c3.bits = if c.next = 2 ^ c.bits then c.bits + 1 else c.bits := by
      rw [← hc3, Comp.increaseBits]
      have : (c.writeCode c.cur).next = c.next := rfl
      simp only [this]
      have : (c.writeCode c.cur).bits = c.bits := rfl
      simp only [this]
      split <;> rfl
    have q8 : c3.marked = c.marked := by rw [← hc3, Comp.increaseBits]; split <;> rfl
    have hsync := sync_added (b := 0) (c' := { c3 with next := c.next + 1, dict := (c.cur, 0, c.next) :: c.dict, maxCode := c.maxCode, cur := 0 })
      hs hn hcs (by omega) k2 k3 k4 k5 rfl rfl rfl q6 rfl q8 k6
    have hb15' := bits_le hsync
    have h15 : c3.bits ≤ 15 := hb15'
    have h99 : 9 ≤ c3.bits := hsync.bits9
    have hp9 : 2 ^ 9 ≤ 2 ^ c3.bits := Nat.pow_le_pow_right (by omega) h99
    obtain ⟨v1, v2, v3, v4⟩ := outs_write (c := c3) (code := 257) (by rw [q1]; exact w1) h15 h99 (by omega) (by rw [q1]; omega)
    rw [q1] at v2
    have hd3 : d'.bits = c3.bits := by rw [k5, q6]
    have hE : (c3.writeClearCode endData).out = (c3.writeCode 257).out := rfl
    obtain ⟨q, hq, he, hx⟩ := v1
    have hpad : ((c3.writeClearCode endData).out.padzeroes).pend = (c3.writeCode 257).out.pend ++ [(c3.writeCode 257).out.accum] := by
      rw [hE]; exact push_eq (by omega)
    have hacc : (c3.writeCode 257).out.accum = val (q ++ List.replicate (c3.writeCode 257).out.wrbits false) := by
      have hz : ∀ n, val (List.replicate n false) = 0 := by
        intro n
        induction n with
        | zero => rfl
        | succ n ih => simp [List.replicate_succ, val, ih]
      rw [val_append, List.length_replicate, hz, hq.acc]; rfl
    have hql : (q ++ List.replicate (c3.writeCode 257).out.wrbits false).length = 8 := by simp [hq.len]
    have hbb : bitsN 8 (c3.writeCode 257).out.accum = q ++ List.replicate (c3.writeCode 257).out.wrbits false := by
      rw [hacc, ← hql]; exact bitsN_val _
    have ha256 : (c3.writeCode 257).out.accum < 256 := by
      rw [hacc]
      have := val_lt (q ++ List.replicate (c3.writeCode 257).out.wrbits false)
      rw [hql] at this; exact this
    have hdr := comp_drain clrC fuel { c3.writeClearCode endData with out := (c3.writeClearCode endData).out.padzeroes, cur := nullChainCode, eolb := true }
      v3 (by show ((c3.writeClearCode endData).out.padzeroes).pend ≠ []; rw [hpad]; simp)
      (by show ((c3.writeClearCode endData).out.padzeroes).pend.length ≤ fuel; rw [hpad]; simp; omega)
    have hby : ∀ y ∈ bs ++ ((c3.writeClearCode endData).out.padzeroes).pend, y < 256 := by
      rw [hpad, ← List.append_assoc]
      intro y hy
      rcases List.mem_append.1 hy with h | h
      · exact hx y h
      · simp at h; rw [h]; exact ha256
    have q5 : c3.maxCode = m := by rw [← hmx, ← hc3, Comp.increaseBits]; split <;> rfl
    refine ⟨_, _, hdr, hby, ⟨true, by simp [Comp.writeClearCode, Comp.writeCode, OutBuff.padzeroes, q5, nullChainCode]⟩, ?_⟩
    have hbits : bytesBits (bs ++ ((c3.writeClearCode endData).out.padzeroes).pend) =
        codesBits (cs ++ [(c.cur, c.bits)]) ++ (bitsN c3.bits 257 ++ List.replicate (c3.writeCode 257).out.wrbits false) := by
      rw [hpad, ← List.append_assoc, bytesBits_append, show bytesBits [(c3.writeCode 257).out.accum] = bitsN 8 (c3.writeCode 257).out.accum by simp [bytesBits],
        hbb, ← List.append_assoc, he, codesBits_append, show codesBits [(257, c3.bits)] = bitsN c3.bits 257 by simp [codesBits], List.append_assoc]
    have hol : (o ++ s).length ≤ fuel := by rw [← hin]; exact hfi
    obtain ⟨bs1, bs2, p', d1, z1, z2, z3, z4, z5, z6, z7⟩ := feed_codes clrD (fuel := fuel) (cs ++ [(c.cur, c.bits)]) _ {} [] _ d' (o ++ s)
      ⟨rfl, rfl⟩ rfl (by simp) hby (by rw [List.nil_append]; exact hbits) hrun' hol
    have hd1 : d1.core.bits = c3.bits := by rw [z3]; exact hd3
    obtain ⟨d2, y1, y2, y3⟩ := feed_end clrD (fuel := fuel) bs2 d1 p' (List.replicate (c3.writeCode 257).out.wrbits false) z4 z5
      (by omega) (by omega) (fun y hy => hby y (by rw [z1]; exact List.mem_append_right _ hy)) (by rw [hd1]; exact z7) (by have := hq.len; simp; omega)
    refine ⟨d2, ?_, y2, fun _ => y3⟩
    have := writeMany_append _ z2 y1
    rw [← z1] at this
    rw [hin]
    simpa using this

/-- Writing and flushing a segment. -/
def segment (clr : Comp → Option Comp) (fuel : Nat) (c : Comp) (l : List Nat) : Option (List Nat × Comp) :=
  match (compOf clr).writeMany fuel c l with
  | none => none
  | some (x, c1) => match (compOf clr).flushToIter fuel c1 with
    | none => none
    | some (y, c2) => some (x ++ y, c2)

/-- Round trip for any treatment of the clear code on which both sides agree. -/
theorem segment_trip {T : Prop} {m : Nat} {clrC : Comp → Option Comp} {clrD : Core → Option Core} (hclr : ClrOK T m clrC clrD) {fuel : Nat} {c : Comp}
    (hc : Fresh m c) (h1 : 508 ≤ m) (h2 : m < 32767)
    (input : List Nat) (hb : ∀ x ∈ input, x < 256) (hf : 16 ≤ fuel) (hfi : input.length ≤ fuel) :
    (¬ T ∧ segment clrC fuel c input = none) ∨ ∃ out c', segment clrC fuel c input = some (out, c') ∧ Fresh m c' ∧ (∀ x ∈ out, x < 256) ∧
      ∃ d, (decOf clrD).writeMany fuel {} out = some (input, d) ∧ d.core.hasItems = false ∧ (input ≠ [] → d.core.eolb = true) := by
  rcases inv_many hclr hf input c [] [] hb (inv_init clrD hc h1 h2) with ⟨r0, r1⟩ | ⟨x, c1, e1, g1⟩
  · exact Or.inl ⟨r0, by simp [segment, r1]⟩
  right
  obtain ⟨y, c2, e2, g2, g3, d, e3, g4, g5⟩ := inv_flush (clrC := clrC) g1 hf (by simpa using hfi)
  refine ⟨x ++ y, c2, by simp [segment, e1, e2], g3, by simpa using g2, d, by simpa using e3, g4, ?_⟩
  intro hne
  refine g5 fun h => hne ?_
  obtain ⟨_, _, _, _, _, _, _, _, _, _, _, _, _, h0, _⟩ := g1
  simpa using (h0 h).2.1

theorem round_trip {T : Prop} {n : Nat} {clrC : Comp → Option Comp} {clrD : Core → Option Core} (hclr : ClrOK T (Comp.init n).maxCode clrC clrD)
    {fuel : Nat} (hn : 9 ≤ n)
    (input : List Nat) (hb : ∀ x ∈ input, x < 256) (hf : 16 ≤ fuel) (hfi : input.length ≤ fuel) :
    (¬ T ∧ (compOf clrC).run fuel (Comp.init n) input = none) ∨ ∃ out, (compOf clrC).run fuel (Comp.init n) input = some out ∧ (∀ x ∈ out, x < 256) ∧
      (decOf clrD).run fuel {} out = some input := by
  rcases segment_trip hclr (c := Comp.init n) ⟨false, rfl⟩ (init_max hn).1 (init_max hn).2 input hb hf hfi with ⟨r0, r1⟩ | ⟨out, c', e1, _, h2, d, e3, h3, _⟩
  · left
    refine ⟨r0, ?_⟩
    unfold segment at r1
    unfold Conv.run
    split at r1
    · rename_i hx
      rw [hx]
    · rename_i x c1 hx
      rw [hx]
      simp only
      split at r1
      · rename_i hy
        rw [hy]
      · simp at r1
  right
  refine ⟨out, ?_, h2, ?_⟩
  · unfold segment at e1
    unfold Conv.run
    split at e1
    · exact absurd e1 (by simp)
    · rename_i x c1 hx
      rw [hx]
      simp only
      split at e1
      · exact absurd e1 (by simp)
      · rename_i y c2 hy
        rw [hy]
        simp at e1 ⊢
        exact e1.1
  · have hfl : (decOf clrD).flushToIter fuel d = (decOf clrD).drain fuel d := rfl
    rw [Conv.run, e3]
    simp only [hfl]
    rw [drain_idle _ (by exact h3)]
    simp

theorem clr_plain (m : Nat) : ClrOK True m Comp.onClear Core.onClear := by
  intro c d ents b h hn hm _ hb _
  right
  refine ⟨_, _, [], rfl, rfl, rfl, rfl, ?_, (by show 258 ≤ c.maxCode; omega), rfl⟩
  refine ⟨rfl, ?_, h.maxLt, ?_, ?_, rfl, Nat.le_refl 9, (by show 258 ≤ 2 ^ 9; decide), Or.inl rfl, rfl, Or.inr (.lit hb),
    rfl, ⟨[], Or.inr (.lit hb), fun x => by simp [Comp.writeClearCode]⟩, (fun x hx => by simp [Comp.writeClearCode] at hx), (fun i p x hi => by simp at hi), Or.inl ⟨rfl, rfl, (by show 258 ≠ 2 ^ 9; decide), (by show 259 ≠ 2 ^ 9; decide)⟩⟩
  · show 258 ≤ c.maxCode + 1; omega
  · intro i p x h; simp at h
  · intro p x k h; simp [findCode, Comp.writeClearCode] at h

/-! ## C10 -/

/-- C10: what the compressor puts out for any bytes, with any limit of the code width from 9 on, are
bytes from which a new decompressor gives the same bytes back. -/
theorem c10_lzw_roundtrip (maxBits fuel : Nat) (input : List Nat) (hm : 9 ≤ maxBits) (hb : ∀ x ∈ input, x < 256)
    (hf : 16 + input.length ≤ fuel) :
    ∃ out, comp.run fuel (Comp.init maxBits) input = some out ∧ (∀ x ∈ out, x < 256) ∧ dec.run fuel {} out = some input :=
  (round_trip (clr_plain _) hm input hb (by omega) (by omega)).resolve_left (fun h => h.1 trivial)

/-- Repeated items: the second item `abab…` uses codes which the decompressor does not know yet. -/
example : comp.run 100 (Comp.init 12) [97, 98, 97, 98, 97, 98, 97] = some [48, 152, 160, 80, 72, 8] ∧
    dec.run 100 {} [48, 152, 160, 80, 72, 8] = some [97, 98, 97, 98, 97, 98, 97] := by decide +kernel

/-- 600 equal bytes with the shortest codes. -/
example : (comp.run 700 (Comp.init 9) (List.replicate 600 7)).isSome = true ∧
    (comp.run 700 (Comp.init 9) (List.replicate 600 7)).bind (dec.run 700 {}) = some (List.replicate 600 7) := by
  decide +kernel

/-- A dictionary which becomes full and is cleared (a limit of 264 instead of 508, so that it happens early). -/
example : (comp.run 100 { maxCode := 264 } ((List.range 20).map (· % 5))).isSome = true ∧
    (comp.run 100 { maxCode := 264 } ((List.range 20).map (· % 5))).bind (dec.run 100 {}) = some ((List.range 20).map (· % 5)) := by
  decide +kernel

/-! ## C11 -/

/-- Segments written one after another, each of them flushed. -/
def segments (fuel : Nat) : Comp → List (List Nat) → Option (List (List Nat))
  | _, [] => some []
  | c, l :: ls =>
    match segment Comp.onClear fuel c l with
    | none => none
    | some (x, c) => (segments fuel c ls).map (x :: ·)

/-- C11, what is missing: one decompressor for the whole stream. What holds: each flushed segment on its
own, given to a new decompressor, is decompressed to what was written, and the decompressor signals
the end of the block. -/
theorem c11_lzw_segments_partial (maxBits fuel : Nat) (hm : 9 ≤ maxBits) (hf : 16 ≤ fuel) :
    ∀ (ls : List (List Nat)), (∀ l ∈ ls, l.length ≤ fuel ∧ ∀ x ∈ l, x < 256) →
      ∃ outs, segments fuel (Comp.init maxBits) ls = some outs ∧
        outs.map (fun x => (dec.writeMany fuel {} x).map (fun r => (r.1, r.2.core.eolb))) = ls.map (fun l => some (l, !l.isEmpty)) := by
  have key : ∀ (ls : List (List Nat)) (c : Comp), Fresh (Comp.init maxBits).maxCode c → (∀ l ∈ ls, l.length ≤ fuel ∧ ∀ x ∈ l, x < 256) →
      ∃ outs, segments fuel c ls = some outs ∧
        outs.map (fun x => (dec.writeMany fuel {} x).map (fun r => (r.1, r.2.core.eolb))) = ls.map (fun l => some (l, !l.isEmpty)) := by
    intro ls
    induction ls with
    | nil => intro c _ _; exact ⟨[], rfl, rfl⟩
    | cons l ls ih =>
      intro c hc h
      obtain ⟨hl, hb⟩ := h l List.mem_cons_self
      obtain ⟨out, c', e1, e2, _, d, e3, _, e5⟩ := (segment_trip (clr_plain _) hc (init_max hm).1 (init_max hm).2 l hb hf hl).resolve_left (fun h => h.1 trivial)
      obtain ⟨outs, g1, g2⟩ := ih c' e2 (fun x hx => h x (List.mem_cons_of_mem _ hx))
      refine ⟨out :: outs, by simp [segments, e1, g1], ?_⟩
      have e3' : dec.writeMany fuel {} out = some (l, d) := e3
      rw [List.map_cons, List.map_cons, g2, e3']
      congr 1
      cases l with
      | nil =>
        have : out = [] := by
          obtain ⟨e, rfl⟩ := hc
          have hz : segment Comp.onClear fuel { maxCode := (Comp.init maxBits).maxCode, eolb := e } [] = some ([], { maxCode := (Comp.init maxBits).maxCode, eolb := true }) := by
            cases fuel <;> rfl
          rw [hz] at e1
          simpa using (Prod.mk.inj (Option.some.inj e1)).1.symm
        subst this
        have hd : d = {} := by simpa [Conv.writeMany] using e3'.symm
        rw [hd]; rfl
      | cons a l => simp [e5 (by simp)]
  intro ls h
  exact key ls _ ⟨false, rfl⟩ h

/-- The property: one decompressor gets everything. -/
def SegmentsOk : Prop :=
  ∀ (maxBits fuel : Nat) (ls : List (List Nat)) (outs : List (List Nat)), 9 ≤ maxBits → (∀ l ∈ ls, ∀ x ∈ l, x < 256) → 16 + ls.flatten.length ≤ fuel →
    segments fuel (Comp.init maxBits) ls = some outs → (dec.writeMany fuel {} outs.flatten).map (·.1) = some ls.flatten

/-- C11: `flush` clears the dictionary of the compressor, the end code does not clear the one of the
decompressor: the code 258 of the second segment `cdcd` stands for `ab`. -/
theorem c11_lzw_segments_violated : ¬ SegmentsOk := by
  intro h
  have h1 := h 12 100 [[97, 98], [99, 100, 99, 100]] [[48, 152, 160, 32], [49, 153, 32, 80, 16]] (by decide) (by decide) (by decide) (by decide +kernel)
  exact absurd h1 (by decide +kernel)

/-- C11, second cause: the end of the first segment fills its last byte, `padzeroes` adds a whole byte
more, the decompressor (which drops its bits at the end code) takes it as the first bits of the
second segment. -/
theorem c11_padding_violated :
    segments 100 (Comp.init 12) [[1, 2, 3, 4, 5, 6, 7], [7]] = some [[0, 128, 128, 96, 64, 40, 24, 15, 1, 0], [3, 192, 64]] ∧
    (dec.writeMany 100 {} [0, 128, 128, 96, 64, 40, 24, 15, 1, 0, 3, 192, 64]).map (·.1) = some [1, 2, 3, 4, 5, 6, 7, 0, 15, 2] := by
  decide +kernel

/-- Segments which do decompress. -/
example : segments 100 (Comp.init 12) [[97, 98], [98]] = some [[48, 152, 160, 32], [49, 64, 64]] ∧
    (dec.writeMany 100 {} [48, 152, 160, 32, 49, 64, 64]).map (·.1) = some [97, 98, 98] := by decide +kernel

end LS.Lzw

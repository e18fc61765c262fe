/-
C158: numbers of several bytes. Model: `Verif/Multibyte.lean`.
-/
import Verif.Multibyte

namespace LS.Multibyte

theorem digits_length (n : Nat) : ∀ v, (digits n v).length = n := by
  induction n with
  | zero => intro v; rfl
  | succ n ih => intro v; simp [digits, ih]

theorem number_digits (n : Nat) : ∀ v, v < 256 ^ n → number (digits n v) = v := by
  induction n with
  | zero => intro v h; simp at h; simp [digits, number, h]
  | succ n ih =>
    intro v h
    simp only [digits, number]
    rw [ih (v / 256) (by rw [Nat.pow_succ] at h; omega)]
    omega

theorem store_length (h : Host) (n v : Nat) : (store h n v).length = n := by
  cases h <;> simp [store, digits_length]

/-- The memory after bytes were put in. -/
theorem feed_mem (h : Host) (md : Mode) (n : Nat) (l : List Nat) : ∀ (s : St), s.mem.length = n → s.pos + l.length ≤ n →
    ∃ s', bFeed h md n l s = some s' ∧ s'.pos = s.pos + l.length ∧ s'.mem.length = n ∧
      ∀ j, j < n → s'.mem[place (swap h md) n j]? =
        if s.pos ≤ j ∧ j < s.pos + l.length then l[j - s.pos]? else s.mem[place (swap h md) n j]? := by
  induction l with
  | nil =>
    intro s hm _
    refine ⟨s, rfl, by simp, hm, ?_⟩
    intro j _
    rw [if_neg (by simp only [List.length_nil]; omega)]
  | cons x l ih =>
    intro s hm hp
    simp only [List.length_cons] at hp
    have hlt : s.pos < n := by omega
    simp only [bFeed, bInput, hlt, if_true, Option.bind_some]
    obtain ⟨s', e, p, ml, g⟩ := ih ⟨s.mem.set (place (swap h md) n s.pos) x, s.pos + 1⟩ (by simpa using hm) (by simp; omega)
    refine ⟨s', e, by simp at p ⊢; omega, ml, ?_⟩
    intro j hj
    rw [g j hj]
    simp only [List.length_cons]
    by_cases c1 : s.pos + 1 ≤ j ∧ j < s.pos + 1 + l.length
    · rw [if_pos c1, if_pos (by omega)]
      have : j - s.pos = (j - (s.pos + 1)) + 1 := by omega
      rw [this, List.getElem?_cons_succ]
    · rw [if_neg c1]
      by_cases c2 : j = s.pos
      · subst c2
        rw [if_pos (by omega)]
        have : place (swap h md) n s.pos < s.mem.length := by
          rw [hm]; unfold place; split <;> omega
        simp [this]
      · rw [if_neg (by omega)]
        have : place (swap h md) n s.pos ≠ place (swap h md) n j := by
          unfold place; split <;> omega
        rw [List.getElem?_set_ne this]

/-- Bytes put in, `n` of them, are the memory, or the memory from its end. -/
theorem feed_all (h : Host) (md : Mode) (n : Nat) (l : List Nat) (s : St) (hm : s.mem.length = n) (hp : s.pos = 0)
    (hl : l.length = n) : bFeed h md n l s = some ⟨if swap h md then l.reverse else l, n⟩ := by
  obtain ⟨s', e, p, ml, g⟩ := feed_mem h md n l s hm (by omega)
  rw [e]
  have hmem : s'.mem = if swap h md then l.reverse else l := by
    apply List.ext_getElem?
    intro i
    by_cases hi : i < n
    · cases sw : swap h md with
      | false =>
        have := g i hi
        rw [if_pos (by omega)] at this
        simpa [sw, place, hp] using this
      | true =>
        have := g (n - i - 1) (by omega)
        rw [if_pos (by omega)] at this
        have e1 : place true n (n - i - 1) = i := by simp only [place, if_true]; omega
        rw [sw, e1] at this
        rw [this]
        simp only [if_true]
        rw [List.getElem?_reverse (by omega)]
        congr 1; omega
    · rw [List.getElem?_eq_none (by omega)]
      cases swap h md <;> simp <;> omega
  cases s'
  simp only at p hmem
  simp [hmem, p, hp, hl]

/-- The bytes taken out. -/
theorem take_some (h : Host) (md : Mode) (n : Nat) (k : Nat) : ∀ (s : St), s.pos + k ≤ n →
    mTake h md n k s = some ((List.range' s.pos k).map (fun j => s.mem.getD (place (swap h md) n j) 0), ⟨s.mem, s.pos + k⟩) := by
  induction k with
  | zero => intro s _; rfl
  | succ k ih =>
    intro s hp
    have hlt : s.pos < n := by omega
    simp only [mTake, mOutput, hlt, if_true, Option.bind_some]
    rw [ih ⟨s.mem, s.pos + 1⟩ (by simp; omega)]
    simp [List.range'_succ]
    omega

theorem take_all (h : Host) (md : Mode) (n : Nat) (m : List Nat) (hm : m.length = n) :
    mTake h md n n ⟨m, 0⟩ = some (if swap h md then m.reverse else m, ⟨m, n⟩) := by
  rw [take_some h md n n ⟨m, 0⟩ (by simp)]
  generalize swap h md = sw
  simp only [Nat.zero_add, Option.some.injEq, Prod.mk.injEq, and_true]
  apply List.ext_getElem
  · cases sw <;> simp [hm]
  · intro i h1 h2
    have hi : i < n := by simpa using h1
    cases sw with
    | false => simp [place, List.getElem?_eq_getElem (show i < m.length by omega)]
    | true =>
      have : n - i - 1 < m.length := by omega
      simp [place, List.getElem?_eq_getElem this, List.getElem_reverse]
      congr 1; omega

/-- Bytes in the order of the least first make the number they are, those of the greatest first the number read from their end,
on every machine and whatever was there before; the order of the machine is as the machine. -/
theorem C158_read (h : Host) (n : Nat) (l : List Nat) (s : St) (hm : s.mem.length = n) (hp : s.pos = 0) (hl : l.length = n) :
    (∀ md, md = Mode.little ∨ (md = .cur ∧ h = .little) →
      ((bFeed h md n l s).bind (bOutput h n)).map (·.1) = some (number l)) ∧
    (∀ md, md = Mode.big ∨ (md = .cur ∧ h = .big) →
      ((bFeed h md n l s).bind (bOutput h n)).map (·.1) = some (number l.reverse)) := by
  constructor <;> intro md hmd <;> rw [feed_all h md n l s hm hp hl] <;>
    cases h <;> cases md <;> simp_all [bOutput, swap, load]

example : ((bFeed .little .big 4 [0, 0, 1, 2] ⟨[9, 9, 9, 9], 0⟩).bind (bOutput .little 4)).map (·.1) = some 258 := by decide

/-- A number is taken out as its bytes, the least or the greatest first, on every machine. Partial:
`input` does not compile as it is and is read as `setValue(x)`. -/
theorem C158_write_partial (h : Host) (n v : Nat) (s : St) (hp : s.pos = n) :
    (∀ md, md = Mode.little ∨ (md = .cur ∧ h = .little) →
      ((mInput h n s v).bind (mTake h md n n)).map (·.1) = some (digits n v)) ∧
    (∀ md, md = Mode.big ∨ (md = .cur ∧ h = .big) →
      ((mInput h n s v).bind (mTake h md n n)).map (·.1) = some (digits n v).reverse) := by
  constructor <;> intro md hmd <;> simp only [mInput, hp, if_true, Option.bind_some] <;>
    rw [take_all h md n _ (store_length h n v)] <;>
    cases h <;> cases md <;> simp_all [swap, store]

example : ((mInput .little 4 ⟨[], 4⟩ 258).bind (mTake .little .big 4 4)).map (·.1) = some [0, 0, 1, 2] := by decide

/-- What one machine writes another one reads. -/
theorem one (h1 h2 : Host) (md : Mode) (n v : Nat) (hv : v < 256 ^ n) (hmd : md ≠ .cur ∨ h1 = h2) :
    load h2 (if swap h2 md then (if swap h1 md then (store h1 n v).reverse else store h1 n v).reverse
      else (if swap h1 md then (store h1 n v).reverse else store h1 n v)) = v := by
  have e := number_digits n v hv
  cases h1 <;> cases h2 <;> cases md <;> simp_all [swap, load, store]

theorem encode_some (h1 : Host) (md : Mode) (n : Nat) (vs : List Nat) : ∀ (s : St), s.pos = n →
    encode h1 md n vs s = some (vs.flatMap fun v => if swap h1 md then (store h1 n v).reverse else store h1 n v) := by
  induction vs with
  | nil => intro s _; rfl
  | cons v vs ih =>
    intro s hp
    simp only [encode, mInput, hp, if_true, Option.bind_some]
    rw [take_all h1 md n _ (store_length h1 n v)]
    simp only [Option.bind_some]
    rw [ih ⟨store h1 n v, n⟩ rfl]
    simp

theorem decode_some (h1 h2 : Host) (md : Mode) (n : Nat) (hmd : md ≠ .cur ∨ h1 = h2) (vs : List Nat)
    (hv : ∀ v ∈ vs, v < 256 ^ n) : ∀ (s : St), s.mem.length = n → s.pos = 0 →
    decode h2 md n vs.length (vs.flatMap fun v => if swap h1 md then (store h1 n v).reverse else store h1 n v) s = some vs := by
  induction vs with
  | nil => intro s _ _; rfl
  | cons v vs ih =>
    intro s hm hp
    have o := one h1 h2 md n v (hv v (by simp)) hmd
    have hl : (if swap h1 md then (store h1 n v).reverse else store h1 n v).length = n := by
      split <;> simp [store_length]
    simp only [List.length_cons, decode, List.flatMap_cons]
    generalize (if swap h1 md then (store h1 n v).reverse else store h1 n v) = b at o hl ⊢
    rw [List.take_left' hl, List.drop_left' hl, feed_all h2 md n b s hm hp hl]
    simp only [Option.bind_some, bOutput, if_true]
    rw [ih (fun w hw => hv w (by simp [hw])) ⟨_, 0⟩ (by simp only []; split <;> simp [hl]) rfl]
    simp [o]

/-- Any numbers written on one machine are read on any machine, when the order is given; with the order of the machine, on
machines of the same order. Partial: as above. -/
theorem C158_roundtrip_partial (h1 h2 : Host) (md : Mode) (n : Nat) (hmd : md ≠ .cur ∨ h1 = h2) (vs : List Nat)
    (hv : ∀ v ∈ vs, v < 256 ^ n) (m1 m2 : List Nat) (hm : m2.length = n) :
    (encode h1 md n vs ⟨m1, n⟩).bind (fun bs => decode h2 md n vs.length bs ⟨m2, 0⟩) = some vs := by
  rw [encode_some h1 md n vs _ rfl]
  exact decode_some h1 h2 md n hmd vs hv _ hm rfl

example : (encode .little .big 2 [258, 65535, 7] ⟨[0, 0], 2⟩) = some [1, 2, 255, 255, 0, 7] := by decide

/-- With the order of the machine other machines read other numbers. -/
theorem C158_cur : (encode .little .cur 2 [258] ⟨[0, 0], 2⟩).bind (fun bs => decode .big .cur 2 1 bs ⟨[0, 0], 0⟩) = some [513] := by
  decide

/-- The filters refuse what comes at the wrong time: a byte when the number is complete, a number before it is complete, a new
number before all bytes were taken, a byte when there is none; and nothing else. -/
theorem C158_refuse (h : Host) (md : Mode) (n : Nat) (s : St) (x : Nat) :
    (bInput h md n s x = none ↔ n ≤ s.pos) ∧ (bOutput h n s = none ↔ s.pos ≠ n) ∧
    (mInput h n s x = none ↔ s.pos ≠ n) ∧ (mOutput h md n s = none ↔ n ≤ s.pos) := by
  refine ⟨?_, ?_, ?_, ?_⟩
  · simp [bInput]
  · simp [bOutput]
  · simp [mInput]
  · simp [mOutput]

/-- After a number was given, the filter begins anew. -/
theorem C158_anew (h : Host) (n : Nat) (s : St) (r : Nat × St) (e : bOutput h n s = some r) :
    r.2.pos = 0 ∧ r.2.mem = s.mem ∧ r.1 = load h s.mem := by
  simp only [bOutput] at e
  split at e
  · simp at e; subst e; simp
  · simp at e

end LS.Multibyte

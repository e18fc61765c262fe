import Verif.LzwpProps
/-!
# LZWp: a text which is not decompressed, for every limit of the code width over nine bits (C110)

The text makes `2^(w-1) - 36` items which are never used again (pairs of bytes, all different) and fills
the rest of the dictionary with a chain of equal bytes, all of them used. The pruning keeps so many
items of the chain that the next code is `2^(w-1)`.
-/

namespace LS.Lzw

/-! ## Steps of the compressor without a clear code -/

/-- The state without the output. -/
def Same (c c' : Comp) : Prop :=
  c'.dict = c.dict ∧ c'.marked = c.marked ∧ c'.next = c.next ∧ c'.cur = c.cur ∧ c'.bits = c.bits ∧ c'.maxCode = c.maxCode

theorem drain_same (clr : Comp → Option Comp) : ∀ (fuel : Nat) (c : Comp) (x : List Nat) (c' : Comp),
    (compOf clr).drain fuel c = some (x, c') → Same c c' := by
  intro fuel
  induction fuel with
  | zero =>
    intro c x c' h
    rw [Conv.drain] at h
    split at h
    · simp at h
    · simp at h
      obtain ⟨_, rfl⟩ := h
      exact ⟨rfl, rfl, rfl, rfl, rfl, rfl⟩
  | succ fuel ih =>
    intro c x c' h
    rw [Conv.drain] at h
    split at h
    · have hg : (compOf clr).getNext c = c.getNext := rfl
      rw [hg] at h
      unfold Comp.getNext at h
      cases ho : c.out.pend with
      | nil => rw [ho] at h; simp at h
      | cons y l =>
        rw [ho] at h
        simp only at h
        split at h
        · simp at h
        · rename_i q hq
          have := ih _ _ _ hq
          simp at h
          obtain ⟨_, rfl⟩ := h
          exact this
    · simp at h
      obtain ⟨_, rfl⟩ := h
      exact ⟨rfl, rfl, rfl, rfl, rfl, rfl⟩

/-- The compressor got `input` and is in the state `c`. -/
def At (fuel m : Nat) (input : List Nat) (c : Comp) : Prop :=
  ∃ bs, (compOf Comp.onClearG).writeMany fuel { maxCode := m } input = some (bs, c) ∧ Inv Core.onClearP m c bs input

theorem at_step {fuel m : Nat} {input : List Nat} {c : Comp} {b : Nat} (h : At fuel m input c) (hf : 16 ≤ fuel) (hb : b < 256)
    (hn : ¬ (c.next = c.maxCode ∧ findCode c.dict c.cur b = none)) : ∃ c2 c', c.write Comp.onClearG b = some c2 ∧ Same c2 c' ∧ At fuel m (input ++ [b]) c' := by
  obtain ⟨bs, h1, h2⟩ := h
  have hidle : (compOf Comp.onClearG).hasItems c = false := by
    obtain ⟨_, _, _, _, _, _, _, hi, _⟩ := h2
    exact hi
  rcases inv_step (clr_guard m) h2 hb hf with ⟨_, h3, _⟩ | ⟨x, c', h3, h4⟩
  · exact absurd h3 hn
  · have h5 := h3
    rw [Conv.writeToIter_idle _ hidle] at h5
    cases hw : (compOf Comp.onClearG).write c b with
    | none => rw [hw] at h5; simp at h5
    | some c2 =>
      rw [hw] at h5
      refine ⟨c2, c', hw, drain_same _ _ _ _ _ h5, bs ++ x, ?_, h4⟩
      exact writeMany_append _ h1 (by simp [Conv.writeMany, h3])

theorem at_found {fuel m : Nat} {input : List Nat} {c : Comp} {b code : Nat} (h : At fuel m input c) (hf : 16 ≤ fuel) (hb : b < 256)
    (hfc : findCode c.dict c.cur b = some code) :
    ∃ c', At fuel m (input ++ [b]) c' ∧ c'.dict = c.dict ∧ c'.marked = code :: c.marked ∧ c'.next = c.next ∧ c'.cur = code ∧ c'.maxCode = c.maxCode := by
  obtain ⟨c2, c', h1, ⟨s1, s2, s3, s4, s5, s6⟩, h2⟩ := at_step h hf hb (fun h => by rw [hfc] at h; simp at h)
  unfold Comp.write at h1
  rw [hfc] at h1
  simp at h1
  subst h1
  exact ⟨c', h2, s1, s2, s3, s4, s6⟩

theorem at_new {fuel m : Nat} {input : List Nat} {c : Comp} {b : Nat} (h : At fuel m input c) (hf : 16 ≤ fuel) (hb : b < 256)
    (hn : c.next ≠ c.maxCode) (hfc : findCode c.dict c.cur b = none) (hc : c.cur ≠ 65535) (hl : c.next < 65535) :
    ∃ c', At fuel m (input ++ [b]) c' ∧ c'.dict = (c.cur, b, c.next) :: c.dict ∧ c'.marked = c.marked ∧ c'.next = c.next + 1 ∧ c'.cur = b ∧ c'.maxCode = c.maxCode := by
  obtain ⟨c2, c', h1, ⟨s1, s2, s3, s4, s5, s6⟩, h2⟩ := at_step h hf hb (fun h => hn h.1)
  unfold Comp.write at h1
  rw [hfc] at h1
  simp only at h1
  rw [if_neg (by exact hc)] at h1
  rw [increaseBits_eq] at h1
  have hn' : ¬ (c.writeCode c.cur).next = (c.writeCode c.cur).maxCode := hn
  rw [if_neg (by exact hn')] at h1
  simp only [Option.some.injEq] at h1
  have hmod : (c.next + 1) % 65536 = c.next + 1 := Nat.mod_eq_of_lt (by omega)
  refine ⟨c', h2, by rw [s1, ← h1]; rfl, by rw [s2, ← h1]; rfl, ?_, by rw [s4, ← h1], by rw [s6, ← h1]; rfl⟩
  rw [s3, ← h1]
  exact hmod

theorem at_first {fuel m : Nat} (hf : 16 ≤ fuel) (hm : 508 ≤ m) (hm' : m < 32767) {b : Nat} (hb : b < 256) :
    ∃ c, At fuel m [b] c ∧ c.dict = [] ∧ c.marked = [] ∧ c.next = 258 ∧ c.cur = b ∧ c.maxCode = m := by
  have h0 : At fuel m [] { maxCode := m } := ⟨[], rfl, inv_init _ ⟨false, rfl⟩ hm hm'⟩
  obtain ⟨c2, c', h1, ⟨s1, s2, s3, s4, s5, s6⟩, h2⟩ := at_step h0 hf hb (fun h => by have : 258 = m := h.1; omega)
  have h1' : ({ maxCode := m } : Comp).write Comp.onClearG b = some { maxCode := m, cur := b, eolb := false } := rfl
  rw [h1'] at h1
  simp only [Option.some.injEq] at h1
  subst h1
  exact ⟨c', h2, s1, s2, s3, s4, s6⟩

/-! ## Search -/

theorem findCode_none_of {l : List (Nat × Nat)} {p x : Nat} (h : (p, x) ∉ l) : findCode (itemsOf 258 l) p x = none := by
  cases hf : findCode (itemsOf 258 l) p x with
  | none => rfl
  | some code =>
    obtain ⟨i, _, h2⟩ := findCode_items l hf
    exact absurd (List.mem_of_getElem? h2) h

theorem findCode_some_of {l : List (Nat × Nat)} {p x i : Nat} (h : l[i]? = some (p, x)) (hu : ∀ j, l[j]? = some (p, x) → j = i) :
    findCode (itemsOf 258 l) p x = some (258 + i) := by
  have key : ∀ (d : List (Nat × Nat × Nat)), (∃ code, (p, x, code) ∈ d) → findCode d p x ≠ none := by
    intro d
    induction d with
    | nil => intro ⟨_, h⟩; simp at h
    | cons a d ih =>
      intro ⟨code, hc⟩
      obtain ⟨q, y, z⟩ := a
      rw [findCode_cons]
      split
      · simp
      · rename_i hne
        rcases List.mem_cons.1 hc with h | h
        · injection h with h1 h2
          injection h2 with h2 h3
          exact absurd ⟨h1.symm, h2.symm⟩ hne
        · exact ih ⟨code, h⟩
  have mem : ∀ (l : List (Nat × Nat)) (n i : Nat), l[i]? = some (p, x) → ∃ code, (p, x, code) ∈ itemsOf n l := by
    intro l
    induction l with
    | nil => intro n i h; simp at h
    | cons a l ih =>
      intro n i h
      obtain ⟨q, y⟩ := a
      rw [itemsOf]
      cases i with
      | zero =>
        simp at h
        obtain ⟨rfl, rfl⟩ := h
        exact ⟨n, by simp⟩
      | succ i =>
        obtain ⟨code, hc⟩ := ih (n + 1) i (by simpa using h)
        exact ⟨code, List.mem_append_left _ hc⟩
  cases hf : findCode (itemsOf 258 l) p x with
  | none => exact absurd hf (key _ (mem l 258 i h))
  | some code =>
    obtain ⟨j, h1, h2⟩ := findCode_items l hf
    rw [h1, hu j h2]

/-! ## Pairs which do not repeat -/

/-- The bytes of the first part: steps of 1, 256 times, then steps of 3, … -/
def walk (t : Nat) : Nat := t % 256 * (2 * (t / 256) + 1) % 256

theorem walk_lt (t : Nat) : walk t < 256 := Nat.mod_lt _ (by decide)

theorem walk_succ (t : Nat) : walk (t + 1) = (walk t + (2 * (t / 256) + 1)) % 256 := by
  unfold walk
  by_cases h : t % 256 = 255
  · have h1 : (t + 1) % 256 = 0 := by omega
    rw [h1, h]
    generalize 2 * (t / 256) + 1 = s
    omega
  · have h1 : (t + 1) % 256 = t % 256 + 1 := by omega
    have h2 : (t + 1) / 256 = t / 256 := by omega
    rw [h1, h2]
    generalize 2 * (t / 256) + 1 = s
    rw [Nat.add_mul, Nat.one_mul, Nat.mod_add_mod]

theorem walk_ne (t : Nat) : walk t ≠ walk (t + 1) := by
  rw [walk_succ]
  have := walk_lt t
  generalize walk t = a at *
  omega

theorem odd_cancel {s r r' : Nat} (hs : s % 2 = 1) (hr : r < 256) (hr' : r' < 256) (h : r * s % 256 = r' * s % 256) : r = r' := by
  have hco : Nat.Coprime 256 s := by
    have : Nat.Coprime (2 ^ 8) s := Nat.Coprime.pow_left 8 (by unfold Nat.Coprime; rw [Nat.gcd_rec, hs]; rfl)
    exact this
  have key : ∀ a b : Nat, a ≤ b → b < 256 → a * s % 256 = b * s % 256 → a = b := by
    intro a b hab hb he
    have hd : 256 ∣ b * s - a * s := Nat.dvd_of_mod_eq_zero (Nat.sub_mod_eq_zero_of_mod_eq he.symm)
    rw [← Nat.sub_mul] at hd
    have := hco.dvd_of_dvd_mul_right hd
    have := Nat.eq_zero_of_dvd_of_lt this (by omega)
    omega
  rcases Nat.le_total r r' with hle | hle
  · exact key r r' hle hr' h
  · exact (key r' r hle hr h.symm).symm

theorem walk_inj {t u : Nat} (ht : t < 32768) (hu : u < 32768) (h1 : walk t = walk u) (h2 : walk (t + 1) = walk (u + 1)) : t = u := by
  rw [walk_succ, walk_succ, h1] at h2
  have hs : t / 256 = u / 256 := by
    have := walk_lt u
    generalize walk u = a at *
    have : t / 256 < 128 := by omega
    have : u / 256 < 128 := by omega
    omega
  unfold walk at h1
  rw [hs] at h1
  have := odd_cancel (by omega) (Nat.mod_lt t (by decide)) (Nat.mod_lt u (by decide)) h1
  omega

/-- The items of the first part. -/
def pairs (n : Nat) : List (Nat × Nat) := (List.range n).map fun i => (walk i, walk (i + 1))

theorem pairs_succ (n : Nat) : pairs (n + 1) = pairs n ++ [(walk n, walk (n + 1))] := by
  simp [pairs, List.range_succ]

theorem pairs_length (n : Nat) : (pairs n).length = n := by simp [pairs]

/-- The first part. -/
def part1 (n : Nat) : List Nat := (List.range (n + 1)).map walk

theorem at_part1 {fuel m : Nat} (hf : 16 ≤ fuel) (hm : 508 ≤ m) (hm' : m < 32767) : ∀ n, 258 + n ≤ m →
    ∃ c, At fuel m (part1 n) c ∧ c.dict = itemsOf 258 (pairs n) ∧ c.marked = [] ∧ c.next = 258 + n ∧ c.cur = walk n ∧ c.maxCode = m := by
  intro n
  induction n with
  | zero =>
    intro _
    obtain ⟨c, h1, h2, h3, h4, h5, h6⟩ := at_first (fuel := fuel) hf hm hm' (walk_lt 0)
    exact ⟨c, h1, h2, h3, h4, h5, h6⟩
  | succ n ih =>
    intro hn
    obtain ⟨c, h1, h2, h3, h4, h5, h6⟩ := ih (by omega)
    have hnf : findCode c.dict c.cur (walk (n + 1)) = none := by
      rw [h2, h5]
      refine findCode_none_of fun hmem => ?_
      obtain ⟨i, hi, he⟩ := List.mem_map.1 hmem
      have hin := List.mem_range.1 hi
      have := walk_inj (t := i) (u := n) (by omega) (by omega) (Prod.mk.inj he).1 (Prod.mk.inj he).2
      omega
    obtain ⟨c', g1, g2, g3, g4, g5, g6⟩ := at_new h1 hf (walk_lt (n + 1)) (by omega) hnf (by rw [h5]; have := walk_lt n; omega) (by omega)
    refine ⟨c', ?_, ?_, by rw [g3, h3], by omega, g5, by omega⟩
    · have : part1 (n + 1) = part1 n ++ [walk (n + 1)] := by simp [part1, List.range_succ]
      rw [this]; exact g1
    · rw [g2, h2, h4, h5, pairs_succ, itemsOf_add, pairs_length]

/-! ## The chain of equal bytes -/

/-- The items of the second part: the code of the previous one and `a`. -/
def chain (n a j : Nat) : List (Nat × Nat) := (List.range j).map fun i => (if i = 0 then a else 257 + n + i, a)

theorem chain_succ (n a j : Nat) : chain n a (j + 1) = chain n a j ++ [(if j = 0 then a else 257 + n + j, a)] := by
  simp [chain, List.range_succ]

theorem chain_length (n a j : Nat) : (chain n a j).length = j := by simp [chain]

theorem pairs_not_same (n a : Nat) : (a, a) ∉ pairs n := by
  intro h
  obtain ⟨i, _, he⟩ := List.mem_map.1 h
  exact walk_ne i ((Prod.mk.inj he).1.trans (Prod.mk.inj he).2.symm)

theorem pairs_fst {n p x : Nat} (h : (p, x) ∈ pairs n) : p < 256 := by
  obtain ⟨i, _, he⟩ := List.mem_map.1 h
  rw [← (Prod.mk.inj he).1]; exact walk_lt i

theorem chain_mem {n a j p x : Nat} (h : (p, x) ∈ chain n a j) : ∃ i, i < j ∧ p = (if i = 0 then a else 257 + n + i) ∧ x = a := by
  obtain ⟨i, hi, he⟩ := List.mem_map.1 h
  exact ⟨i, List.mem_range.1 hi, (Prod.mk.inj he).1.symm, (Prod.mk.inj he).2.symm⟩

/-- The end of the chain cannot be continued. -/
theorem chain_end {n a j x : Nat} (ha : a < 256) (hx : j = 0 → x = a) : (if j = 0 then a else 257 + n + j, x) ∉ pairs n ++ chain n a j := by
  intro h
  by_cases hj : j = 0
  · subst hj
    rw [if_pos rfl, hx rfl] at h
    rcases List.mem_append.1 h with h | h
    · exact pairs_not_same n a h
    · simp [chain] at h
  · rw [if_neg hj] at h
    rcases List.mem_append.1 h with h | h
    · have := pairs_fst h; omega
    · obtain ⟨i, h1, h2, _⟩ := chain_mem h
      split at h2 <;> omega

theorem chain_find {n a j i : Nat} (ha : a < 256) (hi : i < j) :
    findCode (itemsOf 258 (pairs n ++ chain n a j)) (if i = 0 then a else 257 + n + i) a = some (258 + (n + i)) := by
  have hg : (pairs n ++ chain n a j)[n + i]? = some (if i = 0 then a else 257 + n + i, a) := by
    rw [List.getElem?_append_right (by rw [pairs_length]; omega), pairs_length, Nat.add_sub_cancel_left]
    simp [chain, hi]
  refine findCode_some_of hg fun k hk => ?_
  by_cases hkn : k < n
  · exfalso
    rw [List.getElem?_append_left (by rw [pairs_length]; exact hkn)] at hk
    have hmem := List.mem_of_getElem? hk
    by_cases h0 : i = 0
    · rw [if_pos h0] at hmem; exact pairs_not_same n a hmem
    · rw [if_neg h0] at hmem; have := pairs_fst hmem; omega
  · rw [List.getElem?_append_right (by rw [pairs_length]; omega), pairs_length] at hk
    have hl := (List.getElem?_eq_some_iff.1 hk).1
    rw [chain_length] at hl
    simp [chain, hl] at hk
    split at hk <;> split at hk <;> omega

/-- After `j` items of the chain. -/
structure Chain (fuel m n j i : Nat) (input : List Nat) (c : Comp) : Prop where
  at' : At fuel m input c
  dict : c.dict = itemsOf 258 (pairs n ++ chain n (walk n) j)
  next : c.next = 258 + n + j
  max : c.maxCode = m
  cur : c.cur = if i = 0 then walk n else 257 + n + i
  marks : ∀ x, x ∈ c.marked ↔ ∃ k, (k + 1 < j ∨ k < i) ∧ x = 258 + n + k

/-- Up the chain. -/
theorem chain_up {fuel m n j : Nat} (hf : 16 ≤ fuel) : ∀ (i : Nat) (input : List Nat) (c : Comp), i ≤ j →
    Chain fuel m n j 0 input c → ∃ c', Chain fuel m n j i (input ++ List.replicate i (walk n)) c' := by
  intro i
  induction i with
  | zero => intro input c _ h; exact ⟨c, by simpa using h⟩
  | succ i ih =>
    intro input c hi h
    obtain ⟨c1, h1⟩ := ih input c (by omega) h
    have hfc : findCode c1.dict c1.cur (walk n) = some (258 + (n + i)) := by
      rw [h1.dict, h1.cur]; exact chain_find (walk_lt n) (by omega)
    obtain ⟨c', g1, g2, g3, g4, g5, g6⟩ := at_found h1.at' hf (walk_lt n) hfc
    refine ⟨c', ?_, by rw [g2, h1.dict], by rw [g4, h1.next], by rw [g6, h1.max], ?_, ?_⟩
    · rw [List.replicate_succ', ← List.append_assoc]; exact g1
    · rw [g5, if_neg (by omega)]; omega
    · intro x
      rw [g3, List.mem_cons, h1.marks]
      constructor
      · rintro (h | ⟨k, h, h'⟩)
        · exact ⟨i, by omega, by omega⟩
        · exact ⟨k, by omega, h'⟩
      · rintro ⟨k, h, h'⟩
        by_cases hk : k = i
        · left; omega
        · right; exact ⟨k, by omega, h'⟩

/-- One more item of the chain. -/
theorem chain_more {fuel m n j : Nat} (hf : 16 ≤ fuel) (hn : 258 + n + j < m) (hm : m < 32767) {input : List Nat} {c : Comp}
    (h : Chain fuel m n j 0 input c) : ∃ c', Chain fuel m n (j + 1) 0 (input ++ List.replicate (j + 1) (walk n)) c' := by
  obtain ⟨c1, h1⟩ := chain_up hf j input c (by omega) h
  have hnf : findCode c1.dict c1.cur (walk n) = none := by
    rw [h1.dict, h1.cur]; exact findCode_none_of (chain_end (walk_lt n) fun _ => rfl)
  have hw := walk_lt n
  have h1n := h1.next
  obtain ⟨c', g1, g2, g3, g4, g5, g6⟩ := at_new h1.at' hf (walk_lt n) (by rw [h1.next, h1.max]; omega) hnf
    (by rw [h1.cur]; split <;> omega) (by omega)
  refine ⟨c', ?_, ?_, by omega, by rw [g6, h1.max], by rw [g5, if_pos rfl], ?_⟩
  · rw [List.replicate_succ', ← List.append_assoc]; exact g1
  · rw [g2, h1.dict, h1.cur, h1.next, chain_succ, ← List.append_assoc, itemsOf_add, List.length_append, pairs_length, chain_length, Nat.add_assoc 258 n j]
  · intro x
    rw [g3, h1.marks]
    constructor
    · rintro ⟨k, h, h'⟩; exact ⟨k, by omega, h'⟩
    · rintro ⟨k, h, h'⟩; exact ⟨k, by omega, h'⟩

/-- The second part. -/
def part2 (a : Nat) : Nat → List Nat
  | 0 => []
  | j + 1 => part2 a j ++ List.replicate (j + 1) a

theorem at_part2 {fuel m n : Nat} (hf : 16 ≤ fuel) (hm : 508 ≤ m) (hm' : m < 32767) : ∀ j, 258 + n + j ≤ m →
    ∃ c, Chain fuel m n j 0 (part1 n ++ part2 (walk n) j) c := by
  intro j
  induction j with
  | zero =>
    intro hn
    obtain ⟨c, h1, h2, h3, h4, h5, h6⟩ := at_part1 (fuel := fuel) hf hm hm' n (by omega)
    refine ⟨c, by simpa [part2] using h1, by simpa [chain] using h2, h4, h6, by rw [h5, if_pos rfl], ?_⟩
    intro x
    rw [h3]
    constructor
    · intro h; simp at h
    · rintro ⟨k, h, _⟩; omega
  | succ j ih =>
    intro hn
    obtain ⟨c, h⟩ := ih (by omega)
    obtain ⟨c', h'⟩ := chain_more hf (by omega) hm' h
    exact ⟨c', by rw [part2, ← List.append_assoc]; exact h'⟩

/-! ## The clear code -/

/-- The byte after which the dictionary is full: the state in front of the clear code. -/
theorem before_clear {clrD : Core → Option Core} {m : Nat} {c : Comp} {bs input : List Nat} {b : Nat} (h : Inv clrD m c bs input) (hb : b < 256)
    (hfc : findCode c.dict c.cur b = none) (hc : c.cur ≠ 65535) (hmax : c.next = c.maxCode) :
    ∃ c3 cs d' ents, (∀ clrC, c.write clrC b = match clrC c3 with | none => none | some c4 => some { c4 with cur := b }) ∧
      Outs c3.out bs cs ∧ c3.out.pend.length ≤ 2 ∧ runCodes clrD {} cs = some (d', input) ∧ Sync { c3 with cur := b } d' ents [b] ∧
      d'.prev ≠ 65535 ∧ c3.marked = c.marked ∧ c3.next = c3.maxCode + 1 ∧ c3.maxCode = m := by
  obtain ⟨cs, d, o, ents, s, ho, hp, hi, hr, hs, hn, hm, hin, hnu, hmx⟩ := h
  have h1 := hs.next
  have h3 := hs.maxLt
  have h9 := hs.bits9
  have hcs : Str ents c.cur s := by
    rcases hs.cur with h | h
    · exact absurd h.1 hc
    · exact h
  have hbd := hcs.bound
  have hb15 := bits_le hs
  have hcl : c.cur < 2 ^ c.bits := by have := hs.fits; omega
  obtain ⟨d', k1, k2, k3, k4, k5, k6⟩ := emit (clr := clrD) hs hcs
  obtain ⟨w1, w2, w3, w4⟩ := outs_write ho hb15 h9 hcl (by rw [hp]; simp)
  rw [hp] at w2
  simp at w2
  have hcb := hs.bits
  have hrun : runCodes clrD d [(c.cur, c.bits)] = some (d', s) := by
    rw [hcb]; exact run_one (by omega) (by omega) (by rw [← hcb]; exact hcl) (by omega) k1 k4
  have hrun' := runCodes_append clrD hr hrun
  generalize hc3 : ({ c.writeCode c.cur with next := ((c.writeCode c.cur).next + 1) % 65536, dict := ((c.writeCode c.cur).cur, b, (c.writeCode c.cur).next) :: (c.writeCode c.cur).dict } : Comp).increaseBits (c.writeCode c.cur).next = c3
  have q1 : c3.out = (c.writeCode c.cur).out := by rw [← hc3, Comp.increaseBits]; split <;> rfl
  have q3 : c3.next = c.next + 1 := by
    have : (c.next + 1) % 65536 = c.next + 1 := Nat.mod_eq_of_lt (by omega)
    rw [← hc3, Comp.increaseBits]; split <;> exact this
  have q4 : c3.dict = (c.cur, b, c.next) :: c.dict := by rw [← hc3, Comp.increaseBits]; split <;> rfl
  have q5 : c3.maxCode = c.maxCode := by rw [← hc3, Comp.increaseBits]; split <;> rfl
  have q6 : c3.bits = if c.next = 2 ^ c.bits then c.bits + 1 else c.bits := by
    rw [← hc3, increaseBits_eq]; rfl
  have q8 : c3.marked = c.marked := by rw [← hc3, Comp.increaseBits]; split <;> rfl
  have hsync := sync_added (c' := { c3 with cur := b }) hs hn hcs hb k2 k3 k4 k5 q4 q3 q5 q6 rfl q8 k6
  refine ⟨c3, _, d', _, ?_, by rw [q1]; exact w1, by rw [q1]; omega, by rw [hin]; exact hrun', hsync, by omega, q8, by omega, by omega⟩
  intro clrC
  unfold Comp.write
  rw [hfc]
  simp only
  rw [if_neg (by exact hc), hc3]
  have q7 : (c.writeCode c.cur).next = c.next := rfl
  rw [if_pos (by rw [q7, q5]; exact hmax)]
  cases clrC c3 <;> rfl

theorem sel_count (mk : List Nat) (stop lo : Nat) (l : List (Nat × Nat)) (hlo : lo ≤ stop) : ∀ n,
    (∀ x, n ≤ x → x < stop → (x ∈ mk ↔ lo ≤ x)) → stop ≤ n + l.length → n ≤ stop → (sel mk stop n l).length = stop - (if n ≤ lo then lo else n) := by
  induction l with
  | nil => intro n _ h h'; simp at h; simp [sel]; split <;> omega
  | cons a l ih =>
    intro n hmk h h'
    obtain ⟨p, b⟩ := a
    by_cases hs : n = stop
    · subst hs
      rw [sel_stop _ _ _ _ (Nat.le_refl _)]
      simp; split <;> omega
    have ih' := ih (n + 1) (fun x hx hx' => hmk x (by omega) hx') (by simp at h; omega) (by omega)
    have hn := hmk n (Nat.le_refl _) (by omega)
    rw [sel]
    by_cases hl : lo ≤ n
    · rw [if_pos ⟨hn.2 hl, by omega⟩, List.length_cons, ih', if_neg (by omega)]
      split <;> omega
    · rw [if_neg (fun h => hl (hn.1 h.1)), ih']
      rw [if_pos (show n + 1 ≤ lo by omega), if_pos (show n ≤ lo by omega)]

/-- What `flush` puts out. -/
theorem flush_outs (clrC : Comp → Option Comp) {c : Comp} {bs : List Nat} {cs : List (Nat × Nat)} {fuel : Nat} (ho : Outs c.out bs cs) (hp : c.out.pend = [])
    (hcur : c.cur ≠ 65535) (h9 : 9 ≤ c.bits) (hb15 : c.bits ≤ 14) (hcl : c.cur < 2 ^ c.bits) (hf : 16 ≤ fuel) :
    ∃ x c' pad, (compOf clrC).flushToIter fuel c = some (x, c') ∧ (∀ y ∈ bs ++ x, y < 256) ∧
      bytesBits (bs ++ x) = codesBits (cs ++ [(c.cur, c.bits)]) ++ (bitsN (if c.next = 2 ^ c.bits then c.bits + 1 else c.bits) 257 ++ pad) := by
  have hfl : (compOf clrC).flushToIter fuel c = (compOf clrC).drain fuel c.flush := rfl
  rw [hfl, flush_some hcur]
  obtain ⟨w1, w2, w3, w4⟩ := outs_write ho (by omega) h9 hcl (by rw [hp]; simp)
  rw [hp] at w2
  simp at w2
  generalize hc3 : lastCode c = c3
  unfold lastCode at hc3
  have q1 : c3.out = (c.writeCode c.cur).out := by rw [← hc3, Comp.increaseBits]; split <;> rfl
  have q6 : c3.bits = if c.next = 2 ^ c.bits then c.bits + 1 else c.bits := by
    rw [← hc3, increaseBits_eq]; rfl
  have h15 : c3.bits ≤ 15 := by rw [q6]; split <;> omega
  have h99 : 9 ≤ c3.bits := by rw [q6]; split <;> omega
  have hp9 : 2 ^ 9 ≤ 2 ^ c3.bits := Nat.pow_le_pow_right (by omega) h99
  obtain ⟨v1, v2, v3, v4⟩ := outs_write (c := c3) (code := 257) (by rw [q1]; exact w1) h15 h99 (by omega) (by rw [q1]; omega)
  rw [q1] at v2
  have hE : (c3.writeClearCode endData).out = (c3.writeCode 257).out := rfl
  obtain ⟨q, hq, he, hx⟩ := v1
  have hpad : ((c3.writeClearCode endData).out.padzeroes).pend = (c3.writeCode 257).out.pend ++ [(c3.writeCode 257).out.accum] := by
    rw [hE]; exact push_eq (by omega)
  have hacc : (c3.writeCode 257).out.accum = val (q ++ List.replicate (c3.writeCode 257).out.wrbits false) := by
    have hz : ∀ n, val (List.replicate n false) = 0 := by
      intro n
      induction n with
      | zero => rfl
      | succ n ih => simp [List.replicate_succ, val, ih]
    rw [val_append, List.length_replicate, hz, hq.acc]; rfl
  have hql : (q ++ List.replicate (c3.writeCode 257).out.wrbits false).length = 8 := by simp [hq.len]
  have hbb : bitsN 8 (c3.writeCode 257).out.accum = q ++ List.replicate (c3.writeCode 257).out.wrbits false := by
    rw [hacc, ← hql]; exact bitsN_val _
  have ha256 : (c3.writeCode 257).out.accum < 256 := by
    rw [hacc]
    have := val_lt (q ++ List.replicate (c3.writeCode 257).out.wrbits false)
    rw [hql] at this; exact this
  have hdr := comp_drain clrC fuel { c3.writeClearCode endData with out := (c3.writeClearCode endData).out.padzeroes, cur := nullChainCode, eolb := true }
    v3 (by show ((c3.writeClearCode endData).out.padzeroes).pend ≠ []; rw [hpad]; simp)
    (by show ((c3.writeClearCode endData).out.padzeroes).pend.length ≤ fuel; rw [hpad]; simp; omega)
  refine ⟨_, _, List.replicate (c3.writeCode 257).out.wrbits false, hdr, ?_, ?_⟩
  · show ∀ y ∈ bs ++ ((c3.writeClearCode endData).out.padzeroes).pend, y < 256
    rw [hpad, ← List.append_assoc]
    intro y hy
    rcases List.mem_append.1 hy with h | h
    · exact hx y h
    · simp at h; rw [h]; exact ha256
  · show bytesBits (bs ++ ((c3.writeClearCode endData).out.padzeroes).pend) = _
    rw [hpad, ← List.append_assoc, bytesBits_append, show bytesBits [(c3.writeCode 257).out.accum] = bitsN 8 (c3.writeCode 257).out.accum by simp [bytesBits],
      hbb, ← List.append_assoc, he, codesBits_append, show codesBits [(257, c3.bits)] = bitsN c3.bits 257 by simp [codesBits], List.append_assoc, q6]

/-! ## The text -/

/-- The text for codes of `w` bits. -/
def badText (w : Nat) : List Nat :=
  part1 (2 ^ (w - 1) - 36) ++ part2 (walk (2 ^ (w - 1) - 36)) (2 ^ (w - 1) - 226) ++ List.replicate (2 ^ (w - 1) - 226) (walk (2 ^ (w - 1) - 36)) ++ [1]

theorem badText_bytes (w : Nat) : ∀ x ∈ badText w, x < 256 := by
  have hp2 : ∀ a j, a < 256 → ∀ x ∈ part2 a j, x < 256 := by
    intro a j ha
    induction j with
    | zero => intro x h; simp [part2] at h
    | succ j ih =>
      intro x h
      rw [part2] at h
      rcases List.mem_append.1 h with h | h
      · exact ih x h
      · rw [(List.mem_replicate.1 h).2]; exact ha
  intro x h
  unfold badText at h
  rcases List.mem_append.1 h with h | h
  · rcases List.mem_append.1 h with h | h
    · rcases List.mem_append.1 h with h | h
      · obtain ⟨i, _, rfl⟩ := List.mem_map.1 h; exact walk_lt i
      · exact hp2 _ _ (walk_lt _) x h
    · rw [(List.mem_replicate.1 h).2]; exact walk_lt _
  · simp at h; omega

theorem swap_bits {w : Nat} (h1 : 10 ≤ w) (h2 : w ≤ 15) : bitsN (w - 1) 1 ++ bitsN w 257 = bitsN w 2 ++ bitsN (w - 1) 257 := by
  have : w = 10 ∨ w = 11 ∨ w = 12 ∨ w = 13 ∨ w = 14 ∨ w = 15 := by omega
  rcases this with rfl | rfl | rfl | rfl | rfl | rfl <;> decide

theorem bad_text {w fuel : Nat} (h1 : 10 ≤ w) (h2 : w ≤ 15) (hf : 16 + (badText w).length ≤ fuel) {out : List Nat}
    (hout : compP.run fuel { maxCode := 2 ^ w - 4 } (badText w) = some out) : decP.run fuel {} out ≠ some (badText w) := by
  have hpw : 2 ^ w = 2 * 2 ^ (w - 1) := by
    have : w = (w - 1) + 1 := by omega
    rw [this, Nat.pow_succ]; simp; omega
  have hlo : 2 ^ 9 ≤ 2 ^ (w - 1) := Nat.pow_le_pow_right (by omega) (by omega)
  have hhi : 2 ^ (w - 1) ≤ 2 ^ 14 := Nat.pow_le_pow_right (by omega) (by omega)
  unfold badText at hf hout ⊢
  generalize hh : 2 ^ (w - 1) = H at *
  generalize hm : 2 ^ w - 4 = m at *
  generalize hn : H - 36 = n at *
  generalize hj : H - 226 = j at *
  have hf16 : 16 ≤ fuel := by omega
  obtain ⟨c1, k1⟩ := at_part2 (fuel := fuel) (n := n) hf16 (show 508 ≤ m by omega) (by omega) j (by omega)
  obtain ⟨c2, k2⟩ := chain_up hf16 j _ c1 (Nat.le_refl _) k1
  generalize hin : part1 n ++ part2 (walk n) j ++ List.replicate j (walk n) = input at *
  have hw := walk_lt n
  have hfc : findCode c2.dict c2.cur 1 = none := by
    rw [k2.dict, k2.cur]; exact findCode_none_of (chain_end hw (fun h => by omega))
  obtain ⟨bs, hmany, hinv⟩ := k2.at'
  have hmany' := guard_many _ _ _ hmany
  have hidle : (compOf Comp.onClearP).hasItems c2 = false := by
    obtain ⟨_, _, _, _, _, _, _, hi, _⟩ := hinv
    exact hi
  have hcur2 : c2.cur ≠ 65535 := by rw [k2.cur]; split <;> omega
  obtain ⟨c3, cs, d', ents, e1, e2, e3, e4, e5, e6, e7, e8, e9⟩ := before_clear (b := 1) hinv (by omega) hfc hcur2 (by rw [k2.next, k2.max]; omega)
  obtain ⟨T, cb, db, r1, r2, r3, r4, r5, r6, r7⟩ := clear_both e5 e8 (by omega) (by omega) e6
  have hel : c3.next = 258 + ents.length := e5.next
  -- the number of items kept
  have hT : 258 + T.length = H := by
    rw [sel_count c3.marked (c3.next - 33) (258 + n) ents (by omega) 258 ?_ (by omega) (by omega)] at r7
    · rw [if_pos (by omega)] at r7; omega
    · intro x hx1 hx2
      rw [e7, k2.marks]
      constructor
      · rintro ⟨k, _, h⟩; omega
      · intro h; exact ⟨x - 258 - n, by omega, by omega⟩
  rw [hT] at r1 r4 r5
  have hcb : cb = w - 1 := by
    obtain ⟨w1, w2, w3⟩ := r4
    have a1 : w - 1 ≤ cb := by
      false_or_by_contra
      have : 2 ^ cb < 2 ^ (w - 1) := Nat.pow_lt_pow_right (by omega) (by omega)
      omega
    rcases w3 with h | h
    · omega
    · false_or_by_contra
      have : 2 ^ (w - 1) ≤ 2 ^ (cb - 1) := Nat.pow_le_pow_right (by omega) (by omega)
      omega
  have hdb : db = w := by
    obtain ⟨w1, w2, w3⟩ := r5
    have a1 : w ≤ db := by
      false_or_by_contra
      have : 2 ^ db ≤ 2 ^ (w - 1) := Nat.pow_le_pow_right (by omega) (by omega)
      omega
    rcases w3 with h | h
    · omega
    · false_or_by_contra
      have : 2 ^ w ≤ 2 ^ (db - 1) := Nat.pow_le_pow_right (by omega) (by omega)
      omega
  subst hcb hdb
  have hbits3 : c3.bits = d'.bits := e5.bits
  have h9 : 9 ≤ c3.bits := e5.bits9
  have h15 : c3.bits ≤ 15 := by have := bits_le e5; exact this
  have hp9 : 2 ^ 9 ≤ 2 ^ c3.bits := Nat.pow_le_pow_right (by omega) h9
  obtain ⟨v1, v2, v3, v4⟩ := outs_write (c := c3) (code := 256) e2 h15 h9 (by omega) (by omega)
  -- the last byte
  generalize hc4 : ({ c3.writeCode 256 with next := H, bits := db - 1, dict := itemsOf 258 T, marked := [] } : Comp) = c4 at r1
  have o4 : c4.out = (c3.writeCode 256).out := by rw [← hc4]
  have i4 : c4.hasItems = true := by rw [← hc4]; exact v3
  have b4 : c4.bits = db - 1 := by rw [← hc4]
  have n4 : c4.next = H := by rw [← hc4]
  have hwr : (compOf Comp.onClearP).write c2 1 = some { c4 with cur := 1 } := by
    have := e1 Comp.onClearP
    rw [r1] at this
    exact this
  have hdr := comp_drain Comp.onClearP fuel { c4 with cur := 1 } i4 (by show c4.out.pend ≠ []; rw [o4]; exact v4) (by show c4.out.pend.length ≤ fuel; rw [o4]; omega)
  generalize hc5 : ({ ({ c4 with cur := 1 } : Comp) with out := { c4.out with pend := [] }, hasItems := false } : Comp) = c5 at hdr
  have hstep : (compOf Comp.onClearP).writeToIter fuel c2 1 = some (c4.out.pend, c5) := by
    rw [Conv.writeToIter_idle _ hidle, hwr]; exact hdr
  have hmany2 := writeMany_append (compOf Comp.onClearP) (l' := [1]) hmany' (show _ = some (c4.out.pend, c5) by simp [Conv.writeMany, hstep])
  -- flush
  have ho5 : Outs c5.out (bs ++ c4.out.pend) (cs ++ [(256, c3.bits)]) := by
    obtain ⟨q, hq, he, hx⟩ := v1
    rw [← o4] at hq he hx
    rw [← hc5]
    exact ⟨q, ⟨hq.len, hq.pos, hq.acc⟩, by simpa using he, by simpa using hx⟩
  have b5 : c5.bits = db - 1 := by rw [← hc5]; exact b4
  have n5 : c5.next = H := by rw [← hc5]; exact n4
  have u5 : c5.cur = 1 := by rw [← hc5]
  have hp1 : 1 < 2 ^ c5.bits := by rw [b5, hh]; omega
  obtain ⟨x, c6, pad, f1, f2, f3⟩ := flush_outs Comp.onClearP (fuel := fuel) ho5 (by rw [← hc5]) (by rw [u5]; decide) (by omega) (by omega) (by rw [u5]; exact hp1) hf16
  have hout' : out = bs ++ c4.out.pend ++ x := by
    have hm2 : compP.writeMany fuel { maxCode := m } (input ++ [1]) = some (bs ++ c4.out.pend, c5) := hmany2
    have hf1 : compP.flushToIter fuel c5 = some (x, c6) := f1
    rw [Conv.run, hm2] at hout
    simp only [hf1] at hout
    exact (Option.some.inj hout).symm
  -- the decompressor
  have hcb2 : codesBits (cs ++ [(256, c3.bits)] ++ [(1, db - 1)]) = codesBits (cs ++ [(256, c3.bits)]) ++ bitsN (db - 1) 1 := by
    rw [codesBits_append]; simp [codesBits]
  rw [if_pos (by rw [n5, b5, hh]), u5, b5, show db - 1 + 1 = db by omega, hcb2, List.append_assoc (codesBits _), ← List.append_assoc (bitsN (db - 1) 1),
    swap_bits h1 h2, ← List.append_assoc, ← List.append_assoc] at f3
  have f3' : bytesBits (bs ++ c4.out.pend ++ x) = codesBits (cs ++ [(256, c3.bits)] ++ [(2, db)]) ++ (bitsN (db - 1) 257 ++ pad) := by
    rw [f3, codesBits_append (cs ++ [(256, c3.bits)]), show codesBits [(2, db)] = bitsN db 2 by simp [codesBits]]
    simp
  have hrun2 : runCodes Core.onClearP d' [(256, c3.bits)] = some ({ d' with dict := T, bits := db, marked := [], hasItems := false, prev := 65535 }, []) := by
    rw [hbits3]
    refine run_one (by omega) (by omega) (by rw [← hbits3]; omega) (by omega) ?_ rfl
    unfold stepCode
    rw [if_pos (by rfl), r2]; rfl
  have hrun3 : ∃ d3, runCodes Core.onClearP { d' with dict := T, bits := db, marked := [], hasItems := false, prev := 65535 } [(2, db)] = some (d3, [2]) ∧ d3.hasItems = false := by
    refine ⟨_, run_one (d := { d' with dict := T, bits := db, marked := [], hasItems := false, prev := 65535 }) (show 9 ≤ db by omega) (by decide)
      (show 2 < 2 ^ db by omega) (by decide) (by unfold stepCode; rw [if_neg (by decide)]; unfold Core.onCode; rw [if_pos (by decide)]; rfl) rfl, rfl⟩
  obtain ⟨d3, hrun3, _⟩ := hrun3
  have hrun4 := runCodes_append _ (runCodes_append _ e4 hrun2) hrun3
  rw [List.append_nil] at hrun4
  obtain ⟨bs1, bs2, p', d1, z1, z2, z3, z4, z5, z6, z7⟩ := feed_codes Core.onClearP (fuel := fuel) _ (bs ++ c4.out.pend ++ x) {} [] _ d3 (input ++ [2])
    ⟨rfl, rfl⟩ rfl (by simp) f2 (by rw [List.nil_append]; exact f3') hrun4 (by simp at hf ⊢; omega)
  intro hdec
  rw [hout', z1] at hdec
  have z2' : decP.writeMany fuel {} bs1 = some (input ++ [2], d1) := z2
  rw [Conv.run, Conv.writeMany_append, z2'] at hdec
  simp only at hdec
  cases hm2 : decP.writeMany fuel d1 bs2 with
  | none => rw [hm2] at hdec; simp at hdec
  | some q =>
    obtain ⟨o2, d2⟩ := q
    rw [hm2] at hdec
    simp only at hdec
    cases hfl : decP.flushToIter fuel d2 with
    | none => rw [hfl] at hdec; simp at hdec
    | some q2 =>
      obtain ⟨o3, d4⟩ := q2
      rw [hfl] at hdec
      simp only [Option.some.injEq, List.append_assoc] at hdec
      have := List.append_cancel_left hdec
      simp at this

/-! ## C110 -/

/-- C110: for every limit of the code width over nine bits (12 is the default) there is a text which is not
decompressed: the pruning leaves the next code at `2^(w-1)`, the compressor goes on with codes of `w-1` bits, the
decompressor with `w` bits. -/
theorem C110_violated (maxBits : Nat) (h : 10 ≤ maxBits) : ¬ TripP maxBits := by
  intro ht
  obtain ⟨w, h1, h2, hw⟩ : ∃ w, 10 ≤ w ∧ w ≤ 15 ∧ Comp.init maxBits = { maxCode := 2 ^ w - 4 } := by
    by_cases h15 : maxBits > 15
    · exact ⟨15, by omega, by omega, by unfold Comp.init; rw [if_pos h15]⟩
    · have : maxBits = 10 ∨ maxBits = 11 ∨ maxBits = 12 ∨ maxBits = 13 ∨ maxBits = 14 ∨ maxBits = 15 := by omega
      refine ⟨maxBits, h, by omega, ?_⟩
      rcases this with rfl | rfl | rfl | rfl | rfl | rfl <;> rfl
  obtain ⟨out, g1, _, g3⟩ := ht (16 + (badText w).length) (badText w) (badText_bytes w) (Nat.le_refl _)
  rw [hw] at g1
  exact bad_text h1 h2 (Nat.le_refl _) g1 g3

/-- How the texts begin and end. -/
example : walk 0 = 0 ∧ walk 255 = 255 ∧ walk 256 = 0 ∧ walk 257 = 3 ∧ part2 7 3 = [7, 7, 7, 7, 7, 7] := by decide

end LS.Lzw

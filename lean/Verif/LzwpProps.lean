import Verif.Lzwp
import Verif.LzwProps
/-!
# LZWp: round trip (C110)
-/

namespace LS.Lzw

/-! ## The items kept -/

/-- The items kept, with their codes, the oldest first. -/
def sel (marked : List Nat) (stop : Nat) : Nat → List (Nat × Nat) → List (Nat × Nat × Nat)
  | _, [] => []
  | n, (p, b) :: l => if n ∈ marked ∧ n < stop then (n, p, b) :: sel marked stop (n + 1) l else sel marked stop (n + 1) l

theorem sel_add (mk : List Nat) (stop : Nat) (l : List (Nat × Nat)) : ∀ n p b,
    sel mk stop n (l ++ [(p, b)]) = sel mk stop n l ++ if n + l.length ∈ mk ∧ n + l.length < stop then [(n + l.length, p, b)] else [] := by
  induction l with
  | nil => intro n p b; simp [sel]
  | cons a l ih =>
    intro n p b
    obtain ⟨x, y⟩ := a
    rw [List.cons_append, sel, ih, sel]
    rw [show n + 1 + l.length = n + ((x, y) :: l).length by simp; omega]
    split <;> simp

theorem sel_lt (mk : List Nat) (stop : Nat) (l : List (Nat × Nat)) : ∀ n x, x ∈ sel mk stop n l → x.1 < n + l.length := by
  induction l with
  | nil => intro n x h; simp [sel] at h
  | cons a l ih =>
    intro n x h
    obtain ⟨p, b⟩ := a
    rw [sel] at h
    have hl : ((p, b) :: l).length = l.length + 1 := rfl
    split at h
    · rcases List.mem_cons.1 h with h | h
      · rw [h, hl]; show n < _; omega
      · have := ih _ _ h; omega
    · have := ih _ _ h; omega

theorem sel_stop (mk : List Nat) (stop : Nat) (l : List (Nat × Nat)) : ∀ n, stop ≤ n → sel mk stop n l = [] := by
  induction l with
  | nil => intro n _; rfl
  | cons a l ih =>
    intro n h
    obtain ⟨p, b⟩ := a
    rw [sel, if_neg (fun h' => by omega)]
    exact ih _ (by omega)

theorem mapInsert_last (k : Nat) (v : Nat × Nat) (l : List (Nat × Nat × Nat)) (h : ∀ x ∈ l, x.1 < k) : mapInsert k v l = l ++ [(k, v)] := by
  induction l with
  | nil => rfl
  | cons a l ih =>
    obtain ⟨k', v'⟩ := a
    have : k' < k := h (k', v') List.mem_cons_self
    rw [mapInsert, if_neg (by omega), if_neg (by omega), ih (fun x hx => h x (List.mem_cons_of_mem _ hx))]
    rfl

theorem revMap_sel (mk : List Nat) (stop n : Nat) : ∀ r : List (Nat × Nat), revMap mk stop (itemsOf n r.reverse) = sel mk stop n r.reverse := by
  intro r
  induction r with
  | nil => rfl
  | cons a r ih =>
    obtain ⟨p, b⟩ := a
    rw [List.reverse_cons, itemsOf_add, sel_add, revMap, ih]
    split
    · rw [mapInsert_last _ _ _ (fun x hx => sel_lt mk stop _ _ _ hx)]
    · simp

/-- What is known about the width of codes after the items `258 … n-1`: on the side of the compressor… -/
def WidthC (bits n : Nat) : Prop := 9 ≤ bits ∧ n ≤ 2 ^ bits ∧ (bits = 9 ∨ 2 ^ (bits - 1) < n)
/-- … and of the decompressor. -/
def WidthD (bits n : Nat) : Prop := 9 ≤ bits ∧ n < 2 ^ bits ∧ (bits = 9 ∨ 2 ^ (bits - 1) ≤ n)

theorem width_eq {cb db n : Nat} (hc : WidthC cb n) (hd : WidthD db n) (hn : n ≠ 2 ^ cb) : cb = db := by
  obtain ⟨h1, h2, h3⟩ := hc
  obtain ⟨g1, g2, g3⟩ := hd
  have a1 : db ≤ cb := by
    rcases g3 with g | g
    · omega
    · false_or_by_contra
      have : 2 ^ cb ≤ 2 ^ (db - 1) := Nat.pow_le_pow_right (by omega) (by omega)
      omega
  have a2 : cb ≤ db := by
    rcases h3 with g | g
    · omega
    · false_or_by_contra
      have : 2 ^ db ≤ 2 ^ (cb - 1) := Nat.pow_le_pow_right (by omega) (by omega)
      omega
  omega

theorem widthC_step {bits n : Nat} (h : WidthC bits n) : WidthC (if n = 2 ^ bits then bits + 1 else bits) (n + 1) := by
  obtain ⟨h1, h2, h3⟩ := h
  have hpow : 2 ^ (bits + 1) = 2 * 2 ^ bits := by rw [Nat.pow_succ]; omega
  have hpos : 2 ^ 9 ≤ 2 ^ bits := Nat.pow_le_pow_right (by omega) h1
  by_cases hh : n = 2 ^ bits
  · rw [if_pos hh]
    refine ⟨by omega, by omega, Or.inr ?_⟩
    simp; omega
  · rw [if_neg hh]
    refine ⟨h1, by omega, ?_⟩
    rcases h3 with h | h
    · exact Or.inl h
    · exact Or.inr (by omega)

theorem widthD_step {bits n : Nat} (h : WidthD bits n) : WidthD (if n + 1 = 2 ^ bits then bits + 1 else bits) (n + 1) := by
  obtain ⟨h1, h2, h3⟩ := h
  have hpow : 2 ^ (bits + 1) = 2 * 2 ^ bits := by rw [Nat.pow_succ]; omega
  have hpos : 2 ^ 9 ≤ 2 ^ bits := Nat.pow_le_pow_right (by omega) h1
  by_cases hh : n + 1 = 2 ^ bits
  · rw [if_pos hh]
    refine ⟨by omega, by omega, Or.inr ?_⟩
    simp; omega
  · rw [if_neg hh]
    refine ⟨h1, by omega, ?_⟩
    rcases h3 with h | h
    · exact Or.inl h
    · exact Or.inr (by omega)

theorem increaseBits_eq (c : Comp) (n : Nat) : c.increaseBits n = { c with bits := if n = 2 ^ c.bits then c.bits + 1 else c.bits } := by
  unfold Comp.increaseBits
  split <;> rfl

/-- The two loops give the same items new codes. -/
theorem renumber_both {mC mD : List Nat} (hmk : ∀ x, x ∈ mC ↔ x ∈ mD) (stop : Nat) : ∀ (l : List (Nat × Nat)) (n j : Nat) (c : Comp) (cm ot nt : List (Nat × Nat)) (db : Nat),
    258 ≤ n → n + j = stop →
    (∀ k p b, l[k]? = some (p, b) → p < n + k ∧ (n + k ∈ mC → 258 ≤ p → p ∈ mC)) →
    (∀ x, 258 ≤ x → x < n → x ∈ mC → ∃ v, lookup x cm = some v ∧ lookup (x - 258) ot = some v ∧ v < c.next) →
    c.dict = itemsOf 258 nt → c.next = 258 + nt.length → Older nt → WidthC c.bits c.next → WidthD db c.next →
    ∃ T cb db', Comp.renumber c cm (sel mC stop n l) = some { c with next := 258 + T.length, bits := cb, dict := itemsOf 258 T } ∧
      renumberD mD (n - 258) c.next db ot nt (l.take j) = some (T, db') ∧ Older T ∧ WidthC cb (258 + T.length) ∧ WidthD db' (258 + T.length) ∧
      T.length ≤ nt.length + j ∧ T.length = nt.length + (sel mC stop n l).length := by
  intro l
  induction l with
  | nil =>
    intro n j c cm ot nt db h1 h2 h3 h4 h5 h6 h7 h8 h9
    refine ⟨nt, c.bits, db, ?_, by simp [renumberD], h7, by rw [← h6]; exact h8, by rw [← h6]; exact h9, by omega, rfl⟩
    rw [sel, Comp.renumber, ← h5, ← h6]
  | cons a l ih =>
    intro n j c cm ot nt db h1 h2 h3 h4 h5 h6 h7 h8 h9
    obtain ⟨p, b⟩ := a
    by_cases hj : j = 0
    · subst hj
      refine ⟨nt, c.bits, db, ?_, by simp [renumberD], h7, by rw [← h6]; exact h8, by rw [← h6]; exact h9, by omega, by rw [sel_stop _ _ _ _ (by omega)]; rfl⟩
      rw [sel_stop _ _ _ _ (by omega), Comp.renumber, ← h5, ← h6]
    obtain ⟨j, rfl⟩ : ∃ k, j = k + 1 := ⟨j - 1, by omega⟩
    have h3' : ∀ k q x, l[k]? = some (q, x) → q < n + 1 + k ∧ (n + 1 + k ∈ mC → 258 ≤ q → q ∈ mC) := by
      intro k q x hk
      have := h3 (k + 1) q x (by simpa using hk)
      rw [show n + 1 + k = n + (k + 1) by omega]
      exact this
    have hn : firstChainCode + (n - 258) = n := by unfold firstChainCode; omega
    rw [sel, List.take_succ_cons, renumberD, hn]
    have hn1 : n - 258 + 1 = n + 1 - 258 := by omega
    by_cases hm : n ∈ mC
    · rw [if_pos ⟨hm, by omega⟩, if_pos ((hmk n).1 hm), Comp.renumber]
      have h0 := h3 0 p b rfl
      obtain ⟨p', e1, e2, e3⟩ : ∃ p', (if p ≥ firstChainCode then lookup p cm else some p) = some p' ∧
          (if p ≥ firstChainCode then lookup (p - firstChainCode) ot else some p) = some p' ∧ p' < c.next := by
        by_cases hp : 258 ≤ p
        · obtain ⟨v, g1, g2, g3⟩ := h4 p hp (by omega) (h0.2 (by simpa using hm) hp)
          exact ⟨v, by rw [if_pos (by exact hp)]; exact g1, by rw [if_pos (by exact hp)]; exact g2, g3⟩
        · exact ⟨p, by rw [if_neg (by exact hp)], by rw [if_neg (by exact hp)], by omega⟩
      simp only [e1, e2]
      rw [increaseBits_eq]
      have k1 : ∀ x, 258 ≤ x → x < n + 1 → x ∈ mC → ∃ v, lookup x ((n, c.next) :: cm) = some v ∧ lookup (x - 258) ((n - 258, c.next) :: ot) = some v ∧ v < c.next + 1 := by
        intro x hx1 hx2 hx3
        by_cases hxn : x = n
        · subst hxn
          exact ⟨c.next, by simp [lookup], by simp [lookup], by omega⟩
        · obtain ⟨v, g1, g2, g3⟩ := h4 x hx1 (by omega) hx3
          exact ⟨v, by rw [lookup, if_neg (by omega)]; exact g1, by rw [lookup, if_neg (by omega)]; exact g2, by omega⟩
      have k2 : (p', b, c.next) :: c.dict = itemsOf 258 (nt ++ [(p', b)]) := by rw [itemsOf_add, h5, h6]
      have k3 : c.next + 1 = 258 + (nt ++ [(p', b)]).length := by rw [h6, List.length_append]; rfl
      have k4 : Older (nt ++ [(p', b)]) := by
        intro i q x hi
        by_cases hlt : i < nt.length
        · rw [List.getElem?_append_left hlt] at hi; exact h7 i q x hi
        · have hl := (List.getElem?_eq_some_iff.1 hi).1
          simp at hl
          have : i = nt.length := by omega
          subst this
          simp at hi
          omega
      obtain ⟨T, cb, db', r1, r2, r3, r4, r5, r6, r7⟩ := ih (n + 1) j { c with next := c.next + 1, bits := if c.next = 2 ^ c.bits then c.bits + 1 else c.bits, dict := (p', b, c.next) :: c.dict }
        ((n, c.next) :: cm) ((n - 258, c.next) :: ot) (nt ++ [(p', b)]) (if c.next + 1 = 2 ^ db then db + 1 else db)
        (by omega) (by omega) h3' k1 k2 k3 k4 (widthC_step h8) (widthD_step h9)
      refine ⟨T, cb, db', r1, ?_, r3, r4, r5, by simp at r6; omega, by simp at r7 ⊢; omega⟩
      rw [hn1]; exact r2
    · rw [if_neg (fun h => hm h.1), if_neg (fun h => hm ((hmk n).2 h))]
      obtain ⟨T, cb, db', r1, r2, r3, r4, r5, r6, r7⟩ := ih (n + 1) j c cm ot nt db (by omega) (by omega) h3'
        (fun x hx1 hx2 hx3 => h4 x hx1 (by have : x ≠ n := fun h => hm (h ▸ hx3); omega) hx3) h5 h6 h7 h8 h9
      exact ⟨T, cb, db', r1, by rw [hn1]; exact r2, r3, r4, r5, by omega, r7⟩

theorem findCode_items (l : List (Nat × Nat)) {p x code : Nat} (h : findCode (itemsOf 258 l) p x = some code) :
    ∃ i, code = 258 + i ∧ l[i]? = some (p, x) := by
  have key : ∀ r : List (Nat × Nat), findCode (itemsOf 258 r.reverse) p x = some code → ∃ i, code = 258 + i ∧ r.reverse[i]? = some (p, x) := by
    intro r
    induction r with
    | nil => intro h; simp [itemsOf, findCode] at h
    | cons a r ih =>
      clear h
      intro h
      obtain ⟨q, y⟩ := a
      rw [List.reverse_cons, itemsOf_add, findCode_cons] at h
      rw [List.reverse_cons]
      split at h
      · rename_i hq
        obtain ⟨rfl, rfl⟩ := hq
        exact ⟨r.reverse.length, (Option.some.inj h).symm, by simp⟩
      · obtain ⟨i, g1, g2⟩ := ih h
        exact ⟨i, g1, by rw [List.getElem?_append_left (List.getElem?_eq_some_iff.1 g2).1]; exact g2⟩
  have := key l.reverse
  rw [List.reverse_reverse] at this
  exact this h

/-- The clear code on both sides. -/
theorem clear_both {c : Comp} {d : Core} {ents : List (Nat × Nat)} {b : Nat} (h : Sync { c with cur := b } d ents [b]) (hn : c.next = c.maxCode + 1)
    (hm : 508 ≤ c.maxCode) (hb : b < 256) (hp : d.prev ≠ 65535) :
    ∃ T cb db, c.onClearP = some { c.writeCode 256 with next := 258 + T.length, bits := cb, dict := itemsOf 258 T, marked := [] } ∧
      d.onClearP = some { d with dict := T, bits := db, marked := [], hasItems := false, prev := 65535 } ∧
      Older T ∧ WidthC cb (258 + T.length) ∧ WidthD db (258 + T.length) ∧ T.length + 290 ≤ c.maxCode ∧
      T.length = (sel c.marked (c.next - 33) 258 ents).length := by
  have h1 : c.next = 258 + ents.length := h.next
  have hfull : c.dict = itemsOf 258 ents := h.full
  obtain ⟨E, p, x, he, hd⟩ : ∃ E p x, ents = E ++ [(p, x)] ∧ d.dict = E := by
    rcases h.prev with ⟨h0, _⟩ | ⟨E, p, x, g1, g2, _⟩
    · exact absurd h0 hp
    · exact ⟨E, p, x, g1, g2⟩
  have hel : ents.length = E.length + 1 := by rw [he]; simp
  have hmk : ∀ x, x ∈ c.marked ↔ x ∈ d.marked := by
    obtain ⟨m, hm', hx⟩ := h.marks
    have : m = [] := by
      rcases hm' with ⟨_, h⟩ | h
      · exact h
      · exact h.det (.lit hb)
    subst this
    intro x
    have := hx x
    simpa using this
  have hclosed : ∀ i p b, ents[i]? = some (p, b) → 258 + i ∈ c.marked → 258 ≤ p → p ∈ c.marked := h.closed
  obtain ⟨T, cb, db, r1, r2, r3, r4, r5, r6, r7⟩ := renumber_both hmk (c.next - 33) ents 258 (E.length - 32) { c.writeCode 256 with next := 258, bits := 9, dict := [], marked := [] } [] [] [] 9
    (by omega) (by omega) (fun k p b hk => ⟨h.older k p b hk, hclosed k p b hk⟩) (fun x hx1 hx2 _ => by omega) rfl rfl
    (fun i p b hi => by simp at hi) (show WidthC 9 258 by unfold WidthC; decide) (show WidthD 9 258 by unfold WidthD; decide)
  refine ⟨T, cb, db, ?_, ?_, r3, r4, r5, by simp at r6; omega, by simpa using r7⟩
  · have hr : revMap c.marked (c.next - 33) c.dict = sel c.marked (c.next - 33) 258 ents := by
      have := revMap_sel c.marked (c.next - 33) 258 ents.reverse
      rw [List.reverse_reverse] at this
      rw [hfull]; exact this
    show Comp.renumber { c.writeCode 256 with next := 258, bits := 9, dict := [], marked := [] } [] (revMap c.marked (c.next - 33) c.dict) = _
    rw [hr, r1]
  · unfold Core.onClearP
    have ht : ents.take (E.length - 32) = E.take (E.length - 32) := by
      rw [he, List.take_append_of_le_length (by omega)]
    rw [ht] at r2
    rw [hd, if_neg (show ¬ E.length < 32 by omega)]
    have r2' : renumberD d.marked 0 258 9 [] [] (E.take (E.length - 32)) = some (T, db) := r2
    rw [r2']
    rfl

/-- The next code is one where the widths of the two sides differ after pruning: a power of two or
one less. -/
def awkward (n : Nat) : Bool := (List.range 16).any fun w => n == 2 ^ w || n + 1 == 2 ^ w

theorem awkward_not {n w : Nat} (h : awkward n = false) (hw : w < 16) : n ≠ 2 ^ w ∧ n + 1 ≠ 2 ^ w := by
  simp [awkward] at h
  exact h w hw

/-- `LZWpCompress` which gives up when the pruning leaves an awkward number of items. -/
def Comp.onClearG (c : Comp) : Option Comp :=
  match c.onClearP with
  | none => none
  | some c' => if awkward c'.next then none else some c'

theorem clear_sync {c : Comp} {d : Core} {ents : List (Nat × Nat)} {b : Nat} (h : Sync { c with cur := b } d ents [b]) (hn : c.next = c.maxCode + 1)
    (hm : 508 ≤ c.maxCode) (hb : b < 256) (hp : d.prev ≠ 65535) :
    ∃ c' d' k, c.onClearP = some c' ∧ c'.out = (c.writeCode 256).out ∧ c'.hasItems = (c.writeCode 256).hasItems ∧
      d.onClearP = some d' ∧ c'.next = 258 + k ∧ k + 290 ≤ c.maxCode ∧ c'.maxCode = c.maxCode ∧
      (awkward c'.next = false → ∃ ents', Sync { c' with cur := b } d' ents' [b]) := by
  have h2 : c.maxCode < 32767 := h.maxLt
  obtain ⟨T, cb, db, r1, r2, r3, r4, r5, r6, _⟩ := clear_both h hn hm hb hp
  refine ⟨_, _, T.length, r1, rfl, rfl, r2, rfl, r6, rfl, fun ha => ⟨T, ?_⟩⟩
  have ha' : awkward (258 + T.length) = false := ha
  obtain ⟨w1, w2, w3⟩ := r4
  have hcb : cb < 16 := by
    rcases w3 with h | h
    · omega
    · false_or_by_contra
      have : 2 ^ 15 ≤ 2 ^ (cb - 1) := Nat.pow_le_pow_right (by omega) (by omega)
      omega
  have hne := awkward_not ha' hcb
  have heq := width_eq ⟨w1, w2, w3⟩ r5 hne.1
  subst heq
  refine ⟨rfl, ?_, h2, r3, ?_, rfl, w1, w2, w3, rfl, Or.inr (.lit hb), rfl, ⟨[], Or.inr (.lit hb), by simp⟩, by simp, by simp, Or.inl ⟨rfl, rfl, hne.1, ?_⟩⟩
  · show 258 + T.length ≤ c.maxCode + 1; omega
  · intro p x code hf
    exact findCode_items T hf
  · show 259 + T.length ≠ 2 ^ cb
    have := hne.2
    omega

theorem clr_guard (m : Nat) : ClrOK False m Comp.onClearG Core.onClearP := by
  intro c d ents b h hn hm _ hb hp
  obtain ⟨c', d', k, r1, r2, r3, r4, r5, r6, r7, r8⟩ := clear_sync h hn hm hb hp
  by_cases ha : awkward c'.next = true
  · left
    exact ⟨fun h => h, by simp [Comp.onClearG, r1, ha]⟩
  · right
    have ha' : awkward c'.next = false := by simpa using ha
    obtain ⟨ents', r9⟩ := r8 ha'
    exact ⟨c', d', ents', by simp [Comp.onClearG, r1, ha'], r2, r3, r4, r9, by omega, r7⟩

theorem clr_nine : ClrOK True 508 Comp.onClearP Core.onClearP := by
  intro c d ents b h hn hm hm' hb hp
  right
  obtain ⟨c', d', k, r1, r2, r3, r4, r5, r6, r7, r8⟩ := clear_sync h hn hm hb hp
  have ha : awkward c'.next = false := by
    rw [r5]
    have hk : k < 219 := by omega
    clear r5 r6 r8
    revert k
    decide +kernel
  obtain ⟨ents', r9⟩ := r8 ha
  exact ⟨c', d', ents', r1, r2, r3, r4, r9, by omega, r7⟩

/-! ## The compressor which gives up does the same as the real one -/

theorem guard_some {c c' : Comp} (h : c.onClearG = some c') : c.onClearP = some c' := by
  unfold Comp.onClearG at h
  split at h
  · simp at h
  · rename_i c1 hc
    split at h
    · simp at h
    · rw [hc]; exact h

theorem guard_write {c c' : Comp} {b : Nat} (h : c.write Comp.onClearG b = some c') : c.write Comp.onClearP b = some c' := by
  unfold Comp.write at h ⊢
  split
  · rename_i code hc
    rw [hc] at h; exact h
  · rename_i hc
    rw [hc] at h
    simp only at h ⊢
    split
    · rename_i hn
      rw [if_pos hn] at h; exact h
    · rename_i hn
      rw [if_neg hn] at h
      generalize hc3 : ({ c.writeCode c.cur with next := ((c.writeCode c.cur).next + 1) % 65536, dict := ((c.writeCode c.cur).cur, b, (c.writeCode c.cur).next) :: (c.writeCode c.cur).dict } : Comp).increaseBits (c.writeCode c.cur).next = c3 at h ⊢
      by_cases hm : (c.writeCode c.cur).next = c3.maxCode
      · rw [if_pos hm] at h ⊢
        cases hg : c3.onClearG with
        | none => rw [hg] at h; simp at h
        | some c4 =>
          rw [hg] at h
          rw [guard_some hg]; exact h
      · rw [if_neg hm] at h ⊢
        exact h

theorem guard_drain : ∀ (fuel : Nat) (c : Comp), (compOf Comp.onClearG).drain fuel c = (compOf Comp.onClearP).drain fuel c := by
  intro fuel
  induction fuel with
  | zero => intro c; rfl
  | succ fuel ih =>
    intro c
    rw [Conv.drain, Conv.drain]
    have h1 : (compOf Comp.onClearG).hasItems c = (compOf Comp.onClearP).hasItems c := rfl
    have h2 : (compOf Comp.onClearG).getNext c = (compOf Comp.onClearP).getNext c := rfl
    rw [h1, h2]
    simp only [ih]

theorem guard_many {fuel : Nat} : ∀ (l : List Nat) (c : Comp) (r : List Nat × Comp),
    (compOf Comp.onClearG).writeMany fuel c l = some r → (compOf Comp.onClearP).writeMany fuel c l = some r := by
  intro l
  induction l with
  | nil => intro c r h; exact h
  | cons a l ih =>
    intro c r h
    rw [Conv.writeMany] at h ⊢
    have step : ∀ q, (compOf Comp.onClearG).writeToIter fuel c a = some q → (compOf Comp.onClearP).writeToIter fuel c a = some q := by
      intro q hq
      rw [Conv.writeToIter, guard_drain] at hq
      rw [Conv.writeToIter]
      cases hd : (compOf Comp.onClearP).drain fuel c with
      | none => rw [hd] at hq; simp at hq
      | some z =>
        obtain ⟨o1, c1⟩ := z
        rw [hd] at hq
        simp only at hq ⊢
        cases hw : (compOf Comp.onClearG).write c1 a with
        | none => rw [hw] at hq; simp at hq
        | some c2 =>
          rw [hw] at hq
          have hw' : (compOf Comp.onClearP).write c1 a = some c2 := guard_write hw
          rw [hw']
          simp only at hq ⊢
          rw [← guard_drain]
          exact hq
    cases hs : (compOf Comp.onClearG).writeToIter fuel c a with
    | none => rw [hs] at h; simp at h
    | some q =>
      obtain ⟨o, c1⟩ := q
      rw [hs] at h
      rw [step _ hs]
      simp only at h ⊢
      cases hm : (compOf Comp.onClearG).writeMany fuel c1 l with
      | none => rw [hm] at h; simp at h
      | some q2 => rw [hm] at h; rw [ih _ _ hm]; exact h

theorem guard_run {fuel : Nat} {c : Comp} {l out : List Nat} (h : (compOf Comp.onClearG).run fuel c l = some out) :
    compP.run fuel c l = some out := by
  unfold Conv.run at h ⊢
  cases hm : (compOf Comp.onClearG).writeMany fuel c l with
  | none => rw [hm] at h; simp at h
  | some q =>
    obtain ⟨o, c1⟩ := q
    have hm' : compP.writeMany fuel c l = some (o, c1) := guard_many _ _ _ hm
    rw [hm] at h
    rw [hm']
    simp only at h ⊢
    have hf : ∀ c1, (compOf Comp.onClearG).flushToIter fuel c1 = compP.flushToIter fuel c1 := by
      intro c1
      exact guard_drain fuel _
    rw [hf] at h
    exact h

/-! ## C110 -/

/-- The property: what LZWp compresses, it decompresses. -/
def TripP (maxBits : Nat) : Prop :=
  ∀ (fuel : Nat) (input : List Nat), (∀ x ∈ input, x < 256) → 16 + input.length ≤ fuel →
    ∃ out, compP.run fuel (Comp.init maxBits) input = some out ∧ (∀ x ∈ out, x < 256) ∧ decP.run fuel {} out = some input

/-- C110 with codes of nine bits. -/
theorem C110_nine : TripP 9 := by
  intro fuel input hb hf
  have h508 : (Comp.init 9).maxCode = 508 := by decide
  exact (round_trip (n := 9) (by rw [h508]; exact clr_nine) (by decide) input hb (by omega) (by omega)).resolve_left (fun h => h.1 trivial)

/-- C110, any limit of the code width; what is missing: the inputs for which some pruning leaves the
next code at a power of two or one below. -/
theorem C110_trip_partial (maxBits fuel : Nat) (input : List Nat) (hm : 9 ≤ maxBits) (hb : ∀ x ∈ input, x < 256) (hf : 16 + input.length ≤ fuel)
    (hg : (compOf Comp.onClearG).run fuel (Comp.init maxBits) input ≠ none) :
    ∃ out, compP.run fuel (Comp.init maxBits) input = some out ∧ (∀ x ∈ out, x < 256) ∧ decP.run fuel {} out = some input := by
  rcases round_trip (fuel := fuel) (clr_guard _) hm input hb (by omega) (by omega) with ⟨_, h⟩ | ⟨out, h1, h2, h3⟩
  · exact absurd h hg
  · exact ⟨out, guard_run h1, h2, h3⟩

/-- A dictionary which becomes full and is pruned twice (a limit of 300 instead of 508, so that it happens early):
the first time four items are kept. -/
def someText (n : Nat) : List Nat := (List.range n).map fun i => i * i % 11 * i % 7

example : ((compP.writeMany 300 { maxCode := 300 } (someText 58)).map fun r => r.2.dict) = some [(0, 2, 261), (4, 0, 260), (1, 4, 259), (0, 1, 258)] ∧
    (compP.run 300 { maxCode := 300 } (someText 160)).bind (decP.run 300 {}) = some (someText 160) ∧
    ((compOf Comp.onClearG).run 300 { maxCode := 300 } (someText 160)).isSome = true := by
  decide +kernel

end LS.Lzw

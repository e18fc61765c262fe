import Verif.Conv
/-!
# C12: the ways through a converter give the same output
-/

namespace LS.Conv
variable {σ α β : Type} (c : Conv σ α β)

/-- Block writes of the chunks one after the other by a caller who stops when a block was not taken
whole (its return value is less than its length). -/
def blocks (fuel : Nat) : σ → List (List α) → Option (Nat × List β × σ)
  | s, [] => some (0, [], s)
  | s, l :: ls =>
    match c.blockWrite fuel s l with
    | none => none
    | some (n, o1, s1) =>
      if n < l.length then some (n, o1, s1)
      else
        match blocks fuel s1 ls with
        | none => none
        | some (m, o2, s2) => some (n + m, o1 ++ o2, s2)

theorem blockWrite_idle {fuel : Nat} {s : σ} (hs : c.hasItems s = false) (l : List α) :
    c.blockWrite fuel s l = c.blockLoop fuel s l := by
  simp only [blockWrite, c.drain_idle hs]
  cases c.blockLoop fuel s l <;> simp

theorem blockLoop_le {fuel : Nat} {s s' : σ} {l : List α} {n : Nat} {o : List β}
    (h : c.blockLoop fuel s l = some (n, o, s')) : n ≤ l.length := by
  induction l generalizing s n o with
  | nil => simp [blockLoop] at h; simp [h.1.symm]
  | cons a l ih =>
    simp only [blockLoop] at h
    split at h
    · cases h; omega
    · split at h
      · cases h
      · split at h
        · cases h
        · split at h
          · cases h
          · next hb => cases h; have := ih hb; simp; omega

theorem blockLoop_idle {fuel : Nat} {s s' : σ} {l : List α} {n : Nat} {o : List β}
    (hs : c.hasItems s = false) (h : c.blockLoop fuel s l = some (n, o, s')) :
    c.hasItems s' = false := by
  induction l generalizing s n o with
  | nil => simp [blockLoop] at h; rw [← h.2.2]; exact hs
  | cons a l ih =>
    simp only [blockLoop] at h
    split at h
    · cases h; exact hs
    · split at h
      · cases h
      · split at h
        · cases h
        · next hd =>
          split at h
          · cases h
          · next hb => cases h; exact ih (c.drain_post hd) hb

/-- If not all is taken, the end of the logical block has been reached. -/
theorem blockLoop_eolb {fuel : Nat} {s s' : σ} {l : List α} {n : Nat} {o : List β}
    (h : c.blockLoop fuel s l = some (n, o, s')) (hn : n < l.length) : c.eolb s' = true := by
  induction l generalizing s n o with
  | nil => simp at hn
  | cons a l ih =>
    simp only [blockLoop] at h
    split at h
    · cases h; assumption
    · split at h
      · cases h
      · split at h
        · cases h
        · split at h
          · cases h
          · next hb => cases h; exact ih hb (by simpa using hn)

theorem blockLoop_append {fuel : Nat} {s : σ} {l m : List α} :
    c.blockLoop fuel s (l ++ m) =
      match c.blockLoop fuel s l with
      | none => none
      | some (n, o1, s1) =>
        if n < l.length then some (n, o1, s1)
        else
          match c.blockLoop fuel s1 m with
          | none => none
          | some (k, o2, s2) => some (n + k, o1 ++ o2, s2) := by
  induction l generalizing s with
  | nil => simp only [List.nil_append, blockLoop]; cases c.blockLoop fuel s m <;> simp
  | cons a l ih =>
    simp only [List.cons_append, blockLoop]
    split
    · simp
    · cases c.write s a with
      | none => rfl
      | some s1 =>
        simp only
        cases c.drain fuel s1 with
        | none => rfl
        | some q =>
          obtain ⟨o1, s2⟩ := q
          simp only [ih]
          cases c.blockLoop fuel s2 l with
          | none => rfl
          | some q =>
            obtain ⟨n, o2, s3⟩ := q
            simp only [List.length_cons]
            by_cases hn : n < l.length
            · rw [if_pos hn, if_pos (by omega)]
            · rw [if_neg hn, if_neg (by omega)]
              cases c.blockLoop fuel s3 m with
              | none => rfl
              | some q => simp; omega

/-- C12: any division of the input into blocks gives the same output, the same number of items taken
and the same state as one block; for every converter. -/
theorem c12_blocks {fuel : Nat} {s : σ} {ls : List (List α)} (hs : c.hasItems s = false) :
    c.blocks fuel s ls = c.blockWrite fuel s ls.flatten := by
  rw [c.blockWrite_idle hs]
  induction ls generalizing s with
  | nil => rfl
  | cons l ls ih =>
    simp only [blocks, List.flatten_cons, blockLoop_append, c.blockWrite_idle hs]
    cases h : c.blockLoop fuel s l with
    | none => rfl
    | some q =>
      obtain ⟨n, o1, s1⟩ := q
      simp only [ih (c.blockLoop_idle hs h)]

/-- C12: items which wait in the converter leave it first, in order, then the block is taken as by an
idle converter. -/
theorem c12_pending {fuel : Nat} {s s1 s2 : σ} {l : List α} {o1 o2 : List β} {n : Nat}
    (h1 : c.drain fuel s = some (o1, s1)) (h2 : c.blockWrite fuel s1 l = some (n, o2, s2)) :
    c.blockWrite fuel s l = some (n, o1 ++ o2, s2) := by
  rw [c.blockWrite_idle (c.drain_post h1)] at h2
  simp only [blockWrite, h1, h2]

/-- C12: a block that is taken whole gives what writing of the single items gives. -/
theorem c12_items {fuel : Nat} {s s' : σ} {l : List α} {o : List β} (hs : c.hasItems s = false)
    (h : c.blockWrite fuel s l = some (l.length, o, s')) : c.writeMany fuel s l = some (o, s') := by
  rw [c.blockWrite_idle hs] at h
  have e := h
  clear h
  induction l generalizing s o with
  | nil => simp [blockLoop] at e; simp [writeMany, e]
  | cons a l ih =>
    simp only [blockLoop] at e
    split at e
    · cases e
    · split at e
      · cases e
      · next hw =>
        split at e
        · cases e
        · next hd =>
          split at e
          · cases e
          · next n o2 s3 hb =>
            simp only [List.length_cons, Option.some.injEq, Prod.mk.injEq] at e
            obtain ⟨e1, rfl, rfl⟩ := e
            obtain rfl : n = l.length := by omega
            simp only [writeMany, c.writeToIter_idle hs, hw, hd, ih (c.drain_post hd) hb]

/-! ## Reading through a `ConvertReadIter` -/

/-- Items after the last flush. -/
theorem readAll_end {fuel N : Nat} {s s3 sf : σ} {src : List α} {o : List β}
    (hd : c.drain fuel s = some (o, s3)) (he : src = [] ∨ c.eolb s3 = true)
    (hf : c.flush s3 = some sf) (hi : c.hasItems sf = false) (hN : o.length < N) :
    c.readAll N s src = some (o, src) := by
  induction fuel generalizing s o N with
  | zero =>
    rw [drain] at hd
    split at hd
    · cases hd
    · next hs =>
      cases hd
      obtain ⟨N, rfl⟩ : ∃ k, N = k + 1 := ⟨N - 1, by omega⟩
      have e : c.hasItemsFromIter s3 src = some (false, s3, src) := by
        cases src with
        | nil => simp [hasItemsFromIter, hs]
        | cons a l =>
          rcases he with he | he
          · cases he
          · simp [hasItemsFromIter, hs, he]
      simp [readAll, iterHasItems, e, hf, hi]
  | succ fuel ih =>
    rw [drain] at hd
    obtain ⟨N, rfl⟩ : ∃ k, N = k + 1 := ⟨N - 1, by omega⟩
    split at hd
    · next hs =>
      split at hd
      · cases hd
      · next x s1 hg =>
        split at hd
        · cases hd
        · next xs s2 hd2 =>
          cases hd
          simp only [List.length_cons] at hN
          have e : c.hasItemsFromIter s src = some (true, s, src) := by
            cases src <;> simp [hasItemsFromIter, hs]
          have e2 : c.getNextFromIter s src = some (x, s1, src) := by
            cases src <;> simp [getNextFromIter, hs, hg]
          have := ih (N := N) hd2 (by omega)
          simp only [readAll, iterHasItems, e, e2, this]
    · next hs =>
      cases hd
      have e : c.hasItemsFromIter s3 src = some (false, s3, src) := by
        cases src with
        | nil => simp [hasItemsFromIter, hs]
        | cons a l =>
          rcases he with he | he
          · cases he
          · simp [hasItemsFromIter, hs, he]
      simp [readAll, iterHasItems, e, hf, hi]

theorem hasItemsFromIter_loop {fuel : Nat} {s s2 : σ} {src : List α} {k : Nat} {o : List β}
    (hs : c.hasItems s = false) (h : c.blockLoop fuel s src = some (k, o, s2)) :
    (o = [] ∧ c.hasItemsFromIter s src = some (false, s2, src.drop k)) ∨
    ∃ s' src' o' s1' k' o2', c.hasItemsFromIter s src = some (true, s', src') ∧
      c.hasItems s' = true ∧ c.drain fuel s' = some (o', s1') ∧
      c.blockLoop fuel s1' src' = some (k', o2', s2) ∧ o = o' ++ o2' ∧
      src.drop k = src'.drop k' ∧ k + src'.length = k' + src.length := by
  induction src generalizing s k o with
  | nil =>
    simp only [blockLoop] at h
    cases h
    exact .inl ⟨rfl, by simp [hasItemsFromIter, hs]⟩
  | cons a src ih =>
    simp only [blockLoop] at h
    split at h
    · next he => cases h; exact .inl ⟨rfl, by simp [hasItemsFromIter, hs, he]⟩
    · next he =>
      split at h
      · cases h
      · next s1 hw =>
        split at h
        · cases h
        · next o1 s3 hd =>
          split at h
          · cases h
          · next n o2 s4 hb =>
            cases h
            cases hs1 : c.hasItems s1
            · rw [c.drain_idle hs1] at hd
              cases hd
              have e : c.hasItemsFromIter s (a :: src) = c.hasItemsFromIter s1 src := by
                simp [hasItemsFromIter, hs, he, hw]
              rw [e]
              rcases ih hs1 hb with ⟨h1, h2⟩ | ⟨s', src', o', s1', k', o2', g1, g2, g3, g4, g5, g6, g7⟩
              · exact .inl ⟨by simpa using h1, by simpa using h2⟩
              · exact .inr ⟨s', src', o', s1', k', o2', g1, g2, g3, g4, by simpa using g5,
                  by simpa using g6, by simp; omega⟩
            · refine .inr ⟨s1, src, o1, s3, n, o2, ?_, hs1, hd, hb, rfl, by simp, by simp; omega⟩
              have e : c.hasItemsFromIter s (a :: src) = c.hasItemsFromIter s1 src := by
                simp [hasItemsFromIter, hs, he, hw]
              rw [e]
              cases src <;> simp [hasItemsFromIter, hs1]

theorem readAll_gen {fuel N : Nat} {s s1 s2 s3 sf : σ} {src : List α} {o1 o2 o3 : List β} {k : Nat}
    (hd : c.drain fuel s = some (o1, s1)) (hb : c.blockLoop fuel s1 src = some (k, o2, s2))
    (hl : c.flushToIter fuel s2 = some (o3, s3)) (he : k = src.length ∨ c.eolb s3 = true)
    (hf : c.flush s3 = some sf) (hi : c.hasItems sf = false)
    (hN : o1.length + o2.length + o3.length < N) :
    c.readAll N s src = some (o1 ++ o2 ++ o3, src.drop k) := by
  induction N generalizing s s1 src o1 o2 k with
  | zero => omega
  | succ N ih =>
    have he' : src.drop k = [] ∨ c.eolb s3 = true := by
      rcases he with he | he
      · left; simp [he]
      · exact .inr he
    -- an item in the converter
    have item : ∀ {t src1 p1 t1 p2 k1}, c.hasItems t = true → c.drain fuel t = some (p1, t1) →
        c.blockLoop fuel t1 src1 = some (k1, p2, s2) → (k1 = src1.length ∨ c.eolb s3 = true) →
        p1.length + p2.length + o3.length < N + 1 →
        ∃ x t' src', c.getNextFromIter t src1 = some (x, t', src') ∧
          (c.readAll N t' src').map (fun r => (x :: r.1, r.2)) =
            some (p1 ++ p2 ++ o3, src1.drop k1) := by
      intro t src1 p1 t1 p2 k1 ht hdt hbt het hlen
      have h0 := hdt
      cases fuel with
      | zero => simp [drain, ht] at hdt
      | succ fuel =>
        rw [drain, if_pos ht] at hdt
        split at hdt
        · cases hdt
        · next x t' hg =>
          split at hdt
          · cases hdt
          · next xs t2 hd2 =>
            cases hdt
            refine ⟨x, t', src1, by cases src1 <;> simp [getNextFromIter, ht, hg], ?_⟩
            rw [ih (c.drain_mono (Nat.le_succ fuel) hd2) hbt het (by simp at hlen; omega)]
            simp
    cases hs : c.hasItems s
    · rw [c.drain_idle hs] at hd
      cases hd
      rcases c.hasItemsFromIter_loop hs hb with ⟨rfl, h2⟩ |
        ⟨s', src', o', s1', k', o2', g1, g2, g3, g4, rfl, g6, g7⟩
      · simp only [flushToIter] at hl
        split at hl
        · cases hl
        · next sg hfl =>
          simp only [readAll, iterHasItems, h2, hfl]
          cases hg : c.hasItems sg
          · rw [c.drain_idle hg] at hl
            cases hl
            simp
          · have hr := c.readAll_end (N := N + 1) hl he' hf hi (by simp at hN; omega)
            have e : c.hasItemsFromIter sg (src.drop k) = some (true, sg, src.drop k) := by
              cases src.drop k <;> simp [hasItemsFromIter, hg]
            simp only [readAll, iterHasItems, e] at hr
            simpa using hr
      · obtain ⟨x, t', src'', q1, q2⟩ := item g2 g3 g4 (by
          rcases he with he | he
          · left; omega
          · exact .inr he) (by simp at hN; omega)
        simp only [readAll, iterHasItems, g1, q1]
        rw [g6]
        cases hr : c.readAll N t' src'' with
        | none => simp [hr] at q2
        | some r => simpa [hr] using q2
    · obtain ⟨x, t', src'', q1, q2⟩ := item hs hd hb he hN
      have e : c.hasItemsFromIter s src = some (true, s, src) := by
        cases src <;> simp [hasItemsFromIter, hs]
      simp only [readAll, iterHasItems, e, q1]
      cases hr : c.readAll N t' src'' with
      | none => simp [hr] at q2
      | some r => simpa [hr] using q2

/-- C12: reading through an iterator gives the output of a block write and a flush, for every
converter with nothing more to flush after that; the items which the block write does not take are
left in the source. -/
theorem c12_pull {fuel N : Nat} {s s2 s3 sf : σ} {src : List α} {o2 o3 : List β} {k : Nat}
    (hs : c.hasItems s = false) (hb : c.blockWrite fuel s src = some (k, o2, s2))
    (hl : c.flushToIter fuel s2 = some (o3, s3)) (he : k = src.length ∨ c.eolb s3 = true)
    (hf : c.flush s3 = some sf) (hi : c.hasItems sf = false)
    (hN : o2.length + o3.length < N) :
    c.readAll N s src = some (o2 ++ o3, src.drop k) := by
  rw [c.blockWrite_idle hs] at hb
  have := c.readAll_gen (N := N) (c.drain_idle hs) hb hl he hf hi (by simpa using hN)
  simpa using this

/-! ## Converters which do not end a logical block by themselves -/

/-- In the states `I`, for the items `A`, the flag `eolb` is never set by `write` and `getNext`. -/
structure Quiet (I : σ → Prop) (A : α → Prop) : Prop where
  eolb : ∀ s, I s → c.eolb s = false
  write : ∀ s a s', I s → A a → c.write s a = some s' → I s'
  getNext : ∀ s x s', I s → c.getNext s = some (x, s') → I s'

/-- There is nothing to flush after a flush. -/
def FlushOnce : Prop :=
  ∀ s sf n o s3, c.hasItems s = false → c.flush s = some sf → c.drain n sf = some (o, s3) →
    ∃ sf', c.flush s3 = some sf' ∧ c.hasItems sf' = false

/-- Block writes of the chunks, then the flush. -/
def runBlocks (fuel : Nat) (s : σ) (ls : List (List α)) : Option (List β) :=
  match c.blocks fuel s ls with
  | none => none
  | some (_, o1, s1) =>
    match c.flushToIter fuel s1 with
    | none => none
    | some (o2, _) => some (o1 ++ o2)

variable {c}

theorem Quiet.drain {I : σ → Prop} {A : α → Prop} (q : c.Quiet I A) {n : Nat} {s s' : σ} {o : List β}
    (hs : I s) (h : c.drain n s = some (o, s')) : I s' := by
  induction n generalizing s o with
  | zero =>
    rw [Conv.drain] at h
    split at h
    · cases h
    · cases h; exact hs
  | succ n ih =>
    rw [Conv.drain] at h
    split at h
    · split at h
      · cases h
      · next hg =>
        split at h
        · cases h
        · next hd => cases h; exact ih (q.getNext _ _ _ hs hg) hd
    · cases h; exact hs

theorem Quiet.blockLoop {I : σ → Prop} {A : α → Prop} (q : c.Quiet I A) {fuel : Nat} {s : σ}
    {l : List α} (hs : I s) (hi : c.hasItems s = false) (hl : ∀ a ∈ l, A a) :
    c.blockLoop fuel s l = (c.writeMany fuel s l).map (fun r => (l.length, r.1, r.2)) := by
  induction l generalizing s with
  | nil => rfl
  | cons a l ih =>
    simp only [Conv.blockLoop, writeMany, q.eolb s hs, Bool.false_eq_true, if_false,
      c.writeToIter_idle hi]
    cases hw : c.write s a with
    | none => rfl
    | some s1 =>
      simp only
      cases hd : c.drain fuel s1 with
      | none => rfl
      | some r =>
        obtain ⟨o, s2⟩ := r
        simp only
        rw [ih (q.drain (q.write _ _ _ hs (hl a (by simp)) hw) hd) (c.drain_post hd)
          (fun b hb => hl b (by simp [hb]))]
        cases c.writeMany fuel s2 l <;> simp

/-- C12: block writes in any chunks, followed by the flush, give what the single items give
(exceptions included). -/
theorem c12_write {I : σ → Prop} {A : α → Prop} (q : c.Quiet I A) (fuel : Nat) {s : σ} (hs : I s)
    (hi : c.hasItems s = false) (ls : List (List α)) (hl : ∀ a ∈ ls.flatten, A a) :
    c.runBlocks fuel s ls = c.run fuel s ls.flatten := by
  simp only [runBlocks, run, c.c12_blocks hi, c.blockWrite_idle hi, q.blockLoop hs hi hl]
  cases c.writeMany fuel s ls.flatten <;> rfl

/-- C12: reading through an iterator gives the same. -/
theorem c12_read {I : σ → Prop} {A : α → Prop} (q : c.Quiet I A) (hF : c.FlushOnce) {fuel N : Nat}
    {s : σ} (hs : I s) (hi : c.hasItems s = false) {l : List α} (hl : ∀ a ∈ l, A a) {out : List β}
    (h : c.run fuel s l = some out) (hN : out.length < N) : c.readAll N s l = some (out, []) := by
  simp only [run] at h
  have hb := q.blockLoop (fuel := fuel) hs hi hl
  split at h
  · cases h
  · next o1 s1 hm =>
    split at h
    · cases h
    · next o2 s3 hf =>
      cases h
      rw [hm] at hb
      simp only [flushToIter] at hf
      split at hf
      · cases hf
      · next sf hfl =>
        obtain ⟨sf', g1, g2⟩ := hF s1 sf fuel o2 s3 (c.writeMany_post hi hm) hfl hf
        have := c.c12_pull (N := N) (sf := sf') hi ((c.blockWrite_idle hi l).trans hb)
          (by simp only [flushToIter, hfl]; exact hf) (.inl rfl) g1 g2 (by simpa using hN)
        simpa using this

/-! ## Block reads -/

/-- A flush may be done while there are items. -/
def FlushEarly (c : Conv σ α β) : Prop :=
  ∀ n s o s2 o2 s3, c.drain n s = some (o, s2) → c.flushToIter n s2 = some (o2, s3) →
    ∃ m sf, c.flush s = some sf ∧ c.drain m sf = some (o ++ o2, s3)

/-- The rest of the output: `out` is still to be read, `s3` is the state after that. With items in
the source: these, then the flush. Without: what the converter has. -/
def Rest (c : Conv σ α β) (s3 : σ) (s : σ) (src : List α) (out : List β) : Prop :=
  (src = [] ∧ ∃ n, c.drain n s = some (out, s3)) ∨
  (src ≠ [] ∧ ∃ n o1 s1 o2 s2 o3, c.drain n s = some (o1, s1) ∧
    c.blockLoop n s1 src = some (src.length, o2, s2) ∧ c.flushToIter n s2 = some (o3, s3) ∧
    out = o1 ++ o2 ++ o3)

theorem take_drain {n : Nat} {s s3 : σ} {out : List β} (h : c.drain n s = some (out, s3)) (k : Nat) :
    ∃ s', c.take k s = some (out.take k, s') ∧ c.drain n s' = some (out.drop k, s3) := by
  induction k generalizing n s out with
  | zero => exact ⟨s, by simp [Conv.take], by simpa using h⟩
  | succ k ih =>
    rw [Conv.take]
    cases hs : c.hasItems s
    · rw [c.drain_idle hs] at h
      cases h
      exact ⟨s3, by simp, by rw [c.drain_idle hs]; simp⟩
    · cases n with
      | zero => simp [Conv.drain, hs] at h
      | succ n =>
        rw [Conv.drain, if_pos hs] at h
        split at h
        · cases h
        · next x s1 hg =>
          split at h
          · cases h
          · next xs s2 hd =>
            cases h
            obtain ⟨s', g1, g2⟩ := ih hd
            refine ⟨s', by simp [hg, g1], c.drain_mono (Nat.le_succ n) (by simpa using g2)⟩

/-- One step of `fetch` from a state without items. -/
theorem fetch_rest (hE : FlushEarly c) {n : Nat} {s s2 s3 : σ} {src : List α} {o2 o3 : List β}
    (hs : c.hasItems s = false) (hne : src ≠ [])
    (hb : c.blockLoop n s src = some (src.length, o2, s2)) (hf : c.flushToIter n s2 = some (o3, s3)) :
    (∃ m sf, c.fetch s src = some (.last sf) ∧ c.drain m sf = some (o2 ++ o3, s3)) ∨
    ∃ s' src' o1' s1' o2', c.fetch s src = some (.item s' src') ∧ c.hasItems s' = true ∧ src' ≠ [] ∧
      c.drain n s' = some (o1', s1') ∧ c.blockLoop n s1' src' = some (src'.length, o2', s2) ∧
      o2 = o1' ++ o2' := by
  induction src generalizing s o2 with
  | nil => exact absurd rfl hne
  | cons a src ih =>
    simp only [Conv.blockLoop] at hb
    split at hb
    · cases hb
    · next he =>
      split at hb
      · cases hb
      · next s1 hw =>
        split at hb
        · cases hb
        · next o1 t1 hd =>
          split at hb
          · cases hb
          · next k o2' t2 hb2 =>
            simp only [List.length_cons, Option.some.injEq, Prod.mk.injEq] at hb
            obtain ⟨hk, rfl, rfl⟩ := hb
            obtain rfl : k = src.length := by omega
            cases src with
            | nil =>
              simp only [Conv.blockLoop, Option.some.injEq, Prod.mk.injEq] at hb2
              obtain ⟨-, rfl, rfl⟩ := hb2
              obtain ⟨m, sf, g1, g2⟩ := hE n s1 o1 t1 o3 s3 hd hf
              exact .inl ⟨m, sf, by simp [fetch, hs, he, hw, g1], by simpa using g2⟩
            | cons b src =>
              have e : c.fetch s (a :: b :: src) = c.fetch s1 (b :: src) := by
                simp [fetch, hs, he, hw]
              rw [e]
              cases hs1 : c.hasItems s1
              · rw [c.drain_idle hs1] at hd
                cases hd
                have := ih hs1 (by simp) hb2
                simpa using this
              · exact .inr ⟨s1, b :: src, o1, t1, o2', by simp [fetch, hs1], hs1, by simp, hd, hb2,
                  rfl⟩

/-- A block read of not more items than the rest of the output has. -/
theorem blockRead_rest (hE : FlushEarly c) {s s3 : σ} {src : List α} {out : List β} {n : Nat}
    (h : Rest c s3 s src out) (hn : n ≤ out.length) :
    ∃ s' src', c.blockRead n s src = some (out.take n, s', src') ∧ Rest c s3 s' src' (out.drop n) := by
  induction n generalizing s src out with
  | zero => exact ⟨s, src, by simp [blockRead], by simpa using h⟩
  | succ n ih =>
    -- with an item in the converter
    have item : ∀ {t src1}, c.hasItems t = true → Rest c s3 t src1 out →
        ∃ x t' out', c.getNext t = some (x, t') ∧ out = x :: out' ∧ Rest c s3 t' src1 out' := by
      intro t src1 ht hR
      have key : ∀ {m o t1}, c.drain m t = some (o, t1) → ∃ x t' o', c.getNext t = some (x, t') ∧
          o = x :: o' ∧ c.drain m t' = some (o', t1) := by
        intro m o t1 hd
        cases m with
        | zero => simp [Conv.drain, ht] at hd
        | succ m =>
          rw [Conv.drain, if_pos ht] at hd
          split at hd
          · cases hd
          · next x s1 hg =>
            split at hd
            · cases hd
            · next hd2 =>
              cases hd
              exact ⟨x, s1, _, hg, rfl, c.drain_mono (Nat.le_succ m) hd2⟩
      rcases hR with ⟨rfl, m, hd⟩ | ⟨hne, m, o1, t1, o2, t2, o3, hd, hb, hf, rfl⟩
      · obtain ⟨x, t', o', g1, rfl, g3⟩ := key hd
        exact ⟨x, t', o', g1, rfl, .inl ⟨rfl, m, g3⟩⟩
      · obtain ⟨x, t', o', g1, rfl, g3⟩ := key hd
        exact ⟨x, t', o' ++ o2 ++ o3, g1, by simp, .inr ⟨hne, m, o', t1, o2, t2, o3, g3, hb, hf, rfl⟩⟩
    have step : ∀ {t src1}, c.hasItems t = true → Rest c s3 t src1 out →
        c.fetch s src = some (.item t src1) →
        ∃ s' src', c.blockRead (n + 1) s src = some (out.take (n + 1), s', src') ∧
          Rest c s3 s' src' (out.drop (n + 1)) := by
      intro t src1 ht hR hf
      obtain ⟨x, t', out', g1, rfl, g3⟩ := item ht hR
      obtain ⟨s', src', q1, q2⟩ := ih g3 (by simpa using hn)
      exact ⟨s', src', by simp [blockRead, hf, g1, q1], by simpa using q2⟩
    cases hs : c.hasItems s
    · rcases h with ⟨rfl, m, hd⟩ | ⟨hne, m, o1, t1, o2, t2, o3, hd, hb, hf, rfl⟩
      · rw [c.drain_idle hs] at hd
        cases hd
        simp at hn
      · rw [c.drain_idle hs] at hd
        cases hd
        rcases fetch_rest hE hs hne hb hf with ⟨m', sf, g1, g2⟩ |
          ⟨s', src', o1', s1', o2', g1, g2, g3, g4, g5, rfl⟩
        · obtain ⟨s', q1, q2⟩ := take_drain g2 (n + 1)
          refine ⟨s', [], ?_, .inl ⟨rfl, m', by simpa using q2⟩⟩
          simp only [blockRead, g1, q1]
          simp
        · exact step g2 (.inr ⟨g3, m, o1', s1', o2', t2, o3, g4, g5, hf, by simp⟩) g1
    · refine step hs h ?_
      cases src <;> simp [fetch, hs]

/-- Block reads one after the other into arrays of the given lengths. -/
def blockReads (c : Conv σ α β) : List Nat → σ → List α → Option (List (List β))
  | [], _, _ => some []
  | n :: ns, s, src =>
    match c.blockRead n s src with
    | none => none
    | some (o, s1, r) => (blockReads c ns s1 r).map (o :: ·)

/-- C12, block reads, partial: if the converter can be flushed before its items are read, block reads
(without a question for `hasItems` between them) of any lengths give the parts of the same output.
Missing: the call of `hasItems` between them (`c12_blockRead_violated`), reading beyond the end. -/
theorem c12_blockRead_partial {I : σ → Prop} {A : α → Prop} (q : c.Quiet I A) (hE : FlushEarly c)
    {fuel : Nat} {s : σ} (hs : I s) (hi : c.hasItems s = false) {l : List α} (hl : ∀ a ∈ l, A a)
    (hne : l ≠ []) {out : List β} (h : c.run fuel s l = some out) {ns : List Nat}
    (hn : ns.sum ≤ out.length) :
    ∃ os, c.blockReads ns s l = some os ∧ os.flatten = out.take ns.sum ∧ os.map List.length = ns := by
  simp only [run] at h
  have hb := q.blockLoop (fuel := fuel) hs hi hl
  split at h
  · cases h
  · next o1 s1 hm =>
    split at h
    · cases h
    · next o2 s3 hf =>
      cases h
      rw [hm] at hb
      have R : Rest c s3 s l (o1 ++ o2) :=
        .inr ⟨hne, fuel, [], s, o1, s1, o2, c.drain_idle hi, hb, hf, by simp⟩
      generalize o1 ++ o2 = out at R hn
      clear hb hf hm hl hne hi hs
      induction ns generalizing s l out with
      | nil => exact ⟨[], rfl, by simp, rfl⟩
      | cons n ns ih =>
        simp only [List.sum_cons] at hn
        obtain ⟨s', src', g1, g2⟩ := blockRead_rest hE R (n := n) (by omega)
        obtain ⟨os, q1, q2, q3⟩ := ih (out.drop n) g2 (by simp; omega)
        refine ⟨out.take n :: os, by simp [blockReads, g1, q1], ?_, ?_⟩
        · simp only [List.flatten_cons, q2, List.sum_cons]
          rw [List.take_add]
        · simp only [List.map_cons, q3, List.length_take]
          congr 1
          omega

end LS.Conv

import Verif.FilterIter
/-!
# Properties of `FilterRead` and `FilterWrite` (C130)

A filter is described by a machine: what it gives for each item that comes in, and what it gives at the end.
-/

namespace LS.FilterIter

namespace Spec

variable {Q A B : Type}

/-- A machine: a state and an item give the next state and some items; a state gives a state and some items at the end. -/
structure Machine (Q A B : Type) where
  emit : Q → A → Q × List B
  fin : Q → Q × List B

/-- The state after the items. -/
def state (m : Machine Q A B) : Q → List A → Q
  | q, [] => q
  | q, x :: r => state m (m.emit q x).1 r

/-- What the machine gives for the items. -/
def given (m : Machine Q A B) : Q → List A → List B
  | _, [] => []
  | q, x :: r => (m.emit q x).2 ++ given m (m.emit q x).1 r

/-- What the machine gives for the items and the end. -/
def whole (m : Machine Q A B) (q : Q) (l : List A) : List B := given m q l ++ (m.fin (state m q l)).2

end Spec

variable {S A B Q : Type}

/-- The filter works as the machine says: its state stands for a state of the machine and for items that are ready.
A filter without items ready takes items, or is closed (iteratorFilter.h:105-106); a closed one gives nothing for what would follow. -/
structure Works (F : Flt S A B) (m : Spec.Machine Q A B) where
  inv : S → Prop
  q : S → Q
  pend : S → List B
  closed : Q → Prop
  has : ∀ s, inv s → (F.has s = true ↔ pend s ≠ [])
  need : ∀ s, inv s → pend s = [] → ¬ closed (q s) → F.need s = true
  shut : ∀ p l, closed p → Spec.whole m p l = []
  out : ∀ s b bs, inv s → pend s = b :: bs → ∃ s', F.out s = .ok (b, s') ∧ inv s' ∧ q s' = q s ∧ pend s' = bs
  inp : ∀ s a, inv s → F.need s = true → ∃ s', F.inp s a = .ok s' ∧ inv s' ∧ q s' = (m.emit (q s) a).1 ∧ pend s' = pend s ++ (m.emit (q s) a).2
  flush : ∀ s, inv s → F.need s = true ∨ closed (q s) → inv (F.flush s) ∧ q (F.flush s) = (m.fin (q s)).1 ∧ pend (F.flush s) = pend s ++ (m.fin (q s)).2
  fin : ∀ p, (m.fin (m.fin p).1).2 = []

section

variable {F : Flt S A B} {m : Spec.Machine Q A B} (h : Works F m)

theorem given_append (m : Spec.Machine Q A B) (q : Q) (l r : List A) : Spec.given m q (l ++ r) = Spec.given m q l ++ Spec.given m (Spec.state m q l) r := by
  induction l generalizing q with
  | nil => rfl
  | cons x t ih => simp only [List.cons_append, Spec.given, Spec.state, ih, List.append_assoc]

theorem state_append (m : Spec.Machine Q A B) (q : Q) (l r : List A) : Spec.state m q (l ++ r) = Spec.state m (Spec.state m q l) r := by
  induction l generalizing q with
  | nil => rfl
  | cons x t ih => simp only [List.cons_append, Spec.state, ih]

/-- What is still to come from the filter and the source. -/
def Works.tail (s : S) (src : List A) : List B := h.pend s ++ Spec.whole m (h.q s) src

/-- What is still to come from the iterator. -/
def Works.rest (r : Rd S A B) : List B :=
  match r.cell with
  | .ready b => b :: h.tail r.flt r.src
  | _ => h.tail r.flt r.src

theorem fetchLoop_works (s : S) (src : List A) (hi : h.inv s) :
    ∃ s' src', fetchLoop F s src = .ok (s', src') ∧ h.inv s' ∧ h.tail s' src' = h.tail s src ∧ (F.need s' = true → src' = []) := by
  induction src generalizing s with
  | nil => exact ⟨s, [], rfl, hi, rfl, fun _ => rfl⟩
  | cons x r ih =>
    by_cases hn : F.need s = true
    · obtain ⟨s1, e1, i1, q1, p1⟩ := h.inp s x hi hn
      obtain ⟨s2, src2, e2, i2, t2, n2⟩ := ih s1 i1
      refine ⟨s2, src2, ?_, i2, ?_, n2⟩
      · simp only [fetchLoop, hn, if_true, e1, e2]
      · rw [t2]
        simp only [Works.tail, Spec.whole, Spec.given, Spec.state, q1, p1, List.append_assoc]
    · refine ⟨s, x :: r, ?_, hi, rfl, fun c => absurd c hn⟩
      simp only [fetchLoop, if_neg hn]

/-- After `fill` nothing is lost, and the filter has items if there are any to come. -/
theorem fill_works (s : S) (src : List A) (hi : h.inv s) :
    ∃ s' src', fill F s src = .ok (s', src') ∧ h.inv s' ∧ h.tail s' src' = h.tail s src ∧ (h.pend s' = [] → h.tail s src = []) := by
  by_cases hh : F.has s = true
  · refine ⟨s, src, ?_, hi, rfl, fun c => absurd c ((h.has s hi).1 hh)⟩
    simp only [fill, hh, if_true]
  · obtain ⟨s1, src1, e1, i1, t1, n1⟩ := fetchLoop_works h s src hi
    by_cases hn : F.need s1 = true
    · obtain ⟨i2, q2, p2⟩ := h.flush s1 i1 (Or.inl hn)
      have hs := n1 hn
      subst hs
      have ht : h.tail (F.flush s1) [] = h.tail s src := by
        rw [← t1]
        simp only [Works.tail, Spec.whole, Spec.given, Spec.state, q2, p2, h.fin, List.append_nil, List.nil_append]
      refine ⟨F.flush s1, [], ?_, i2, ht, ?_⟩
      · simp only [fill, if_neg hh, blockFetch, e1, hn, if_true]
      · intro c
        rw [← ht]
        simp only [Works.tail, Spec.whole, Spec.given, Spec.state, c, q2, h.fin, List.append_nil]
    · refine ⟨s1, src1, ?_, i1, t1, fun c => ?_⟩
      · simp only [fill, if_neg hh, blockFetch, e1, if_neg hn]
      · by_cases hcl : h.closed (h.q s1)
        · rw [← t1, Works.tail, c, h.shut _ _ hcl]
          rfl
        · exact absurd (h.need s1 i1 c hcl) hn

theorem getBuffer_works (r : Rd S A B) (hi : h.inv r.flt) :
    (h.rest r = [] ∧ getBuffer F r = .error .noItems) ∨
    ∃ b bs r', h.rest r = b :: bs ∧ getBuffer F r = .ok (b, r') ∧ h.inv r'.flt ∧ r'.cell = .ready b ∧ h.tail r'.flt r'.src = bs := by
  obtain ⟨s, src, cell⟩ := r
  have key : ∀ c : Cell B, (∀ b, c ≠ .ready b) →
      (h.rest ⟨s, src, c⟩ = [] ∧ getBuffer F ⟨s, src, c⟩ = .error .noItems) ∨
      ∃ b bs r', h.rest ⟨s, src, c⟩ = b :: bs ∧ getBuffer F ⟨s, src, c⟩ = .ok (b, r') ∧ h.inv r'.flt ∧ r'.cell = .ready b ∧ h.tail r'.flt r'.src = bs := by
    intro c hc
    have hr : h.rest ⟨s, src, c⟩ = h.tail s src := by
      cases c with
      | empty => rfl
      | ready b => exact absurd rfl (hc b)
      | used b => rfl
    obtain ⟨s1, src1, e1, i1, t1, n1⟩ := fill_works h s src hi
    have hg : getBuffer F ⟨s, src, c⟩ = takeOne F s1 src1 := by
      cases c with
      | empty => simp only [getBuffer, e1]
      | ready b => exact absurd rfl (hc b)
      | used b => simp only [getBuffer, e1]
    cases hp : h.pend s1 with
    | nil =>
      refine Or.inl ⟨by rw [hr]; exact n1 hp, ?_⟩
      rw [hg, takeOne, if_neg]
      intro c'
      exact (h.has s1 i1).1 c' hp
    | cons b bs =>
      obtain ⟨s2, e2, i2, q2, p2⟩ := h.out s1 b bs i1 hp
      have hh : F.has s1 = true := (h.has s1 i1).2 (by rw [hp]; exact List.cons_ne_nil _ _)
      refine Or.inr ⟨b, bs ++ Spec.whole m (h.q s1) src1, ⟨s2, src1, .ready b⟩, ?_, ?_, i2, rfl, ?_⟩
      · rw [hr, ← t1]
        simp only [Works.tail, hp, List.cons_append]
      · rw [hg, takeOne, if_pos hh, e2]
      · simp only [Works.tail, p2, q2]
  cases cell with
  | empty => exact key .empty (fun b e => (by cases e))
  | used b => exact key (.used b) (fun b e => (by cases e))
  | ready b => exact Or.inr ⟨b, h.tail s src, ⟨s, src, .ready b⟩, rfl, rfl, hi, rfl, rfl⟩

/-- C130 — for every filter and every source, `getNext` gives the next item of those that are to come, and throws `IteratorNoMoreItems` when there is none. -/
theorem C130_getNext (r : Rd S A B) (hi : h.inv r.flt) :
    (h.rest r = [] ∧ getNext F r = .error .noItems) ∨
    ∃ b bs r', h.rest r = b :: bs ∧ getNext F r = .ok (b, r') ∧ h.inv r'.flt ∧ h.rest r' = bs := by
  rcases getBuffer_works h r hi with ⟨h1, h2⟩ | ⟨b, bs, r', h1, h2, h3, h4, h5⟩
  · exact Or.inl ⟨h1, by simp only [getNext, h2]⟩
  · exact Or.inr ⟨b, bs, { r' with cell := .used b }, h1, by simp only [getNext, h2], h3, h5⟩

/-- C130 — `peek` gives the item that `getNext` gives, and takes nothing away. -/
theorem C130_peek (r : Rd S A B) (hi : h.inv r.flt) :
    (h.rest r = [] ∧ peek F r = .error .noItems) ∨
    ∃ b bs r', h.rest r = b :: bs ∧ peek F r = .ok (b, r') ∧ h.inv r'.flt ∧ h.rest r' = b :: bs := by
  rcases getBuffer_works h r hi with ⟨h1, h2⟩ | ⟨b, bs, r', h1, h2, h3, h4, h5⟩
  · exact Or.inl ⟨h1, h2⟩
  · refine Or.inr ⟨b, bs, r', h1, h2, h3, ?_⟩
    simp only [Works.rest, h4, h5]

/-- At most `n` items read with `getNext`, up to the exception. -/
def reads (F : Flt S A B) : Nat → Rd S A B → List B × Option Fail
  | 0, _ => ([], none)
  | n + 1, r =>
    match getNext F r with
    | .error e => ([], some e)
    | .ok (b, r') => (b :: (reads F n r').1, (reads F n r').2)

theorem reads_works (n : Nat) (r : Rd S A B) (hi : h.inv r.flt) :
    reads F n r = ((h.rest r).take n, if (h.rest r).length < n then some .noItems else none) := by
  induction n generalizing r with
  | zero => simp only [reads, List.take_zero, Nat.not_lt_zero, if_false]
  | succ n ih =>
    rcases C130_getNext h r hi with ⟨h1, h2⟩ | ⟨b, bs, r', h1, h2, h3, h4⟩
    · simp only [reads, h2, h1, List.take_nil, List.length_nil, Nat.zero_lt_succ, if_true]
    · simp only [reads, h2, h1, ih r' h3, h4, List.take_succ_cons, List.length_cons, Nat.add_lt_add_iff_right]

/-- C130 — for every filter and every source: reading up to the exception gives what the machine gives for the source and its end, and then `IteratorNoMoreItems`. -/
theorem C130_read (s : S) (src : List A) (hi : h.inv s) (hp : h.pend s = []) (n : Nat) (hn : (Spec.whole m (h.q s) src).length < n) :
    reads F n (rd s src) = (Spec.whole m (h.q s) src, some .noItems) := by
  have hr : h.rest (rd s src) = Spec.whole m (h.q s) src := by
    simp only [rd, Works.rest, Works.tail, hp, List.nil_append]
  rw [reads_works h n (rd s src) hi, hr, if_pos hn, List.take_of_length_le (Nat.le_of_lt hn)]

/-- C130 — when `hasItems` says no, nothing is to come but what the filter gives at the end. -/
theorem C130_hasItems_no (r : Rd S A B) (hi : h.inv r.flt) (hh : hasItems F r = false) : h.rest r = (m.fin (h.q r.flt)).2 := by
  obtain ⟨s, src, cell⟩ := r
  simp only [hasItems, Bool.or_eq_false_iff, Bool.and_eq_false_iff] at hh
  obtain ⟨⟨h1, h2⟩, h3⟩ := hh
  have hp : h.pend s = [] := by
    cases e : h.pend s with
    | nil => rfl
    | cons b bs =>
      have := (h.has s hi).2 (by rw [e]; exact List.cons_ne_nil _ _)
      rw [this] at h2
      cases h2
  have hw : Spec.whole m (h.q s) src = (m.fin (h.q s)).2 := by
    by_cases hcl : h.closed (h.q s)
    · have := h.shut _ [] hcl
      simp only [Spec.whole, Spec.given, Spec.state, List.nil_append] at this
      rw [h.shut _ _ hcl, this]
    · rcases h3 with h3 | h3
      · cases src with
        | nil => rfl
        | cons x t => cases h3
      · rw [h.need s hi hp hcl] at h3
        cases h3
  cases cell with
  | ready b => cases h1
  | empty => simp only [Works.rest, Works.tail, hp, hw, List.nil_append]
  | used b => simp only [Works.rest, Works.tail, hp, hw, List.nil_append]

/-- C130, part — for a filter that gives something for every item and nothing at the end, `hasItems` tells whether an item is to come.
Missing: any other filter (`C130_hasItems_yes_violated`, `C130_hasItems_no_violated`). -/
theorem C130_hasItems_partial (he : ∀ q a, (m.emit q a).2 ≠ []) (hf : ∀ q, (m.fin q).2 = []) (r : Rd S A B) (hi : h.inv r.flt) :
    hasItems F r = true ↔ h.rest r ≠ [] := by
  constructor
  · intro hh
    obtain ⟨s, src, cell⟩ := r
    have ht : (F.has s = true ∨ src ≠ []) → h.tail s src ≠ [] := by
      intro c e
      simp only [Works.tail, Spec.whole, List.append_eq_nil_iff] at e
      rcases c with c | c
      · exact (h.has s hi).1 c e.1
      · cases src with
        | nil => exact c rfl
        | cons x t =>
          have e := e.2.1
          simp only [Spec.given, List.append_eq_nil_iff] at e
          exact he _ _ e.1
    simp only [hasItems, Bool.or_eq_true, Bool.and_eq_true] at hh
    cases cell with
    | ready b => exact List.cons_ne_nil _ _
    | empty =>
      apply ht
      rcases hh with (hh | hh) | hh
      · cases hh
      · exact Or.inl hh
      · exact Or.inr (by rintro rfl; cases hh.1)
    | used b =>
      apply ht
      rcases hh with (hh | hh) | hh
      · cases hh
      · exact Or.inl hh
      · exact Or.inr (by rintro rfl; cases hh.1)
  · intro hr
    cases hh : hasItems F r with
    | true => rfl
    | false => exact absurd (by rw [C130_hasItems_no h r hi hh, hf]) hr

theorem blockOutput_works (n : Nat) (s : S) (hi : h.inv s) (hp : h.pend s ≠ []) (hn : n ≠ 0) :
    ∃ s', blockOutput F s n = .ok ((h.pend s).take n, s') ∧ h.inv s' ∧ h.q s' = h.q s ∧ h.pend s' = (h.pend s).drop n := by
  induction n generalizing s with
  | zero => exact absurd rfl hn
  | succ n ih =>
    cases e : h.pend s with
    | nil => exact absurd e hp
    | cons b bs =>
      obtain ⟨s1, e1, i1, q1, p1⟩ := h.out s b bs hi e
      by_cases c : n ≠ 0 ∧ F.has s1 = true
      · obtain ⟨s2, e2, i2, q2, p2⟩ := ih s1 i1 ((h.has s1 i1).1 c.2) c.1
        refine ⟨s2, ?_, i2, by rw [q2, q1], ?_⟩
        · simp only [blockOutput, e1, if_pos c, e2, List.take_succ_cons, p1]
        · rw [p2, p1, List.drop_succ_cons]
      · refine ⟨s1, ?_, i1, q1, ?_⟩
        · have hb : bs.take n = [] := by
            by_cases hz : n = 0
            · rw [hz, List.take_zero]
            · have : ¬ F.has s1 = true := fun c' => c ⟨hz, c'⟩
              have : bs = [] := by
                cases bs with
                | nil => rfl
                | cons y ys => exact absurd ((h.has s1 i1).2 (by rw [p1]; exact List.cons_ne_nil _ _)) this
              rw [this, List.take_nil]
          simp only [blockOutput, e1, if_neg c, List.take_succ_cons, hb]
        · rw [p1, List.drop_succ_cons]
          by_cases hz : n = 0
          · rw [hz, List.drop_zero]
          · have : ¬ F.has s1 = true := fun c' => c ⟨hz, c'⟩
            cases bs with
            | nil => rw [List.drop_nil]
            | cons y ys => exact absurd ((h.has s1 i1).2 (by rw [p1]; exact List.cons_ne_nil _ _)) this

/-- The array after `l` was written at position `pos`. -/
theorem put_put (buf l l' : List B) (pos : Nat) (hp : pos + l.length + l'.length ≤ buf.length) :
    (buf.take pos ++ l ++ buf.drop (pos + l.length)).take (pos + l.length) ++ l' ++ (buf.take pos ++ l ++ buf.drop (pos + l.length)).drop (pos + l.length + l'.length) =
    buf.take pos ++ (l ++ l') ++ buf.drop (pos + (l ++ l').length) := by
  have h1 : (buf.take pos ++ l).length = pos + l.length := by
    rw [List.length_append, List.length_take, Nat.min_eq_left (by omega)]
  rw [show (buf.take pos ++ l ++ buf.drop (pos + l.length)).take (pos + l.length) = buf.take pos ++ l by rw [← h1, List.take_left]]
  rw [show (buf.take pos ++ l ++ buf.drop (pos + l.length)).drop (pos + l.length + l'.length) = buf.drop (pos + (l ++ l').length) by
    rw [← h1, ← List.drop_drop, List.drop_left, List.drop_drop, h1, List.length_append, Nat.add_assoc]]
  simp only [List.append_assoc]

theorem readLoop_works (all : Bool) (f : Nat) (s : S) (src : List A) (pos : Nat) (buf : List B) (hi : h.inv s) (hpos : pos < buf.length) (hf : buf.length - pos ≤ f)
    (ht : h.tail s src ≠ []) (hl : all = false → buf.length - pos ≤ (h.tail s src).length) :
    ∃ n s' src', readLoop F all f s src pos buf = .ok (pos + n, buf.take pos ++ (h.tail s src).take n ++ buf.drop (pos + n), s', src') ∧ h.inv s' ∧
      h.tail s' src' = (h.tail s src).drop n ∧ n ≤ (h.tail s src).length ∧ 0 < n ∧ pos + n ≤ buf.length ∧ (all = false → pos + n = buf.length) := by
  induction f generalizing s src pos buf with
  | zero => omega
  | succ f ih =>
    obtain ⟨s1, src1, e1, i1, t1, n1⟩ := fill_works h s src hi
    have hp1 : h.pend s1 ≠ [] := fun c => ht (n1 c)
    obtain ⟨s2, e2, i2, q2, p2⟩ := blockOutput_works h (buf.length - pos) s1 i1 hp1 (by omega)
    generalize hk : ((h.pend s1).take (buf.length - pos)).length = k at *
    have hk' : k = min (buf.length - pos) (h.pend s1).length := by rw [← hk, List.length_take]
    have hk0 : 0 < k := by
      have : 0 < (h.pend s1).length := by
        cases e : h.pend s1 with
        | nil => exact absurd e hp1
        | cons b bs => exact Nat.zero_lt_succ _
      omega
    have htk : (h.pend s1).take (buf.length - pos) = (h.tail s src).take k := by
      rw [← t1, Works.tail, hk', List.take_append_of_le_length (Nat.min_le_right _ _), ← List.take_take, List.take_length]
    have hkl : k ≤ (h.tail s src).length := by
      rw [← t1, Works.tail, List.length_append]
      omega
    have t2 : h.tail s2 src1 = (h.tail s src).drop k := by
      rw [← t1, Works.tail, Works.tail, q2, p2, List.drop_append_of_le_length (by omega)]
      congr 1
      by_cases hc : buf.length - pos ≤ (h.pend s1).length
      · rw [hk', Nat.min_eq_left hc]
      · rw [hk', Nat.min_eq_right (by omega), List.drop_eq_nil_of_le (by omega), List.drop_length]
    by_cases hc : all = false ∧ pos + k < buf.length
    · have hlen : (buf.take pos ++ (h.tail s src).take k ++ buf.drop (pos + k)).length = buf.length := by
        simp only [List.length_append, List.length_take, List.length_drop]
        omega
      obtain ⟨n, s', src', e3, i3, t3, l3, z3, b3, a3⟩ := ih s2 src1 (pos + k) (buf.take pos ++ (h.tail s src).take k ++ buf.drop (pos + k)) i2
        (by rw [hlen]; exact hc.2) (by rw [hlen]; omega)
        (by rw [t2]; intro c; have := hl hc.1; have := congrArg List.length c; rw [List.length_drop, List.length_nil] at this; omega)
        (by intro c; rw [hlen, t2, List.length_drop]; have := hl c; omega)
      rw [hlen] at b3 a3
      rw [t2, List.length_drop] at l3
      refine ⟨k + n, s', src', ?_, i3, ?_, by omega, by omega, by omega, fun c => by have := a3 c; omega⟩
      · simp only [readLoop, e1, e2, hk]
        rw [if_pos hc, htk, e3, t2]
        have hlk : ((h.tail s src).take k).length = k := by rw [List.length_take, Nat.min_eq_left hkl]
        have hln : (((h.tail s src).drop k).take n).length = n := by rw [List.length_take, List.length_drop, Nat.min_eq_left l3]
        have := put_put buf ((h.tail s src).take k) (((h.tail s src).drop k).take n) pos (by rw [hlk, hln]; omega)
        rw [List.length_append, hlk, hln] at this
        rw [this, ← Nat.add_assoc, List.take_add, Nat.add_assoc]
      · rw [t3, t2, List.drop_drop]
    · refine ⟨k, s2, src1, ?_, i2, t2, hkl, hk0, by omega, fun c => by have : ¬ pos + k < buf.length := fun c' => hc ⟨c, c'⟩; omega⟩
      simp only [readLoop, e1, e2, hk]
      rw [if_neg hc, htk]

/-- C130, part — `blockRead` that follows no `peek`, while enough items are to come: the number returned is that of the items written to the begin of the array,
they are the next items, and the rest of the array is unchanged; with `readAll = false` the array is filled.
Missing: after `peek`, with too few items to come, and `readAll = true` filling the array (violated below). -/
theorem C130_blockRead_partial (r : Rd S A B) (buf : List B) (all : Bool) (hi : h.inv r.flt) (hc : ready r = false) (hb : buf ≠ []) (ht : h.rest r ≠ [])
    (hl : all = false → buf.length ≤ (h.rest r).length) :
    ∃ n r', blockRead F r buf all = .ok (n, (h.rest r).take n ++ buf.drop n, r') ∧ h.inv r'.flt ∧ h.rest r' = (h.rest r).drop n ∧ n ≤ (h.rest r).length ∧
      0 < n ∧ n ≤ buf.length ∧ (all = false → n = buf.length) := by
  obtain ⟨s, src, cell⟩ := r
  have hz : buf.length ≠ 0 := by
    cases buf with
    | nil => exact absurd rfl hb
    | cons x t => exact Nat.succ_ne_zero _
  have key : h.tail s src ≠ [] → (all = false → buf.length ≤ (h.tail s src).length) → ∃ n s' src', readLoop F all buf.length s src 0 buf = .ok (n, (h.tail s src).take n ++ buf.drop n, s', src') ∧ h.inv s' ∧
      h.tail s' src' = (h.tail s src).drop n ∧ n ≤ (h.tail s src).length ∧ 0 < n ∧ n ≤ buf.length ∧ (all = false → n = buf.length) := by
    intro h1 h2
    obtain ⟨n, s', src', e, i, t, l, z, b, a⟩ := readLoop_works h all buf.length s src 0 buf hi (by omega) (by omega) h1 (fun c => by have := h2 c; omega)
    simp only [Nat.zero_add, List.take_zero, List.nil_append] at e b a
    exact ⟨n, s', src', e, i, t, l, z, b, a⟩
  cases cell with
  | ready b => cases hc
  | empty =>
    obtain ⟨n, s', src', e, i, t, l, z, b, a⟩ := key ht hl
    refine ⟨n, ⟨s', src', .empty⟩, ?_, i, t, l, z, b, a⟩
    simp only [blockRead, if_neg hz, e]
    rfl
  | used x =>
    obtain ⟨n, s', src', e, i, t, l, z, b, a⟩ := key ht hl
    refine ⟨n, ⟨s', src', .used x⟩, ?_, i, t, l, z, b, a⟩
    simp only [blockRead, if_neg hz, e]
    rfl

theorem feedLoop_works (f : Nat) (first : Bool) (w : Wr S B) (hi : h.inv w.flt) (hr : w.out.length + (h.pend w.flt).length ≤ w.cap) (hf : (h.pend w.flt).length < f) :
    ∃ s', feedLoop F f first w = .ok ⟨s', w.out ++ h.pend w.flt, w.cap⟩ ∧ h.inv s' ∧ h.q s' = h.q w.flt ∧ h.pend s' = [] := by
  induction f generalizing first w with
  | zero => omega
  | succ f ih =>
    obtain ⟨s, out, cap⟩ := w
    simp only at hi hr hf ⊢
    cases e : h.pend s with
    | nil =>
      refine ⟨s, ?_, hi, rfl, e⟩
      have : ¬ F.has s = true := fun c => (h.has s hi).1 c e
      simp only [feedLoop, List.append_nil]
      rw [if_neg (fun c => this c.1)]
    | cons b bs =>
      rw [e, List.length_cons] at hr hf
      obtain ⟨s1, e1, i1, q1, p1⟩ := h.out s b bs hi e
      have hh : F.has s = true := (h.has s hi).2 (by rw [e]; exact List.cons_ne_nil _ _)
      obtain ⟨s2, e2, i2, q2, p2⟩ := ih false ⟨s1, out ++ [b], cap⟩ i1 (by simp only [List.length_append, List.length_singleton, p1]; omega) (by simp only [p1]; omega)
      refine ⟨s2, ?_, i2, by rw [q2, q1], p2⟩
      simp only [feedLoop]
      rw [if_pos ⟨hh, Or.inr (by omega)⟩, e1]
      simp only
      rw [if_pos (by omega), e2]
      simp only [p1, List.append_assoc, List.singleton_append]

theorem feed_works (w : Wr S B) (hi : h.inv w.flt) (hr : w.out.length + (h.pend w.flt).length ≤ w.cap) :
    ∃ s', feed F w = .ok ⟨s', w.out ++ h.pend w.flt, w.cap⟩ ∧ h.inv s' ∧ h.q s' = h.q w.flt ∧ h.pend s' = [] :=
  feedLoop_works h (w.cap + 2) true w hi hr (by omega)

/-- What was written to the chained iterator or is ready for it. -/
def Works.sent (w : Wr S B) : List B := w.out ++ h.pend w.flt

theorem feedFull_works (w : Wr S B) (hi : h.inv w.flt) (hr : (h.sent w).length ≤ w.cap) :
    ∃ w', feedFull F w = .ok w' ∧ h.inv w'.flt ∧ h.q w'.flt = h.q w.flt ∧ h.sent w' = h.sent w ∧ w'.cap = w.cap ∧ (¬ h.closed (h.q w.flt) → F.need w'.flt = true) := by
  by_cases hn : F.need w.flt = true
  · exact ⟨w, by simp only [feedFull, hn, if_true], hi, rfl, rfl, rfl, fun _ => hn⟩
  · obtain ⟨s, e, i, q, p⟩ := feed_works h w hi (by rw [Works.sent, List.length_append] at hr; exact hr)
    refine ⟨⟨s, w.out ++ h.pend w.flt, w.cap⟩, by simp only [feedFull, if_neg hn, e], i, q, ?_, rfl, fun c => h.need s i p (by rw [q]; exact c)⟩
    simp only [Works.sent, p, List.append_nil]

/-- C130 — `write` to a filter that is not closed adds what the machine gives for the item to what was sent, when the chained iterator has room for it; after it the filter takes items or is closed. -/
theorem C130_write (w : Wr S B) (a : A) (hi : h.inv w.flt) (hc : ¬ h.closed (h.q w.flt)) (hr : (h.sent w).length + (m.emit (h.q w.flt) a).2.length ≤ w.cap) :
    ∃ w', write F w a = .ok w' ∧ h.inv w'.flt ∧ h.q w'.flt = (m.emit (h.q w.flt) a).1 ∧ h.sent w' = h.sent w ++ (m.emit (h.q w.flt) a).2 ∧ w'.cap = w.cap ∧
      (¬ h.closed (h.q w'.flt) → F.need w'.flt = true) := by
  obtain ⟨w1, e1, i1, q1, s1, c1, n1⟩ := feedFull_works h w hi (by omega)
  obtain ⟨s, e2, i2, q2, p2⟩ := h.inp w1.flt a i1 (n1 hc)
  have hs : h.sent { w1 with flt := s } = h.sent w ++ (m.emit (h.q w.flt) a).2 := by
    rw [← s1, ← q1]
    simp only [Works.sent, p2, List.append_assoc]
  obtain ⟨w3, e3, i3, q3, s3, c3, n3⟩ := feedFull_works h { w1 with flt := s } i2 (by rw [hs, List.length_append, c1]; exact hr)
  refine ⟨w3, ?_, i3, ?_, by rw [s3, hs], by rw [c3, c1], fun c => n3 (by rw [← q3]; exact c)⟩
  · simp only [write, e1, e2, e3]
  · rw [q3, ← q1, q2]

/-- The filter is not closed before the last of the items. -/
def Works.open (h : Works F m) : Q → List A → Prop
  | _, [] => True
  | p, x :: r => ¬ h.closed p ∧ Works.open h (m.emit p x).1 r

theorem open_append (p : Q) (l r : List A) (ho : h.open p (l ++ r)) : h.open p l ∧ h.open (Spec.state m p l) r := by
  induction l generalizing p with
  | nil => exact ⟨trivial, ho⟩
  | cons x t ih =>
    obtain ⟨h1, h2⟩ := ih _ ho.2
    exact ⟨⟨ho.1, h1⟩, h2⟩

theorem open_of (hc : ∀ p, ¬ h.closed p) (p : Q) (l : List A) : h.open p l := by
  induction l generalizing p with
  | nil => trivial
  | cons x t ih => exact ⟨hc p, ih _⟩

/-- All items are written one by one. -/
def writes (F : Flt S A B) : Wr S B → List A → Except Fail (Wr S B)
  | w, [] => .ok w
  | w, a :: r =>
    match write F w a with
    | .error e => .error e
    | .ok w' => writes F w' r

theorem writes_works (w : Wr S B) (l : List A) (hi : h.inv w.flt) (hn : ¬ h.closed (h.q w.flt) → F.need w.flt = true) (ho : h.open (h.q w.flt) l)
    (hr : (h.sent w).length + (Spec.given m (h.q w.flt) l).length ≤ w.cap) :
    ∃ w', writes F w l = .ok w' ∧ h.inv w'.flt ∧ h.q w'.flt = Spec.state m (h.q w.flt) l ∧ h.sent w' = h.sent w ++ Spec.given m (h.q w.flt) l ∧ w'.cap = w.cap ∧
      (¬ h.closed (h.q w'.flt) → F.need w'.flt = true) := by
  induction l generalizing w with
  | nil => exact ⟨w, rfl, hi, rfl, by simp only [Spec.given, List.append_nil], rfl, hn⟩
  | cons a r ih =>
    simp only [Spec.given, List.length_append] at hr
    obtain ⟨w1, e1, i1, q1, s1, c1, n1⟩ := C130_write h w a hi ho.1 (by omega)
    obtain ⟨w2, e2, i2, q2, s2, c2, n2⟩ := ih w1 i1 n1 (by rw [q1]; exact ho.2) (by rw [s1, q1, c1, List.length_append]; omega)
    refine ⟨w2, by simp only [writes, e1, e2], i2, ?_, ?_, by rw [c2, c1], n2⟩
    · rw [q2, q1]
      rfl
    · rw [s2, s1, q1, List.append_assoc]
      rfl

/-- C130 — `flush` writes all that was sent and what the machine gives at the end. -/
theorem C130_flush (w : Wr S B) (hi : h.inv w.flt) (hn : ¬ h.closed (h.q w.flt) → F.need w.flt = true) (hr : (h.sent w).length + (m.fin (h.q w.flt)).2.length ≤ w.cap) :
    ∃ w', flush F w = .ok w' ∧ h.inv w'.flt ∧ h.q w'.flt = (m.fin (h.q w.flt)).1 ∧ h.pend w'.flt = [] ∧ w'.out = h.sent w ++ (m.fin (h.q w.flt)).2 ∧ w'.cap = w.cap := by
  obtain ⟨i1, q1, p1⟩ := h.flush w.flt hi (by
    by_cases c : h.closed (h.q w.flt)
    · exact Or.inr c
    · exact Or.inl (hn c))
  obtain ⟨s, e, i, q, p⟩ := feed_works h { w with flt := F.flush w.flt } i1 (by
    simp only [p1, List.length_append]
    simp only [Works.sent, List.length_append] at hr
    omega)
  refine ⟨_, e, i, by rw [q, q1], p, ?_, rfl⟩
  simp only [p1, Works.sent, List.append_assoc]

/-- C130 — for every filter and every items up to where it is closed: what is written through the filter and flushed is what reading through it gives (`C130_read`), when the chained iterator has room for it. -/
theorem C130_write_all (s : S) (l : List A) (cap : Nat) (hi : h.inv s) (hp : h.pend s = []) (ho : h.open (h.q s) l) (hr : (Spec.whole m (h.q s) l).length ≤ cap) :
    ∃ w w', writes F ⟨s, [], cap⟩ l = .ok w ∧ flush F w = .ok w' ∧ w'.out = Spec.whole m (h.q s) l := by
  simp only [Spec.whole, List.length_append] at hr
  have hs : h.sent ⟨s, [], cap⟩ = [] := by simp only [Works.sent, hp, List.append_nil]
  obtain ⟨w1, e1, i1, q1, s1, c1, n1⟩ := writes_works h ⟨s, [], cap⟩ l hi (h.need s hi hp) ho (by rw [hs, List.length_nil]; simp only; omega)
  rw [hs, List.nil_append] at s1
  obtain ⟨w2, e2, i2, q2, p2, o2, c2⟩ := C130_flush h w1 i1 n1 (by rw [s1, q1, c1]; exact hr)
  refine ⟨w1, w2, e1, e2, ?_⟩
  rw [o2, s1, q1]
  rfl

theorem blockInput_works (s : S) (l : List A) (hi : h.inv s) (hn : F.need s = true) (hl : l ≠ []) :
    ∃ s' c, blockInput F s l = .ok (s', c) ∧ h.inv s' ∧ h.q s' = Spec.state m (h.q s) (l.take c) ∧ h.pend s' = h.pend s ++ Spec.given m (h.q s) (l.take c) ∧ 0 < c ∧ c ≤ l.length := by
  induction l generalizing s with
  | nil => exact absurd rfl hl
  | cons x r ih =>
    obtain ⟨s1, e1, i1, q1, p1⟩ := h.inp s x hi hn
    by_cases c : r ≠ [] ∧ F.need s1 = true
    · obtain ⟨s2, k, e2, i2, q2, p2, z2, l2⟩ := ih s1 i1 c.2 c.1
      refine ⟨s2, k + 1, ?_, i2, ?_, ?_, by omega, by rw [List.length_cons]; omega⟩
      · simp only [blockInput, e1, if_pos c, e2]
      · rw [q2, q1]
        rfl
      · rw [p2, p1, q1, List.append_assoc]
        rfl
    · refine ⟨s1, 1, ?_, i1, ?_, ?_, by omega, by rw [List.length_cons]; omega⟩
      · simp only [blockInput, e1, if_neg c]
      · rw [q1]
        rfl
      · rw [p1]
        simp only [List.take_succ_cons, List.take_zero, Spec.given, List.append_nil]

theorem given_take_le (q : Q) (l : List A) (n : Nat) : (Spec.given m q (l.take n)).length ≤ (Spec.given m q l).length := by
  have := given_append m q (l.take n) (l.drop n)
  rw [List.take_append_drop] at this
  rw [this, List.length_append]
  omega

theorem writeLoop_works (more : Bool) (f : Nat) (w : Wr S B) (buf : List A) (pos : Nat) (hi : h.inv w.flt) (hpos : pos < buf.length) (hf : buf.length - pos ≤ f)
    (ho : h.open (h.q w.flt) (buf.drop pos)) (hr : (h.sent w).length + (Spec.given m (h.q w.flt) (buf.drop pos)).length ≤ w.cap) :
    ∃ n w', writeLoop F more f w buf pos = .ok (pos + n, w') ∧ h.inv w'.flt ∧ h.q w'.flt = Spec.state m (h.q w.flt) ((buf.drop pos).take n) ∧
      h.sent w' = h.sent w ++ Spec.given m (h.q w.flt) ((buf.drop pos).take n) ∧ w'.cap = w.cap ∧ 0 < n ∧ pos + n ≤ buf.length ∧ (more = true → pos + n = buf.length) := by
  induction f generalizing w pos with
  | zero => omega
  | succ f ih =>
    obtain ⟨w1, e1, i1, q1, s1, c1, n1⟩ := feedFull_works h w hi (by omega)
    have hne : buf.drop pos ≠ [] := by
      intro e
      have := congrArg List.length e
      rw [List.length_drop, List.length_nil] at this
      omega
    have hcl : ¬ h.closed (h.q w.flt) := by
      cases e : buf.drop pos with
      | nil => exact absurd e hne
      | cons x r =>
        rw [e] at ho
        exact ho.1
    obtain ⟨s, c, e2, i2, q2, p2, z2, l2⟩ := blockInput_works h w1.flt (buf.drop pos) i1 (n1 hcl) hne
    rw [List.length_drop] at l2
    have hs : h.sent { w1 with flt := s } = h.sent w ++ Spec.given m (h.q w.flt) ((buf.drop pos).take c) := by
      rw [← s1, ← q1]
      simp only [Works.sent, p2, List.append_assoc]
    have hq : h.q s = Spec.state m (h.q w.flt) ((buf.drop pos).take c) := by rw [q2, q1]
    by_cases hc : more = true ∧ pos + c < buf.length
    · have hd : buf.drop pos = (buf.drop pos).take c ++ buf.drop (pos + c) := by
        rw [← List.drop_drop, List.take_append_drop]
      have hg := given_append m (h.q w.flt) ((buf.drop pos).take c) (buf.drop (pos + c))
      rw [← hd] at hg
      obtain ⟨n, w3, e3, i3, q3, s3, c3, z3, b3, a3⟩ := ih { w1 with flt := s } (pos + c) i2 hc.2 (by omega) (by
        rw [hd] at ho
        simp only [hq]
        exact (open_append h _ _ _ ho).2) (by
        rw [hs]
        rw [hg, List.length_append] at hr
        simp only [hq, c1, List.length_append]
        omega)
      refine ⟨c + n, w3, ?_, i3, ?_, ?_, by rw [c3, c1], by omega, by omega, fun c' => by have := a3 c'; omega⟩
      · simp only [writeLoop, e1, e2]
        rw [if_pos hc, e3, Nat.add_assoc]
      · rw [q3, List.take_add, state_append, List.drop_drop]
        simp only [hq]
      · rw [s3, hs, List.take_add, given_append, List.drop_drop, List.append_assoc]
        simp only [hq]
    · refine ⟨c, { w1 with flt := s }, ?_, i2, hq, hs, c1, z2, by omega, fun c' => by have : ¬ pos + c < buf.length := fun c'' => hc ⟨c', c''⟩; omega⟩
      simp only [writeLoop, e1, e2]
      rw [if_neg hc]

theorem blockWriteIf_works (more : Bool) (w : Wr S B) (buf : List A) (hi : h.inv w.flt) (hb : buf ≠ []) (ho : h.open (h.q w.flt) buf)
    (hr : (h.sent w).length + (Spec.given m (h.q w.flt) buf).length ≤ w.cap) :
    ∃ n w', blockWriteIf F more w buf = .ok (n, w') ∧ h.inv w'.flt ∧ h.q w'.flt = Spec.state m (h.q w.flt) (buf.take n) ∧
      h.sent w' = h.sent w ++ Spec.given m (h.q w.flt) (buf.take n) ∧ w'.cap = w.cap ∧ (¬ h.closed (h.q w'.flt) → F.need w'.flt = true) ∧ 0 < n ∧ n ≤ buf.length ∧ (more = true → n = buf.length) := by
  have hz : buf.length ≠ 0 := by
    cases buf with
    | nil => exact absurd rfl hb
    | cons x t => exact Nat.succ_ne_zero _
  obtain ⟨n, w1, e1, i1, q1, s1, c1, z1, b1, a1⟩ := writeLoop_works h more buf.length w buf 0 hi (by omega) (by omega) (by rw [List.drop_zero]; exact ho) (by rw [List.drop_zero]; exact hr)
  simp only [Nat.zero_add, List.drop_zero] at e1 q1 s1 b1 a1
  have := given_take_le (m := m) (h.q w.flt) buf n
  obtain ⟨w2, e2, i2, q2, s2, c2, n2⟩ := feedFull_works h w1 i1 (by rw [s1, c1, List.length_append]; omega)
  refine ⟨n, w2, ?_, i2, by rw [q2, q1], by rw [s2, s1], by rw [c2, c1], fun c => n2 (by rw [← q2]; exact c), z1, b1, a1⟩
  simp only [blockWriteIf, if_neg hz, e1, e2]

/-- C130 — `blockWrite` of const items with `writeAll` does what writing all the items one by one does; without `writeAll` it does so for as many items, at least one, as it returns. -/
theorem C130_blockWrite_const (w : Wr S B) (buf : List A) (all : Bool) (hi : h.inv w.flt) (hb : buf ≠ []) (ho : h.open (h.q w.flt) buf)
    (hr : (h.sent w).length + (Spec.given m (h.q w.flt) buf).length ≤ w.cap) :
    ∃ n w', blockWriteC F w buf all = .ok (n, w') ∧ h.inv w'.flt ∧ h.q w'.flt = Spec.state m (h.q w.flt) (buf.take n) ∧
      h.sent w' = h.sent w ++ Spec.given m (h.q w.flt) (buf.take n) ∧ (¬ h.closed (h.q w'.flt) → F.need w'.flt = true) ∧ 0 < n ∧ n ≤ buf.length ∧ (all = true → n = buf.length) := by
  obtain ⟨n, w', e, i, q, s, c, r⟩ := blockWriteIf_works h all w buf hi hb ho hr
  exact ⟨n, w', e, i, q, s, r⟩

/-- C130, part — `blockWrite` of mutable items: as many items as it returns, at least one, are written in their order.  Missing: all of them when `writeAll` is set (`C130_blockWrite_violated`). -/
theorem C130_blockWrite_partial (w : Wr S B) (buf : List A) (all : Bool) (hi : h.inv w.flt) (hb : buf ≠ []) (ho : h.open (h.q w.flt) buf)
    (hr : (h.sent w).length + (Spec.given m (h.q w.flt) buf).length ≤ w.cap) :
    ∃ n w', blockWriteM F w buf all = .ok (n, w') ∧ h.inv w'.flt ∧ h.q w'.flt = Spec.state m (h.q w.flt) (buf.take n) ∧
      h.sent w' = h.sent w ++ Spec.given m (h.q w.flt) (buf.take n) ∧ (¬ h.closed (h.q w'.flt) → F.need w'.flt = true) ∧ 0 < n ∧ n ≤ buf.length ∧ (all = false → n = buf.length) := by
  obtain ⟨n, w', e, i, q, s, c, n', z, b, a⟩ := blockWriteIf_works h (!all) w buf hi hb ho hr
  exact ⟨n, w', e, i, q, s, n', z, b, fun c => a (by rw [c]; rfl)⟩

end

/-! ## Filters -/

/-- The machine that gives each item. -/
def idMachine (A : Type) : Spec.Machine Unit A A := ⟨fun _ a => ((), [a]), fun _ => ((), [])⟩

theorem whole_id (l : List A) : Spec.whole (idMachine A) () l = l := by
  have : ∀ l : List A, Spec.given (idMachine A) () l = l := by
    intro l
    induction l with
    | nil => rfl
    | cons x r ih =>
      show [x] ++ Spec.given (idMachine A) () r = x :: r
      rw [ih]
      rfl
  rw [Spec.whole, this]
  exact List.append_nil l

/-- `NullFilter` works as the machine that gives each item. -/
def nullWorks (A : Type) : Works (null A) (idMachine A) where
  inv := fun _ => True
  q := fun _ => ()
  pend := fun s => s.toList
  closed := fun _ => False
  shut := fun _ _ c => c.elim
  has := by
    intro s _
    cases s <;> simp [null]
  need := by
    intro s _ h _
    cases s with
    | none => rfl
    | some x => cases h
  out := by
    intro s b bs _ h
    cases s with
    | none => cases h
    | some x =>
      injection h with h1 h2
      subst h1
      subst h2
      exact ⟨none, rfl, trivial, rfl, rfl⟩
  inp := by
    intro s a _ h
    cases s with
    | none => exact ⟨some a, rfl, trivial, rfl, rfl⟩
    | some x => cases h
  flush := by
    intro s _ _
    exact ⟨trivial, rfl, (List.append_nil _).symm⟩
  fin := fun _ => rfl

/-- C130 — reading through `NullFilter` gives the source. -/
theorem C130_null (l : List A) : reads (null A) (l.length + 1) (rd none l) = (l, some .noItems) := by
  have := C130_read (nullWorks A) none l trivial rfl (l.length + 1) (by
    show (Spec.whole (idMachine A) () l).length < _
    rw [whole_id]
    exact Nat.lt_succ_self _)
  rw [this]
  show (Spec.whole (idMachine A) () l, _) = _
  rw [whole_id]

/-- The machine that gives two digits of each byte. -/
def hexMachine : Spec.Machine Unit Nat Nat := ⟨fun _ a => ((), [a / 16, a % 16]), fun _ => ((), [])⟩

/-- `HexEncoder` works as the machine that gives two digits of each byte. -/
def hexWorks : Works hex hexMachine where
  inv := fun s => s.idx ≤ 2
  q := fun _ => ()
  pend := fun s => [s.b0, s.b1].drop s.idx
  closed := fun _ => False
  shut := fun _ _ c => c.elim
  has := by
    intro s h
    obtain ⟨a, b, i⟩ := s
    simp only at h
    rcases (show i = 0 ∨ i = 1 ∨ i = 2 by omega) with rfl | rfl | rfl <;> simp [hex]
  need := by
    intro s h e _
    obtain ⟨a, b, i⟩ := s
    simp only at h
    rcases (show i = 0 ∨ i = 1 ∨ i = 2 by omega) with rfl | rfl | rfl
    · cases e
    · cases e
    · rfl
  out := by
    intro s x xs h e
    obtain ⟨a, b, i⟩ := s
    simp only at h
    rcases (show i = 0 ∨ i = 1 ∨ i = 2 by omega) with rfl | rfl | rfl
    · injection e with e1 e2
      subst e1
      subst e2
      exact ⟨⟨a, b, 1⟩, rfl, Nat.le_succ 1, rfl, rfl⟩
    · injection e with e1 e2
      subst e1
      subst e2
      exact ⟨⟨a, b, 2⟩, rfl, Nat.le_refl 2, rfl, rfl⟩
    · cases e
  inp := by
    intro s a h e
    obtain ⟨b0, b1, i⟩ := s
    have : i = 2 := by simpa [hex] using e
    subst this
    exact ⟨⟨a / 16, a % 16, 0⟩, rfl, Nat.zero_le 2, rfl, rfl⟩
  flush := by
    intro s h _
    exact ⟨h, rfl, (List.append_nil _).symm⟩
  fin := fun _ => rfl

theorem given_conv {C : Type} (m : Spec.Machine Q A B) (f : B → C) (q : Q) (l : List A) :
    Spec.given (⟨fun q a => ((m.emit q a).1, (m.emit q a).2.map f), fun q => (q, [])⟩ : Spec.Machine Q A C) q l = (Spec.given m q l).map f := by
  induction l generalizing q with
  | nil => rfl
  | cons x r ih => simp only [Spec.given, ih, List.map_append]

/-- `TypeConversionFilter` over a filter, without what that gives at the end. -/
def convWorks {C : Type} {F : Flt S A B} {m : Spec.Machine Q A B} (h : Works F m) (f : B → C) :
    Works (conv F f) ⟨fun q a => ((m.emit q a).1, (m.emit q a).2.map f), fun q => (q, [])⟩ where
  inv := h.inv
  q := h.q
  pend := fun s => (h.pend s).map f
  closed := h.closed
  shut := by
    intro p l c
    have := h.shut p l c
    rw [Spec.whole, List.append_eq_nil_iff] at this
    rw [Spec.whole, given_conv, this.1]
    rfl
  has := by
    intro s hi
    rw [show (conv F f).has s = F.has s from rfl, h.has s hi, Ne, Ne, List.map_eq_nil_iff]
  need := by
    intro s hi e c
    exact h.need s hi (List.map_eq_nil_iff.1 e) c
  out := by
    intro s b bs hi e
    obtain ⟨x, xs, e1, e2, e3⟩ := List.map_eq_cons_iff.1 e
    obtain ⟨s', o, i, q, p⟩ := h.out s x xs hi e1
    refine ⟨s', ?_, i, q, by rw [p, e3]⟩
    simp only [conv, o, e2]
  inp := by
    intro s a hi e
    obtain ⟨s', o, i, q, p⟩ := h.inp s a hi e
    exact ⟨s', o, i, q, by rw [p, List.map_append]⟩
  flush := by
    intro s hi _
    exact ⟨hi, rfl, (List.append_nil _).symm⟩
  fin := fun _ => rfl

/-- C130, part — `TypeConversionFilter` gives the converted items of the filter under it, without those that the filter under it gives at the end.
Missing: the items at the end (`C130_conv_violated`). -/
theorem C130_conv_partial {C : Type} {F : Flt S A B} {m : Spec.Machine Q A B} (h : Works F m) (f : B → C) (s : S) (src : List A) (hi : h.inv s) (hp : h.pend s = [])
    (n : Nat) (hn : (Spec.given m (h.q s) src).length < n) :
    reads (conv F f) n (rd s src) = ((Spec.given m (h.q s) src).map f, some .noItems) := by
  have hw : Spec.whole (⟨fun q a => ((m.emit q a).1, (m.emit q a).2.map f), fun q => (q, [])⟩ : Spec.Machine Q A C) (h.q s) src = (Spec.given m (h.q s) src).map f := by
    rw [Spec.whole, given_conv]
    exact List.append_nil _
  have := C130_read (convWorks h f) s src hi (by show (h.pend s).map f = []; rw [hp]; rfl) n (by
    show (Spec.whole _ (h.q s) src).length < n
    rw [hw, List.length_map]
    exact hn)
  rw [this]
  show (Spec.whole _ (h.q s) src, _) = _
  rw [hw]

/-- A filter that gives each item, and a zero at the end (`flush`).  It follows the rules of iteratorFilter.h:44-150; it is no filter of the library. -/
def zero : Flt (List Nat × Bool) Nat Nat where
  need := fun s => s.1.isEmpty
  inp := fun s x => .ok (s.1 ++ [x], s.2)
  has := fun s => !s.1.isEmpty
  out := fun s => match s.1 with
    | [] => .error .noItems
    | b :: bs => .ok (b, (bs, s.2))
  flush := fun s => if s.2 = true then s else (s.1 ++ [0], true)

/-- The machine of that filter. -/
def zeroMachine : Spec.Machine Bool Nat Nat := ⟨fun q a => (q, [a]), fun q => if q = true then (q, []) else (true, [0])⟩

/-- The filter works as its machine. -/
def zeroWorks : Works zero zeroMachine where
  inv := fun _ => True
  q := fun s => s.2
  pend := fun s => s.1
  closed := fun _ => False
  shut := fun _ _ c => c.elim
  has := by
    intro s _
    obtain ⟨l, b⟩ := s
    cases l <;> simp [zero]
  need := by
    intro s _ e _
    show s.1.isEmpty = true
    rw [show s.1 = [] from e]
    rfl
  out := by
    intro s b bs _ e
    obtain ⟨l, c⟩ := s
    simp only at e
    subst e
    exact ⟨(bs, c), rfl, trivial, rfl, rfl⟩
  inp := by
    intro s a _ _
    exact ⟨(s.1 ++ [a], s.2), rfl, trivial, rfl, rfl⟩
  flush := by
    intro s _ _
    obtain ⟨l, c⟩ := s
    cases c
    · exact ⟨trivial, rfl, rfl⟩
    · exact ⟨trivial, rfl, (List.append_nil _).symm⟩
  fin := by
    intro p
    cases p <;> rfl

/-- Items read while `hasItems` says that there are some. -/
def readsWhile (F : Flt S A B) : Nat → Rd S A B → List B × Option Fail
  | 0, _ => ([], none)
  | n + 1, r =>
    if hasItems F r = true then
      match getNext F r with
      | .error e => ([], some e)
      | .ok (b, r') => (b :: (readsWhile F n r').1, (readsWhile F n r').2)
    else ([], none)

/-- C130 — violated (iteratorFilter.tcc:49-52): a reader that asks `hasItems` does not get what the filter gives at the end; writing through the filter gives it. -/
theorem C130_hasItems_no_violated :
    readsWhile zero 9 (rd ([], false) [5]) = ([5], none) ∧ reads zero 9 (rd ([], false) [5]) = ([5, 0], some .noItems) ∧ Spec.whole zeroMachine false [5] = [5, 0] := by
  refine ⟨rfl, rfl, rfl⟩

/-- C130 — violated (iteratorFilter.h:361-383): `TypeConversionFilter` does not hand `flush` on to the filter under it, so what that gives at the end is lost, in reading and in writing. -/
theorem C130_conv_violated :
    reads (conv zero fun x => x + 100) 9 (rd ([], false) [5]) = ([105], some .noItems) ∧ (Spec.whole zeroMachine false [5]).map (fun x => x + 100) = [105, 100] ∧
    (∃ w w', writes (conv zero fun x => x + 100) ⟨([], false), [], 9⟩ [5] = .ok w ∧ flush (conv zero fun x => x + 100) w = .ok w' ∧ w'.out = [105]) := by
  refine ⟨rfl, rfl, ⟨([], false), [105], 9⟩, ⟨([], false), [105], 9⟩, rfl, rfl, rfl⟩

/-- C130 — violated (iteratorFilter.tcc:131-134): after `peek`, `blockRead` loses the item; into an array of one item it writes behind the array. -/
theorem C130_blockRead_peek_violated :
    (∃ r r', peek (null Nat) (rd none [7, 8, 9]) = .ok (7, r) ∧ blockRead (null Nat) r [0, 0, 0] false = .ok (3, [0, 8, 9], r') ∧
      blockRead (null Nat) r [0] true = .error .ub) := by
  refine ⟨⟨none, [8, 9], .ready 7⟩, ⟨none, [], .used 7⟩, rfl, rfl, rfl⟩

/-- C130 — violated (iteratorFilter.tcc:131-134): for every filter and source, `blockRead` into an array of one item after `peek` writes behind the array. -/
theorem C130_blockRead_one_violated (F : Flt S A B) (s : S) (src : List A) (b x : B) (all : Bool) : blockRead F ⟨s, src, .ready b⟩ [x] all = .error .ub := rfl

/-- C130 — violated (iteratorFilter.tcc:143): with `readAll` the array is not filled though there are items for it; without it `blockRead` does not
stop at the end of the source but asks the filter for an item that it does not have (`NullFilter`: null pointer). -/
theorem C130_blockRead_all_violated :
    (∃ r, blockRead (null Nat) (rd none [7, 8, 9]) [0, 0, 0] true = .ok (1, [7, 0, 0], r)) ∧ blockRead (null Nat) (rd none [7]) [0, 0] false = .error .ub ∧
    blockRead (null Nat) (rd none []) [0] true = .error .ub := by
  refine ⟨⟨⟨none, [8, 9], .empty⟩, rfl⟩, rfl, rfl⟩

/-- C130 — violated (iteratorFilter.tcc:159): with `writeAll`, `blockWrite` of mutable items writes one item of three; of const items it writes all. -/
theorem C130_blockWrite_violated :
    (∃ w, blockWriteM (null Nat) ⟨none, [], 9⟩ [7, 8, 9] true = .ok (1, w) ∧ w.out = [7]) ∧ (∃ w, blockWriteC (null Nat) ⟨none, [], 9⟩ [7, 8, 9] true = .ok (3, w) ∧ w.out = [7, 8, 9]) := by
  refine ⟨⟨⟨none, [7], 9⟩, rfl, rfl⟩, ⟨⟨none, [7, 8, 9], 9⟩, rfl, rfl⟩⟩

/-- C130 — violated (iteratorFilter.h:425): after `peek` one item less remains for `getRemain` than is to come. -/
theorem C130_getRemain_violated : ∃ r, peek (null Nat) (rd none [7]) = .ok (7, r) ∧ getRemain r = 0 ∧ (nullWorks Nat).rest r = [7] := by
  refine ⟨⟨none, [], .ready 7⟩, rfl, rfl, rfl⟩

/-- C130 — violated (iteratorFilter.h:204-205): an item for which the chained iterator has no room was taken from the filter before (its state is then `none`) and is lost: a `flush` after that has nothing to write and succeeds. -/
theorem C130_room_violated : write (null Nat) ⟨none, [], 0⟩ 7 = .error .noSpace ∧ (null Nat).out (some 7) = .ok (7, none) ∧ flush (null Nat) ⟨none, [], 0⟩ = .ok ⟨none, [], 0⟩ := by
  refine ⟨rfl, rfl, rfl⟩

/-! ## Cases -/

example : reads hex 9 (rd ⟨0, 0, 2⟩ [255, 16]) = ([15, 15, 1, 0], some .noItems) := rfl
example : reads hex 5 (rd ⟨0, 0, 2⟩ [255, 16]) = (Spec.whole hexMachine () [255, 16], some .noItems) := C130_read hexWorks ⟨0, 0, 2⟩ [255, 16] (Nat.le_refl 2) rfl 5 (by decide)
example : ∃ w w', writes hex ⟨⟨0, 0, 2⟩, [], 4⟩ [255, 16] = .ok w ∧ flush hex w = .ok w' ∧ w'.out = [15, 15, 1, 0] :=
  C130_write_all hexWorks ⟨0, 0, 2⟩ [255, 16] 4 (Nat.le_refl 2) rfl (open_of hexWorks (fun _ c => c) _ _) (by decide)
example : ∃ r r', blockRead hex (rd ⟨0, 0, 2⟩ [255, 16]) [9, 9, 9] false = .ok (3, [15, 15, 1], r) ∧ getNext hex r = .ok (0, r') := ⟨⟨⟨1, 0, 1⟩, [], .empty⟩, ⟨⟨1, 0, 2⟩, [], .used 0⟩, rfl, rfl⟩
example : ∃ w, blockWriteM hex ⟨⟨0, 0, 2⟩, [], 9⟩ [255, 16] true = .ok (1, w) ∧ w.out = [15, 15] := ⟨⟨⟨15, 15, 2⟩, [15, 15], 9⟩, rfl, rfl⟩
example : hasItems hex (rd ⟨0, 0, 2⟩ [255] : Rd Hex Nat Nat) = true ∧ hasItems hex (rd ⟨0, 0, 2⟩ [] : Rd Hex Nat Nat) = false := ⟨rfl, rfl⟩
example : ∃ r r', peek hex (rd ⟨0, 0, 2⟩ [255]) = .ok (15, r) ∧ getNext hex r = .ok (15, r') ∧ reads hex 9 r' = ([15], some .noItems) :=
  ⟨⟨⟨15, 15, 1⟩, [], .ready 15⟩, ⟨⟨15, 15, 1⟩, [], .used 15⟩, rfl, rfl, rfl⟩

end LS.FilterIter

import Verif.SortFilter
import Verif.HeapProps
/-
C109: the sorting filter.
-/
namespace LS.SortFilter
open Heap (Heap StrictWeak)
variable {α : Type}

/-! ## Specification: a bag of items -/

/-- Calls with their results. -/
inductive Ev (α : Type) where
  | inp (x : α)
  | full (x : α)
  | out (v : α)
  | none

/-- `Bag less m es m'`: from the bag `m` (up to order) the calls `es` are right and lead to `m'`:
an item given to the filter is added, an item taken is one that no other item of the bag follows
in the order, taking from nothing is refused. -/
inductive Bag (less : α → α → Bool) : List α → List (Ev α) → List α → Prop
  | nil {m m' : List α} : m.Perm m' → Bag less m [] m'
  | inp {m m' : List α} {x : α} {es : List (Ev α)} : Bag less (x :: m) es m' → Bag less m (.inp x :: es) m'
  | full {m m' : List α} {x : α} {es : List (Ev α)} : Bag less m es m' → Bag less m (.full x :: es) m'
  | out {m m' r : List α} {v : α} {es : List (Ev α)} : m.Perm (v :: r) → (∀ u, u ∈ m → less v u = false) → Bag less r es m' →
      Bag less m (.out v :: es) m'
  | none {m' : List α} {es : List (Ev α)} : Bag less [] es m' → Bag less [] (.none :: es) m'

/-! ## Runs of the model -/

/-- Calls: `some x` is `input(x)`, `none` is `output()`. -/
inductive Run (less : α → α → Bool) (cap : Option Nat) : Flt α → List (Option α) → List (Ev α) → Flt α → Prop
  | nil (s : Flt α) : Run less cap s [] [] s
  | inp {s s' t : Flt α} {x : α} {cs : List (Option α)} {es : List (Ev α)} :
      input less cap s x = .ok s' → Run less cap s' cs es t → Run less cap s (some x :: cs) (.inp x :: es) t
  | full {s t : Flt α} {x : α} {cs : List (Option α)} {es : List (Ev α)} :
      input less cap s x = .thrown → Run less cap s cs es t → Run less cap s (some x :: cs) (.full x :: es) t
  | out {s s' t : Flt α} {v : α} {cs : List (Option α)} {es : List (Ev α)} :
      output less s = .ok (v, s') → Run less cap s' cs es t → Run less cap s (none :: cs) (.out v :: es) t
  | none {s t : Flt α} {cs : List (Option α)} {es : List (Ev α)} :
      output less s = .thrown → Run less cap s cs es t → Run less cap s (none :: cs) (.none :: es) t

/-- Items in the filter. -/
def items (s : Flt α) : List α := s.extra.toList ++ s.heap.cont

/-- Invariant: the buffer is a heap; an extra item is there only when the buffer is full. -/
structure Inv (less : α → α → Bool) (cap : Option Nat) (s : Flt α) : Prop where
  good : Heap.PGood less s.heap
  room : ∀ c, cap = some c → 0 < c ∧ s.heap.cont.length ≤ c
  full : s.extra.isSome = true → cap = some s.heap.cont.length

variable {less : α → α → Bool} {cap : Option Nat}

theorem add_ok (hs : StrictWeak less) {h : Heap α} (g : Heap.PGood less h) (x : α) (hc : cap ≠ some h.cont.length) :
    ∃ h', add less cap h x = .ok h' ∧ Heap.PGood less h' ∧ h'.cont.Perm (x :: h.cont) := by
  obtain ⟨q, e1, e2, e3⟩ := Heap.pq_push hs g x
  unfold Heap.PQ.push at e1
  unfold add
  rw [if_neg hc]
  cases e : Heap.push less { h with cont := h.cont ++ [x] } with
  | none => rw [e] at e1; cases e1
  | some p =>
    rw [e] at e1
    simp only [Option.map_some, Option.some.injEq] at e1
    refine ⟨p.2, rfl, e1 ▸ e2, ?_⟩
    rw [e1]
    exact e3.trans List.perm_append_comm

theorem input2_ok (hs : StrictWeak less) {h : Heap α} (g : Heap.PGood less h) (x : α)
    (hr : ∀ c, cap = some c → 0 < c ∧ h.cont.length ≤ c) :
    ∃ s', input2 less cap h x = .ok s' ∧ Inv less cap s' ∧ (items s').Perm (x :: h.cont) := by
  unfold input2
  by_cases hc : cap = some h.cont.length
  · rw [add, if_pos hc]
    exact ⟨_, rfl, ⟨g, hr, fun _ => hc⟩, List.Perm.refl _⟩
  · obtain ⟨h', e1, e2, e3⟩ := add_ok hs g x hc
    rw [e1]
    refine ⟨_, rfl, ⟨e2, ?_, fun q => by cases q⟩, e3⟩
    intro c ec
    have l := e3.length_eq
    have := hr c ec
    simp only [List.length_cons] at l
    have : h.cont.length ≠ c := fun e => hc (by rw [e]; exact ec)
    show 0 < c ∧ h'.cont.length ≤ c
    omega

theorem input_ok (hs : StrictWeak less) {s : Flt α} (i : Inv less cap s) (x : α) :
    (input less cap s x = .thrown ∧ s.extra.isSome = true) ∨
    ∃ s', input less cap s x = .ok s' ∧ s.extra = none ∧ Inv less cap s' ∧ (items s').Perm (x :: items s) := by
  obtain ⟨h, ex⟩ := s
  unfold input
  cases ex with
  | some e =>
    left
    have := i.full rfl
    simp only at this ⊢
    rw [add, if_pos this]
    exact ⟨rfl, rfl⟩
  | none =>
    right
    obtain ⟨s', e1, e2, e3⟩ := input2_ok hs i.good x i.room
    exact ⟨s', e1, rfl, e2, e3⟩

theorem max_top (hs : StrictWeak less) {h : Heap α} (g : Heap.PGood less h) {t : α} {l : List α} (e : h.cont = t :: l) :
    ∀ u, u ∈ h.cont → less t u = false := by
  intro u hu
  obtain ⟨j, hj, rfl⟩ := List.getElem_of_mem hu
  have := Heap.heap_max hs t (g.heap t) j (by rw [g.all]; exact hj)
  have e0 : Heap.g t h.cont 0 = t := by rw [e]; rfl
  have ej : Heap.g t h.cont j = h.cont[j] := by simp [Heap.g, hj]
  rw [e0, ej] at this
  exact this

theorem output_ok (hs : StrictWeak less) {s : Flt α} (i : Inv less cap s) :
    (output less s = .thrown ∧ items s = []) ∨
    ∃ v s', output less s = .ok (v, s') ∧ Inv less cap s' ∧ (items s).Perm (v :: items s') ∧ ∀ u, u ∈ items s → less v u = false := by
  obtain ⟨h, ex⟩ := s
  have g : Heap.PGood less h := i.good
  unfold output
  cases ex with
  | some e =>
    right
    have hf := i.full rfl
    have hr := i.room _ hf
    simp only at hf hr ⊢
    cases ec : h.cont with
    | nil => rw [ec] at hr; exact absurd hr.1 (by simp)
    | cons t l =>
      have hb : Heap.isBetter less h e = some (less t e) := by
        unfold Heap.isBetter Heap.top
        rw [ec]; rfl
      have mt := max_top hs g ec
      rw [hb]
      cases b : less t e with
      | true =>
        refine ⟨e, _, rfl, ⟨g, i.room, fun q => by cases q⟩, List.Perm.refl _, ?_⟩
        intro u hu
        rcases List.mem_cons.mp hu with q | q
        · rw [q]; exact Heap.le_refl' hs e
        · exact hs.negTrans e t u (hs.asymm t e b) (mt u q)
      | false =>
        simp only
        have hsz : h.heapSize = l.length + 1 := by rw [g.all, ec]; rfl
        have key : ∀ d, ∃ l', Heap.siftDown less h.heapSize h.heapSize (e :: l) 0 = some l' ∧ l'.length = (e :: l).length ∧
            l'.Perm (e :: l) ∧ Heap.IsHeap less d l' h.heapSize ∧ ∀ k, h.heapSize ≤ k → l'[k]? = (e :: l)[k]? := by
          intro d
          apply Heap.siftDown_spec hs d h.heapSize h.heapSize 0 (e :: l) (by omega) (by rw [hsz]; exact Nat.le_refl _)
          · intro j j1 j2 j3
            have := g.heap d j j1 j2
            rw [ec] at this
            have e1 : ∀ k, k ≠ 0 → Heap.g d (e :: l) k = Heap.g d (t :: l) k := by
              intro k hk
              obtain ⟨k', rfl⟩ := Nat.exists_eq_succ_of_ne_zero hk
              simp [Heap.g]
            rw [e1 j (by omega), e1 _ j3]
            exact this
          · intro j _ _ _ h0; omega
        obtain ⟨l', k1, k2, k3, k4, k5⟩ := key e
        have hsd : Heap.shiftDown less { h with cont := e :: l } 0 = some { h with cont := l' } := by
          unfold Heap.shiftDown
          split
          · simp only [k1]
          · rename_i hh
            simp only at hh
            have h1 : h.heapSize = 1 := by omega
            rw [h1] at k1
            simp [Heap.siftDown] at k1
            rw [k1]
        rw [hsd]
        refine ⟨t, _, rfl, ⟨⟨⟨?_, ?_⟩, ?_⟩, ?_, fun q => by cases q⟩, ?_, ?_⟩
        · show h.heapSize ≤ l'.length
          rw [k2, hsz]; exact Nat.le_refl _
        · intro d
          obtain ⟨m, m1, -, -, m4, -⟩ := key d
          rw [k1] at m1; cases m1; exact m4
        · show h.heapSize = l'.length
          rw [k2, hsz]; rfl
        · intro c ecap
          have := i.room c ecap
          rw [ec] at this
          show 0 < c ∧ l'.length ≤ c
          rw [k2]; exact this
        · show (e :: h.cont).Perm (t :: l')
          rw [ec]
          exact (List.Perm.swap t e l).trans (k3.symm.cons t)
        · intro u hu
          rcases List.mem_cons.mp hu with q | q
          · rw [q]; exact b
          · exact mt u q
  | none =>
    cases ec : h.cont with
    | nil =>
      left
      refine ⟨?_, ?_⟩
      · rfl
      · show [] ++ h.cont = []
        rw [ec]; rfl
    | cons t l =>
      right
      have mt := max_top hs g ec
      have hsz : h.heapSize = h.cont.length := g.all
      have hlen : h.cont.length = l.length + 1 := by rw [ec]; rfl
      obtain ⟨h', p1, p2, p3, p4, p5, p6, p7⟩ := Heap.pop_spec hs g.toGood (by omega)
      simp only [p1]
      have tr : Heap.trunc h'.cont 1 = h'.cont.take (h.heapSize - 1) := by
        unfold Heap.trunc
        rw [show h'.cont.length - min 1 h'.cont.length = h.heapSize - 1 from by omega]
      have split : h'.cont = h'.cont.take (h.heapSize - 1) ++ [t] := by
        have e1 : h'.cont.drop (h.heapSize - 1) = [t] := by
          apply List.ext_getElem?
          intro k
          rw [List.getElem?_drop]
          cases k with
          | zero => rw [Nat.add_zero, p6, ec]; rfl
          | succ k => rw [List.getElem?_eq_none (by omega), List.getElem?_eq_none (by simp)]
        rw [← e1, List.take_append_drop]
      have lt : (h'.cont.take (h.heapSize - 1)).length = h.heapSize - 1 := by rw [List.length_take]; omega
      refine ⟨t, _, rfl, ⟨⟨⟨?_, ?_⟩, ?_⟩, ?_, fun q => by cases q⟩, ?_, ?_⟩
      · show h'.heapSize ≤ (Heap.trunc h'.cont 1).length
        rw [tr, lt]; omega
      · intro d j j1 j2
        have := p2.heap d j j1 j2
        have j2 : j < h'.heapSize := j2
        have e1 : ∀ k, k < h'.heapSize → Heap.g d (Heap.trunc h'.cont 1) k = Heap.g d h'.cont k := by
          intro k hk
          rw [tr]
          unfold Heap.g
          rw [List.getD_eq_getElem?_getD, List.getD_eq_getElem?_getD, List.getElem?_take_of_lt (by omega)]
        show Heap.le less (Heap.g d (Heap.trunc h'.cont 1) j) (Heap.g d (Heap.trunc h'.cont 1) ((j - 1) / 2))
        rw [e1 j j2, e1 _ (by omega)]
        exact this
      · show h'.heapSize = (Heap.trunc h'.cont 1).length
        rw [tr, lt]; omega
      · intro c ecap
        have := i.room c ecap
        show 0 < c ∧ (Heap.trunc h'.cont 1).length ≤ c
        rw [tr, lt]
        have q : h.cont.length ≤ c := this.2
        omega
      · show h.cont.Perm (t :: Heap.trunc h'.cont 1)
        rw [tr]
        refine p4.symm.trans ?_
        have pc : (h'.cont.take (h.heapSize - 1) ++ [t]).Perm (t :: h'.cont.take (h.heapSize - 1)) := List.perm_append_comm
        rw [← split] at pc
        exact pc
      · intro u hu
        exact mt u hu

theorem bag_perm {m n : List α} {es : List (Ev α)} {r : List α} (h : Bag less m es r) (p : n.Perm m) : Bag less n es r := by
  induction h generalizing n with
  | nil q => exact .nil (p.trans q)
  | inp _ ih => exact .inp (ih (p.cons _))
  | full _ ih => exact .full (ih p)
  | out q m _ ih => exact .out (p.trans q) (fun u hu => m u (p.mem_iff.mp hu)) (ih (List.Perm.refl _))
  | none _ ih =>
    have e : n = [] := by simpa using p
    subst e
    exact .none (ih (List.Perm.refl _))

theorem run_ok (hs : StrictWeak less) : ∀ (cs : List (Option α)) (s : Flt α), Inv less cap s →
    ∃ es t, Run less cap s cs es t ∧ Bag less (items s) es (items t)
  | [], s, _ => ⟨[], s, .nil s, .nil (List.Perm.refl _)⟩
  | some x :: cs, s, i => by
    rcases input_ok hs i x with ⟨e, _⟩ | ⟨s', e, _, i', p⟩
    · obtain ⟨es, t, r, b⟩ := run_ok hs cs s i
      exact ⟨_, t, .full e r, .full b⟩
    · obtain ⟨es, t, r, b⟩ := run_ok hs cs s' i'
      exact ⟨_, t, .inp e r, .inp (bag_perm b p.symm)⟩
  | none :: cs, s, i => by
    rcases output_ok hs i with ⟨e, e2⟩ | ⟨v, s', e, i', p, m⟩
    · obtain ⟨es, t, r, b⟩ := run_ok hs cs s i
      refine ⟨_, t, .none e r, ?_⟩
      rw [e2] at b ⊢
      exact .none b
    · obtain ⟨es, t, r, b⟩ := run_ok hs cs s' i'
      exact ⟨_, t, .out e r, .out p m b⟩

theorem inv_init (hc : cap ≠ some 0) : Inv less cap ({} : Flt α) := by
  refine ⟨⟨Heap.good_init [], rfl⟩, ?_, fun q => by cases q⟩
  intro c e
  have : c ≠ 0 := fun h => hc (h ▸ e)
  exact ⟨by omega, by simp⟩

/-- C109 — any calls of `input` and `output` of a new filter do what they do on a bag of items:
`output` gives an item that no other one follows.  Partial: the buffer can hold an item
(`C109_zero_violated`), no copies, `clear` and assignments (violated below). -/
theorem C109_bag_partial (hs : StrictWeak less) (hc : cap ≠ some 0) (cs : List (Option α)) :
    ∃ es t, Run less cap {} cs es t ∧ Bag less [] es (items t) :=
  run_ok hs cs {} (inv_init hc)

/-- Calls determine the run. -/
theorem Run.det {s t t' : Flt α} {cs : List (Option α)} {es es' : List (Ev α)} (h : Run less cap s cs es t)
    (h' : Run less cap s cs es' t') : es = es' ∧ t = t' := by
  induction h generalizing es' t' with
  | nil s => cases h'; exact ⟨rfl, rfl⟩
  | inp e _ ih =>
    cases h' with
    | inp e' r' => rw [e] at e'; cases e'; have := ih r'; exact ⟨by rw [this.1], this.2⟩
    | full e' r' => rw [e] at e'; cases e'
  | full e _ ih =>
    cases h' with
    | inp e' r' => rw [e] at e'; cases e'
    | full e' r' => have := ih r'; exact ⟨by rw [this.1], this.2⟩
  | out e _ ih =>
    cases h' with
    | out e' r' => rw [e] at e'; cases e'; have := ih r'; exact ⟨by rw [this.1], this.2⟩
    | none e' r' => rw [e] at e'; cases e'
  | none e _ ih =>
    cases h' with
    | out e' r' => rw [e] at e'; cases e'
    | none e' r' => have := ih r'; exact ⟨by rw [this.1], this.2⟩

/-- `n` times `output`. -/
def drain (less : α → α → Bool) : Nat → Flt α → Option (List α × Flt α)
  | 0, s => some ([], s)
  | n + 1, s =>
    match output less s with
    | .ok (v, s') => (drain less n s').map fun p => (v :: p.1, p.2)
    | _ => none

/-- `input` of items one by one. -/
def feed (less : α → α → Bool) (cap : Option Nat) : List α → Flt α → Option (Flt α)
  | [], s => some s
  | x :: xs, s =>
    match input less cap s x with
    | .ok s' => feed less cap xs s'
    | _ => none

theorem drain_ok (hs : StrictWeak less) : ∀ (n : Nat) (s : Flt α), Inv less cap s → (items s).length = n →
    ∃ l t, drain less n s = some (l, t) ∧ items t = [] ∧ l.Perm (items s) ∧ l.Pairwise fun a b => less a b = false
  | 0, s, _, h => ⟨[], s, rfl, List.length_eq_zero_iff.mp h, by rw [List.length_eq_zero_iff.mp h], .nil⟩
  | n + 1, s, i, h => by
    rcases output_ok hs i with ⟨_, e2⟩ | ⟨v, s', e, i', p, m⟩
    · rw [e2] at h; cases h
    · have hl := p.length_eq
      rw [List.length_cons] at hl
      obtain ⟨l, t, d, e3, q, w⟩ := drain_ok hs n s' i' (by omega)
      refine ⟨v :: l, t, ?_, e3, (q.cons v).trans p.symm, List.Pairwise.cons ?_ w⟩
      · rw [drain, e]; simp only [d]; rfl
      · intro u hu
        exact m u (p.symm.mem_iff.mp (List.mem_cons_of_mem v (q.mem_iff.mp hu)))

theorem feed_ok (hs : StrictWeak less) : ∀ (xs : List α) (s : Flt α), Inv less none s →
    ∃ s', feed less none xs s = some s' ∧ Inv less none s' ∧ (items s').Perm (xs ++ items s)
  | [], s, i => ⟨s, rfl, i, List.Perm.refl _⟩
  | x :: xs, s, i => by
    rcases input_ok hs i x with ⟨_, e2⟩ | ⟨s1, e, _, i1, p⟩
    · exact absurd (i.full e2) (by simp)
    · obtain ⟨s2, f, i2, q⟩ := feed_ok hs xs s1 i1
      refine ⟨s2, ?_, i2, q.trans ((p.append_left xs).trans List.perm_middle)⟩
      rw [feed, e]; exact f

/-- C109 — items given to a filter without limit come out all, each once, in the order from the
last to the first: a sorted permutation. -/
theorem C109_sorts (hs : StrictWeak less) (xs : List α) :
    ∃ s l t, feed less none xs {} = some s ∧ drain less xs.length s = some (l, t) ∧ hasItems t = false ∧
      l.Perm xs ∧ l.Pairwise fun a b => less a b = false := by
  obtain ⟨s, f, i, p⟩ := feed_ok hs xs {} (inv_init (by simp))
  have p : (items s).Perm xs := by
    have : items ({} : Flt α) = [] := rfl
    rw [this, List.append_nil] at p
    exact p
  obtain ⟨l, t, d, e, q, w⟩ := drain_ok hs xs.length s i p.length_eq
  refine ⟨s, l, t, f, d, ?_, q.trans p, w⟩
  unfold hasItems
  have : t.heap.cont = [] := (List.append_eq_nil_iff.mp e).2
  rw [this]; rfl

theorem run_inv (hs : StrictWeak less) {s t : Flt α} {cs : List (Option α)} {es : List (Ev α)} (r : Run less cap s cs es t) :
    Inv less cap s → Inv less cap t := by
  induction r with
  | nil s => exact id
  | @inp s s' t x cs es e _ ih =>
    intro i
    rcases input_ok hs i x with ⟨e', _⟩ | ⟨s1, e', _, i1, _⟩
    · rw [e] at e'; cases e'
    · rw [e] at e'; cases e'; exact ih i1
  | full _ _ ih => exact ih
  | @out s s' t v cs es e _ ih =>
    intro i
    rcases output_ok hs i with ⟨e', _⟩ | ⟨v1, s1, e', i1, _⟩
    · rw [e] at e'; cases e'
    · rw [e] at e'; cases e'; exact ih i1
  | none _ _ ih => exact ih

/-- C109 — in every state reached by calls, `needItems` says whether `input` takes an item and
`hasItems` whether `output` gives one.  Partial as `C109_bag_partial`. -/
theorem C109_flags_partial (hs : StrictWeak less) (hc : cap ≠ some 0) {cs : List (Option α)} {es : List (Ev α)} {t : Flt α}
    (r : Run less cap {} cs es t) :
    (needItems t = true ↔ ∀ x, ∃ t', input less cap t x = .ok t') ∧
    (hasItems t = true ↔ ∃ v t', output less t = .ok (v, t')) := by
  have i := run_inv hs r (inv_init hc)
  constructor
  · constructor
    · intro h x
      rcases input_ok hs i x with ⟨_, e⟩ | ⟨s1, e, _⟩
      · unfold needItems at h
        cases et : t.extra <;> rw [et] at h e <;> cases h <;> cases e
      · exact ⟨s1, e⟩
    · intro h
      unfold needItems
      cases et : t.extra with
      | none => rfl
      | some y =>
        obtain ⟨t', e⟩ := h y
        rcases input_ok hs i y with ⟨e', _⟩ | ⟨_, _, en, _⟩
        · rw [e] at e'; cases e'
        · rw [et] at en; cases en
  · rcases output_ok hs i with ⟨e, e2⟩ | ⟨v, s', e, _, p, _⟩
    · rw [e]
      have : t.heap.cont = [] := (List.append_eq_nil_iff.mp e2).2
      unfold hasItems
      rw [this]
      exact ⟨fun h => (by cases h), fun ⟨_, _, h⟩ => (by cases h)⟩
    · refine ⟨fun _ => ⟨v, s', e⟩, fun _ => ?_⟩
      unfold hasItems
      cases ec : t.heap.cont with
      | cons _ _ => rfl
      | nil =>
        cases et : t.extra with
        | none => unfold items at p; rw [ec, et] at p; exact absurd p.length_eq (by simp)
        | some y =>
          have hf := i.full (by rw [et]; rfl)
          have := i.room _ hf
          rw [ec] at this
          exact absurd this.1 (by simp)

/-- Concrete case: three items in a buffer for two. -/
example : ∃ t, Run (fun a b => decide (a < b)) (some 2) {} [some 5, some 3, some 4, some 9, none, none, none, none]
    [.inp 5, .inp 3, .inp 4, .full 9, .out 5, .out 4, .out 3, .none] t :=
  ⟨_, .inp rfl (.inp rfl (.inp rfl (.full rfl (.out rfl (.out rfl (.out rfl (.none rfl (.nil _))))))))⟩

/-- C109 — violated: a buffer that can hold nothing; `output` looks at its first item. -/
theorem C109_zero_violated : ∃ s : Flt Nat, input (fun a b => decide (a < b)) (some 0) {} 1 = .ok s ∧
    hasItems s = false ∧ output (fun a b => decide (a < b)) s = .bad :=
  ⟨⟨{ cont := [] }, some 1⟩, rfl, rfl, rfl⟩

/-- C109 — violated (sortFilter.tcc:68-72): the copy of a filter gives the first item twice and
loses others: `1 2 3` are copied, `3 3 3` come out. -/
theorem C109_copy_violated : ∃ s t : Flt Nat, feed (fun a b => decide (a < b)) none [1, 2, 3] {} = some s ∧
    drain (fun a b => decide (a < b)) 3 (copy s) = some ([3, 3, 3], t) :=
  ⟨⟨{ cont := [3, 1, 2], heapSize := 3 }, none⟩, ⟨{ cont := [], heapSize := 0 }, none⟩, by decide, by decide⟩

/-- C109 — violated (sortFilter.h:62): after `clear` an item from before is the first given, and
`output` of a cleared filter reads outside of the buffer. -/
theorem C109_clear_violated : ∃ s s' t : Flt Nat, feed (fun a b => decide (a < b)) (some 1) [7, 8] {} = some s ∧
    output (fun a b => decide (a < b)) (clear s) = .bad ∧
    input (fun a b => decide (a < b)) (some 1) (clear s) 1 = .ok s' ∧
    output (fun a b => decide (a < b)) s' = .ok (8, t) :=
  ⟨⟨{ cont := [7], heapSize := 1 }, some 8⟩, ⟨{ cont := [8], heapSize := 1 }, some 1⟩, ⟨{ cont := [1], heapSize := 1 }, none⟩, by decide, by decide, by decide, by decide⟩

/-- C109 — violated (sortFilter.tcc:74-79): after an assignment the filter gives an item that was
never in the one assigned. -/
theorem C109_assign_violated : ∃ s o t : Flt Nat, feed (fun a b => decide (a < b)) (some 1) [7, 8] {} = some s ∧
    feed (fun a b => decide (a < b)) (some 1) [1] {} = some o ∧
    output (fun a b => decide (a < b)) (assign s o) = .ok (8, t) :=
  ⟨⟨{ cont := [7], heapSize := 1 }, some 8⟩, ⟨{ cont := [1], heapSize := 1 }, none⟩, ⟨{ cont := [1], heapSize := 1 }, none⟩, by decide, by decide, by decide⟩

end LS.SortFilter

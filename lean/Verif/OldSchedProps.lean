import Verif.OldSched
/-
C65, C98: the order of timed messages.
-/
namespace LS.OldSched

/-! ### Specification -/

/-- Non-decreasing time relative to `cur`. -/
def Sorted (cur : Nat) (l : List Msg) : Prop := l.Pairwise fun a b => rel cur a ≤ rel cur b

/-- The messages due at relative time `t`, in the order of the list. -/
def due (cur : Nat) (t : Int) (l : List Msg) : List Msg := l.filter fun m => rel cur m = t

/-! ### Merging -/

theorem due_append (cur : Nat) (t : Int) (a b : List Msg) : due cur t (a ++ b) = due cur t a ++ due cur t b := List.filter_append ..

theorem due_cons (cur : Nat) (t : Int) (x : Msg) (a : List Msg) : due cur t (x :: a) = (if rel cur x = t then [x] else []) ++ due cur t a := by
  unfold due
  rw [List.filter_cons]
  by_cases h : rel cur x = t <;> simp [h]

theorem due_nil_of_lt (cur : Nat) (t : Int) (a : List Msg) (h : ∀ x ∈ a, t < rel cur x) : due cur t a = [] := by
  unfold due
  rw [List.filter_eq_nil_iff]
  intro x hx
  have := h x hx
  simp only [decide_eq_true_eq]
  omega

theorem merge_ok (cur : Nat) : ∀ (k : Nat) (a b : List Msg), a.length + b.length ≤ k →
    ∃ l, mergeLoop cur k a b = some l ∧ l.Perm (a ++ b) ∧
      (Sorted cur a → Sorted cur b → Sorted cur l ∧ ∀ t, due cur t l = due cur t b ++ due cur t a) := by
  intro k
  induction k with
  | zero =>
    intro a b h
    have ha : a = [] := List.length_eq_zero_iff.1 (by omega)
    have hb : b = [] := List.length_eq_zero_iff.1 (by omega)
    subst ha hb
    exact ⟨[], rfl, .refl _, fun _ _ => ⟨.nil, fun _ => rfl⟩⟩
  | succ k ih =>
    intro a b h
    unfold mergeLoop
    by_cases h0 : a = [] ∧ b = []
    · rw [if_pos h0]
      obtain ⟨ha, hb⟩ := h0
      subst ha hb
      exact ⟨[], rfl, .refl _, fun _ _ => ⟨.nil, fun _ => rfl⟩⟩
    · rw [if_neg h0]
      by_cases hl : less cur a.head? b.head? = true
      · rw [if_pos hl]
        cases a with
        | nil => simp [less] at hl
        | cons x a =>
          obtain ⟨l, h1, h2, h3⟩ := ih a b (by simp at h; omega)
          refine ⟨x :: l, by simp [h1], h2.cons x, ?_⟩
          intro ha hb
          obtain ⟨ha1, ha2⟩ := List.pairwise_cons.1 ha
          obtain ⟨h4, h5⟩ := h3 ha2 hb
          -- `x` is before all of `b`
          have hxb : ∀ y ∈ b, rel cur x < rel cur y := by
            cases b with
            | nil => intro y hy; cases hy
            | cons z b =>
              have hz : rel cur x < rel cur z := by simpa [less] using hl
              intro y hy
              rcases List.mem_cons.1 hy with e | hy
              · subst e; exact hz
              · have := (List.pairwise_cons.1 hb).1 y hy
                omega
          constructor
          · refine List.pairwise_cons.2 ⟨?_, h4⟩
            intro y hy
            rcases List.mem_append.1 (h2.mem_iff.1 hy) with hy | hy
            · exact ha1 y hy
            · have := hxb y hy; omega
          · intro t
            rw [due_cons, h5, due_cons]
            by_cases e : rel cur x = t
            · rw [if_pos e, due_nil_of_lt cur t b (fun y hy => e ▸ hxb y hy)]
              simp
            · rw [if_neg e]; simp
      · rw [if_neg hl]
        cases b with
        | nil =>
          cases a with
          | nil => simp at h0
          | cons x a => simp [less] at hl
        | cons y b =>
          obtain ⟨l, h1, h2, h3⟩ := ih a b (by simp at h; omega)
          refine ⟨y :: l, by simp [h1], (h2.cons y).trans List.perm_middle.symm, ?_⟩
          intro ha hb
          obtain ⟨hb1, hb2⟩ := List.pairwise_cons.1 hb
          obtain ⟨h4, h5⟩ := h3 ha hb2
          constructor
          · refine List.pairwise_cons.2 ⟨?_, h4⟩
            intro z hz
            rcases List.mem_append.1 (h2.mem_iff.1 hz) with hz | hz
            · cases a with
              | nil => cases hz
              | cons x a =>
                have hx : rel cur y ≤ rel cur x := by simpa [less] using hl
                rcases List.mem_cons.1 hz with e | hz
                · subst e; exact hx
                · have := (List.pairwise_cons.1 ha).1 z hz
                  omega
            · exact hb1 z hz
          · intro t
            rw [due_cons, h5, due_cons]
            simp

theorem mergeSort_ok (cur : Nat) (a b : List Msg) (h : a ≠ [] ∨ b ≠ []) :
    ∃ l, mergeSort cur a b = some l ∧ l.Perm (a ++ b) ∧
      (Sorted cur a → Sorted cur b → Sorted cur l ∧ ∀ t, due cur t l = due cur t b ++ due cur t a) := by
  unfold mergeSort
  rw [if_neg (by rintro ⟨ha, hb⟩; rcases h with h | h <;> contradiction)]
  exact merge_ok cur _ a b (Nat.le_refl _)

/-! ### The passes over the buffer -/

/-- The buffer holds sorted lists of all the messages `p`, later posted ones (to the left) in earlier slots. -/
structure Good (cur : Nat) (L : List (List Msg)) (p : List Msg) : Prop where
  ne : ∀ a ∈ L, a ≠ []
  sorted : ∀ a ∈ L, Sorted cur a
  perm : L.flatten.Perm p
  order : ∀ t, due cur t L.reverse.flatten = due cur t p.reverse

theorem good_merge {cur : Nat} {D r : List (List Msg)} {a b p : List Msg} (h : Good cur (D ++ a :: b :: r) p) :
    ∃ m, mergeSort cur a b = some m ∧ Good cur (D ++ m :: r) p := by
  obtain ⟨m, h1, h2, h3⟩ := mergeSort_ok cur a b (Or.inl (h.ne a (by simp)))
  obtain ⟨h4, h5⟩ := h3 (h.sorted a (by simp)) (h.sorted b (by simp))
  refine ⟨m, h1, ?_, ?_, ?_, ?_⟩
  · intro c hc
    rcases List.mem_append.1 hc with hc | hc
    · exact h.ne c (by simp [hc])
    · rcases List.mem_cons.1 hc with e | hc
      · subst e
        intro e
        have := h2.length_eq
        have ha := List.length_pos_iff.2 (h.ne a (by simp))
        rw [e] at this
        simp at this
        omega
      · exact h.ne c (by simp [hc])
  · intro c hc
    rcases List.mem_append.1 hc with hc | hc
    · exact h.sorted c (by simp [hc])
    · rcases List.mem_cons.1 hc with e | hc
      · subst e; exact h4
      · exact h.sorted c (by simp [hc])
  · refine List.Perm.trans ?_ h.perm
    simp only [List.flatten_append, List.flatten_cons, ← List.append_assoc]
    refine List.Perm.append_right _ ?_
    simp only [List.append_assoc]
    exact List.Perm.append_left _ h2
  · intro t
    rw [← h.order t]
    simp [due_append, h5]

theorem set_at {β : Type} (D X : List β) (y m : β) : (D ++ y :: X).set D.length m = D ++ m :: X := by simp

theorem passLoop_ok (cur cnt : Nat) (p : List Msg) : ∀ (k : Nat) (R D J T : List (List Msg)), J.length = D.length → cnt = 2 * D.length + R.length → R.length ≤ k →
    Good cur (D ++ R) p →
    ∃ b L', (passLoop cur cnt k (D ++ J ++ R ++ T) (2 * D.length + 1)).bind (single cnt) = some b ∧ b.take ((cnt + 1) / 2) = L' ∧ L'.length = (cnt + 1) / 2 ∧ Good cur L' p := by
  intro k
  induction k with
  | zero =>
    intro R D J T hJ hc hk hg
    have : R = [] := List.length_eq_zero_iff.1 (by omega)
    subst this
    simp only [List.length_nil, Nat.add_zero, List.append_nil] at hc hg ⊢
    refine ⟨D ++ J ++ T, D, ?_, ?_, by omega, hg⟩
    · rw [passLoop, if_neg (by omega)]
      simp only [Option.bind_some, single]
      rw [if_neg (by omega)]
    · rw [show (cnt + 1) / 2 = D.length by omega]
      simp
  | succ k ih =>
    intro R D J T hJ hc hk hg
    match R with
    | [] =>
      simp only [List.length_nil, Nat.add_zero, List.append_nil] at hc hg ⊢
      refine ⟨D ++ J ++ T, D, ?_, ?_, by omega, hg⟩
      · rw [passLoop, if_neg (by omega)]
        simp only [Option.bind_some, single]
        rw [if_neg (by omega)]
      · rw [show (cnt + 1) / 2 = D.length by omega]
        simp
    | [a] =>
      simp only [List.length_cons, List.length_nil, Nat.zero_add] at hc
      have e1 : (D ++ J ++ [a] ++ T)[2 * D.length]? = some a := by
        rw [show D ++ J ++ [a] ++ T = (D ++ J) ++ a :: T by simp, List.getElem?_append_right (by simp; omega)]
        simp [show 2 * D.length - (D.length + J.length) = 0 by omega]
      obtain ⟨y, X, hy⟩ : ∃ y X, J ++ [a] ++ T = y :: X := by
        cases J with
        | nil => exact ⟨a, T, rfl⟩
        | cons y J => exact ⟨y, J ++ [a] ++ T, by simp⟩
      have e2 : D ++ J ++ [a] ++ T = D ++ y :: X := by rw [← hy]; simp
      refine ⟨D ++ a :: X, D ++ [a], ?_, ?_, by simp; omega, hg⟩
      · rw [passLoop, if_neg (by omega)]
        simp only [Option.bind_some, single]
        rw [if_pos (by omega), show 2 * D.length + 1 - 1 = 2 * D.length by omega, e1]
        simp only
        rw [show (2 * D.length + 1) / 2 = D.length by omega, e2, set_at]
      · rw [show (cnt + 1) / 2 = (D ++ [a]).length by simp; omega, show D ++ a :: X = (D ++ [a]) ++ X by simp, List.take_left]
    | a :: b :: R =>
      simp only [List.length_cons] at hc hk
      have e1 : (D ++ J ++ a :: b :: R ++ T)[2 * D.length]? = some a := by
        rw [show D ++ J ++ a :: b :: R ++ T = (D ++ J) ++ a :: b :: (R ++ T) by simp, List.getElem?_append_right (by simp; omega)]
        simp [show 2 * D.length - (D.length + J.length) = 0 by omega]
      have e2 : (D ++ J ++ a :: b :: R ++ T)[2 * D.length + 1]? = some b := by
        rw [show D ++ J ++ a :: b :: R ++ T = (D ++ J) ++ a :: b :: (R ++ T) by simp, List.getElem?_append_right (by simp; omega)]
        simp [show 2 * D.length + 1 - (D.length + J.length) = 1 by omega]
      obtain ⟨m, h1, h2⟩ := good_merge hg
      obtain ⟨y, J', hy⟩ : ∃ y J', J ++ [a, b] = y :: J' := by
        cases J with
        | nil => exact ⟨a, [b], rfl⟩
        | cons y J => exact ⟨y, J ++ [a, b], rfl⟩
      have hJ' : J'.length = D.length + 1 := by
        have := congrArg List.length hy
        simp at this
        omega
      have e3 : D ++ J ++ a :: b :: R ++ T = D ++ y :: (J' ++ R ++ T) := by
        rw [show D ++ J ++ a :: b :: R ++ T = D ++ (J ++ [a, b]) ++ R ++ T by simp, hy]
        simp
      rw [passLoop, if_pos (by omega), show 2 * D.length + 1 - 1 = 2 * D.length by omega, e1, e2]
      simp only [h1, Option.bind_some]
      rw [show (2 * D.length + 1) / 2 = D.length by omega, e3, set_at]
      have := ih R (D ++ [m]) J' T (by simp [hJ']) (by simp; omega) (by omega) (by simpa using h2)
      rw [show 2 * (D ++ [m]).length + 1 = 2 * D.length + 1 + 2 by simp; omega, show D ++ [m] ++ J' ++ R ++ T = D ++ m :: (J' ++ R ++ T) by simp] at this
      exact this

theorem sortLoop_ok (cur : Nat) (p : List Msg) : ∀ (k cnt : Nat) (buff : List (List Msg)), cnt ≤ k + 1 → 0 < cnt → cnt ≤ buff.length → Good cur (buff.take cnt) p →
    ∃ b l, sortLoop cur k buff cnt = some b ∧ b[0]? = some l ∧ Good cur [l] p := by
  intro k
  induction k with
  | zero =>
    intro cnt buff h1 h2 h3 hg
    have : cnt = 1 := by omega
    subst this
    cases buff with
    | nil => simp at h3
    | cons a buff => exact ⟨a :: buff, a, by simp [sortLoop], rfl, by simpa using hg⟩
  | succ k ih =>
    intro cnt buff h1 h2 h3 hg
    rw [sortLoop]
    by_cases hc : 1 < cnt
    · rw [if_pos hc]
      have hlen : (buff.take cnt).length = cnt := by simp; omega
      obtain ⟨b, L', e1, e2, e3, e4⟩ := passLoop_ok cur cnt p cnt (buff.take cnt) [] [] (buff.drop cnt) rfl (by simp; omega) (by omega) hg
      simp only [List.nil_append, List.take_append_drop, List.length_nil, Nat.mul_zero, Nat.zero_add] at e1
      rw [e1]
      refine ih ((cnt + 1) / 2) b (by omega) (by omega) ?_ ?_
      · have := congrArg List.length e2
        simp at this
        omega
      · rw [e2]; exact e4
    · rw [if_neg hc]
      have : cnt = 1 := by omega
      subst this
      cases buff with
      | nil => simp at h3
      | cons a buff => exact ⟨a :: buff, a, rfl, rfl, by simpa using hg⟩

theorem flatten_single (p : List Msg) : (p.map fun m => [m]).flatten = p := by
  induction p with
  | nil => rfl
  | cons a p ih => simp [ih]

/-- `sortList`: a sorted permutation; among messages due at the same time, those posted earlier (to the right in the stack) come first. -/
theorem sortList_ok (cur : Nat) (p : List Msg) :
    ∃ l, sortList cur p = some l ∧ l.Perm p ∧ Sorted cur l ∧ ∀ t, due cur t l = due cur t p.reverse := by
  unfold sortList
  by_cases h : p.length < 2
  · rw [if_pos h]
    refine ⟨p, rfl, .refl _, ?_, ?_⟩
    · match p with
      | [] => exact .nil
      | [a] => exact List.pairwise_singleton _ _
      | a :: b :: p => simp only [List.length_cons] at h; omega
    · intro t
      match p with
      | [] => rfl
      | [a] => rfl
      | a :: b :: p => simp only [List.length_cons] at h; omega
  · rw [if_neg h]
    have hg : Good cur ((p.map fun m => [m]).take p.length) p := by
      rw [List.take_of_length_le (by simp)]
      refine ⟨?_, ?_, ?_, ?_⟩
      · intro a ha
        obtain ⟨m, -, e⟩ := List.mem_map.1 ha
        rw [← e]; simp
      · intro a ha
        obtain ⟨m, -, e⟩ := List.mem_map.1 ha
        rw [← e]; exact List.pairwise_singleton _ _
      · rw [flatten_single]
      · intro t
        rw [← List.map_reverse, flatten_single]
    obtain ⟨b, l, e1, e2, e3⟩ := sortLoop_ok cur p p.length p.length (p.map fun m => [m]) (by omega) (by omega) (by simp) hg
    refine ⟨l, by simp only [e1, Option.bind_some, e2], by simpa using e3.perm, e3.sorted l (by simp), ?_⟩
    intro t
    simpa using e3.order t

/-! ### C65 -/

/-- Sorting never fails and gives a permutation in non-decreasing order of the due time (relative to the current time, as the program takes it). -/
theorem C65_sort (cur : Nat) (p : List Msg) : ∃ l, sortList cur p = some l ∧ l.Perm p ∧ l.Pairwise fun a b => rel cur a ≤ rel cur b := by
  obtain ⟨l, h1, h2, h3, -⟩ := sortList_ok cur p
  exact ⟨l, h1, h2, h3⟩

/-- The order is stable in the order of posting: the stack `p` has the last message first. -/
theorem C65_stable (cur : Nat) (p : List Msg) :
    ∃ l, sortList cur p = some l ∧ ∀ t : Int, (l.filter fun m => rel cur m = t) = p.reverse.filter fun m => rel cur m = t := by
  obtain ⟨l, h1, -, -, h4⟩ := sortList_ok cur p
  exact ⟨l, h1, h4⟩

/-- In terms of the times alone: whenever all messages have times less than half of the range of the clock away from the current time, the result is
sorted by these times. -/
theorem C65_by_time (cur : Nat) (p : List Msg) (h : ∀ m ∈ p, ∃ t : Nat, m.time = some t ∧ (t : Int) - cur < 2 ^ 63 ∧ (cur : Int) - t ≤ 2 ^ 63) :
    ∃ l, sortList cur p = some l ∧ l.Perm p ∧ l.Pairwise fun a b => ∀ t u, a.time = some t → b.time = some u → t ≤ u := by
  obtain ⟨l, h1, h2, h3⟩ := C65_sort cur p
  refine ⟨l, h1, h2, h3.imp_of_mem ?_⟩
  have hr : ∀ m ∈ l, ∀ t, m.time = some t → rel cur m = (t : Int) - cur := by
    intro m hm t ht
    obtain ⟨t', e, g1, g2⟩ := h m (h2.mem_iff.1 hm)
    rw [ht] at e
    injection e with e
    subst e
    unfold rel
    rw [ht]
    simp only [Int.bmod_def]
    omega
  intro a b ha hb hab t u ht hu
  rw [hr a ha t ht, hr b hb u hu] at hab
  omega

/-- Five messages (the last one posted first), a tie, and times on both sides of the overflow of the clock. -/
example : sortList (2 ^ 64 - 10) [⟨some 5, 5⟩, ⟨some (2 ^ 64 - 12), 4⟩, ⟨none, 3⟩, ⟨some 5, 2⟩, ⟨some (2 ^ 64 - 1), 1⟩] =
    some [⟨some (2 ^ 64 - 12), 4⟩, ⟨none, 3⟩, ⟨some (2 ^ 64 - 1), 1⟩, ⟨some 5, 2⟩, ⟨some 5, 5⟩] := by decide +kernel

/-! ### C98: the whole queue -/

/-- A message with a time in the first half of the clock's range. -/
def Timed (m : Msg) : Prop := ∃ t, m.time = some t ∧ t < 2 ^ 63

/-- What happens to a queue: a message is posted, or the queue is pumped at some time. -/
inductive Ev where
  | post (m : Msg)
  | pump (cur : Nat)

/-- The messages run by a history and the state after it. -/
def run : List Ev → St → Option (List Msg × St)
  | [], s => some ([], s)
  | .post m :: es, s => run es (post s m)
  | .pump cur :: es, s =>
    match pump cur s with
    | none => none
    | some (none, s) => run es s
    | some (some m, s) =>
      match run es s with
      | none => none
      | some (l, s) => some (m :: l, s)

/-- The messages posted by a history, in the order of posting. -/
def posted : List Ev → List Msg
  | [] => []
  | .post m :: es => m :: posted es
  | .pump _ :: es => posted es

/-- The timed history: messages have times, and the clock is in the same half. -/
def TimedEv : Ev → Prop
  | .post m => Timed m
  | .pump cur => cur < 2 ^ 63

/-- The messages at time `t`, in the order of the list. -/
def at_ (t : Nat) (l : List Msg) : List Msg := l.filter fun m => m.time = some t

/-- All messages in the queue. -/
def St.all (s : St) : List Msg := s.curQueue ++ s.newMessages.reverse

theorem at_append (t : Nat) (a b : List Msg) : at_ t (a ++ b) = at_ t a ++ at_ t b := List.filter_append ..

structure Inv (s : St) : Prop where
  timed : ∀ m ∈ s.all, Timed m
  sorted : s.curQueue.Pairwise fun a b => a.time.getD 0 ≤ b.time.getD 0

theorem rel_timed {m : Msg} (h : Timed m) {cur : Nat} (hc : cur < 2 ^ 63) : rel cur m = (m.time.getD 0 : Int) - cur := by
  obtain ⟨t, h1, h2⟩ := h
  unfold rel
  rw [h1]
  simp only [Option.getD_some]
  rw [Int.bmod_def]
  omega

theorem at_due {l : List Msg} (h : ∀ m ∈ l, Timed m) {cur : Nat} (hc : cur < 2 ^ 63) (t : Nat) : at_ t l = due cur ((t : Int) - cur) l := by
  unfold at_ due
  refine List.filter_congr ?_
  intro m hm
  have h1 := rel_timed (h m hm) hc
  obtain ⟨u, h2, -⟩ := h m hm
  rw [h1, h2]
  simp only [Option.getD_some, Option.some.injEq, decide_eq_decide]
  omega

theorem sorted_iff {l : List Msg} (h : ∀ m ∈ l, Timed m) {cur : Nat} (hc : cur < 2 ^ 63) : Sorted cur l ↔ l.Pairwise fun a b => a.time.getD 0 ≤ b.time.getD 0 := by
  unfold Sorted
  constructor
  · intro hs
    refine hs.imp_of_mem ?_
    intro a b ha hb hab
    rw [rel_timed (h a ha) hc, rel_timed (h b hb) hc] at hab
    omega
  · intro hs
    refine hs.imp_of_mem ?_
    intro a b ha hb hab
    rw [rel_timed (h a ha) hc, rel_timed (h b hb) hc]
    omega

theorem prepare_ok {s : St} (hi : Inv s) {cur : Nat} (hc : cur < 2 ^ 63) :
    ∃ s', prepareQueue cur s = some s' ∧ s'.newMessages = [] ∧ Inv s' ∧ s'.all.Perm s.all ∧ ∀ t, at_ t s'.all = at_ t s.all := by
  unfold prepareQueue
  by_cases hn : s.newMessages = []
  · rw [if_pos hn]
    exact ⟨s, rfl, hn, hi, .refl _, fun _ => rfl⟩
  · rw [if_neg hn]
    obtain ⟨p, h1, h2, h3, h4⟩ := sortList_ok cur s.newMessages
    have hp : p ≠ [] := by
      intro e
      rw [e] at h2
      exact hn h2.symm.eq_nil
    obtain ⟨q, g1, g2, g3⟩ := mergeSort_ok cur p s.curQueue (Or.inl hp)
    have hcT : ∀ m ∈ s.curQueue, Timed m := fun m hm => hi.timed m (List.mem_append_left _ hm)
    have hnT : ∀ m ∈ s.newMessages, Timed m := fun m hm => hi.timed m (List.mem_append_right _ (List.mem_reverse.2 hm))
    obtain ⟨g4, g5⟩ := g3 h3 ((sorted_iff hcT hc).2 hi.sorted)
    have hq : q.Perm s.all := g2.trans (List.perm_append_comm.trans (List.Perm.append_left _ (h2.trans (List.reverse_perm _).symm)))
    have hqT : ∀ m ∈ q, Timed m := fun m hm => hi.timed m (hq.mem_iff.1 hm)
    refine ⟨⟨q, []⟩, by simp [h1, g1], rfl, ⟨?_, (sorted_iff hqT hc).1 g4⟩, by simpa [St.all] using hq, ?_⟩
    · intro m hm
      exact hqT m (by simpa [St.all] using hm)
    · intro t
      have e1 : (⟨q, []⟩ : St).all = q := by simp [St.all]
      rw [e1, at_due hqT hc, at_due hi.timed hc, g5]
      unfold St.all
      rw [due_append, h4]

/-- What one call of `pumpMessage` does. -/
theorem pump_ok {s : St} (hi : Inv s) {cur : Nat} (hc : cur < 2 ^ 63) :
    ∃ r s', pump cur s = some (r, s') ∧ Inv s' ∧
      (match r with
        | none => (∀ m ∈ s.all, ∀ t, m.time = some t → cur < t) ∧ s'.all.Perm s.all ∧ ∀ t, at_ t s'.all = at_ t s.all
        | some m => m ∈ s.all ∧ (∃ t, m.time = some t ∧ t ≤ cur ∧ ∀ m' ∈ s.all, ∀ t', m'.time = some t' → t ≤ t') ∧
            (m :: s'.all).Perm s.all ∧ ∀ t, at_ t (m :: s'.all) = at_ t s.all) := by
  obtain ⟨u, h1, h2, h3, h4, h5⟩ := prepare_ok hi hc
  unfold pump
  rw [h1]
  simp only [Option.map_some]
  have hu : u.all = u.curQueue := by simp [St.all, h2]
  cases hq : u.curQueue with
  | nil =>
    rw [if_neg (by simp [waitTime, hq])]
    refine ⟨none, u, rfl, h3, ?_, h4, h5⟩
    intro m hm
    have := h4.mem_iff.2 hm
    rw [hu, hq] at this
    cases this
  | cons m q =>
    have hm : m ∈ u.all := by rw [hu, hq]; simp
    have hmT := h3.timed m hm
    have hr := rel_timed hmT hc
    obtain ⟨t, ht, ht'⟩ := hmT
    rw [ht] at hr
    simp only [Option.getD_some] at hr
    have hfirst : ∀ m' ∈ s.all, ∀ t', m'.time = some t' → t ≤ t' := by
      intro m' hm' t' e
      have := h4.mem_iff.2 hm'
      rw [hu, hq] at this
      have hs := h3.sorted
      rw [hq] at hs
      rcases List.mem_cons.1 this with e' | this
      · rw [e', ht] at e
        injection e with e
        omega
      · have := (List.pairwise_cons.1 hs).1 m' this
        rw [ht, e] at this
        simpa using this
    by_cases hd : t ≤ cur
    · rw [if_pos (by
        unfold waitTime
        rw [hq]
        simp only [ht, hr]
        split <;> simp
        omega)]
      refine ⟨some m, _, rfl, ⟨?_, ?_⟩, h4.mem_iff.1 hm, ⟨t, ht, hd, hfirst⟩, ?_, ?_⟩
      · intro m' hm'
        refine h3.timed m' ?_
        rw [hu, hq]
        simp [St.all, h2] at hm'
        exact List.mem_cons_of_mem _ hm'
      · have hs := h3.sorted
        rw [hq] at hs
        exact (List.pairwise_cons.1 hs).2
      · refine List.Perm.trans ?_ h4
        rw [hu, hq]
        simp [St.all, h2]
      · intro t'
        rw [← h5 t', hu, hq]
        simp [St.all, h2]
    · rw [if_neg (by
        unfold waitTime
        rw [hq]
        simp only [ht, hr]
        rw [if_neg (by omega)]
        simp
        omega)]
      refine ⟨none, u, rfl, h3, ?_, h4, h5⟩
      intro m' hm' t' e
      have := hfirst m' hm' t' e
      omega

theorem run_ok : ∀ (es : List Ev) (s : St), Inv s → (∀ e ∈ es, TimedEv e) →
    ∃ l s', run es s = some (l, s') ∧ Inv s' ∧ (l ++ s'.all).Perm (s.all ++ posted es) ∧ ∀ t, at_ t (l ++ s'.all) = at_ t (s.all ++ posted es) := by
  intro es
  induction es with
  | nil =>
    intro s hi _
    exact ⟨[], s, rfl, hi, by simp [posted], fun t => by simp [posted]⟩
  | cons e es ih =>
    intro s hi he
    have he' : ∀ e ∈ es, TimedEv e := fun e h => he e (List.mem_cons_of_mem _ h)
    have h0 := he e (by simp)
    cases e with
    | post m =>
      have e1 : (post s m).all = s.all ++ [m] := by simp [St.all, post]
      have hi' : Inv (post s m) := by
        refine ⟨?_, hi.sorted⟩
        intro m' hm'
        rw [e1] at hm'
        rcases List.mem_append.1 hm' with h | h
        · exact hi.timed m' h
        · rw [List.mem_singleton.1 h]; exact h0
      obtain ⟨l, s', h1, h2, h3, h4⟩ := ih (post s m) hi' he'
      rw [e1] at h3 h4
      exact ⟨l, s', h1, h2, by simpa [posted] using h3, fun t => by simpa [posted] using h4 t⟩
    | pump cur =>
      obtain ⟨r, u, h1, h2, h3⟩ := pump_ok hi h0
      obtain ⟨l, s', g1, g2, g3, g4⟩ := ih u h2 he'
      cases r with
      | none =>
        simp only at h3
        refine ⟨l, s', by simp [run, h1, g1], g2, g3.trans (List.Perm.append_right _ h3.2.1), ?_⟩
        intro t
        rw [g4, at_append, h3.2.2, ← at_append]
        rfl
      | some m =>
        simp only at h3
        obtain ⟨-, -, h3, h4⟩ := h3
        refine ⟨m :: l, s', by simp [run, h1, g1], g2, ?_, ?_⟩
        · exact (g3.cons m).trans (List.Perm.append_right _ h3)
        · intro t
          rw [show posted (.pump cur :: es) = posted es from rfl, at_append t s.all, ← h4 t, ← at_append, show m :: l ++ s'.all = [m] ++ (l ++ s'.all) by simp, at_append, g4, ← at_append]
          simp

theorem inv_empty : Inv ⟨[], []⟩ := ⟨by intro m h; simp [St.all] at h, .nil⟩

/-- A queue with timed messages only, from the beginning: after every history the next pump runs a message which is due and has the least time of all
waiting messages, or none if no message is due.  Full claim: also with messages without a time; that is false, see below. -/
theorem C98_earliest_due_partial (es : List Ev) (he : ∀ e ∈ es, TimedEv e) (cur : Nat) (hc : cur < 2 ^ 63) :
    ∃ l s, run es ⟨[], []⟩ = some (l, s) ∧ (l ++ s.all).Perm (posted es) ∧
      ∃ r s', pump cur s = some (r, s') ∧
        (match r with
          | none => ∀ m ∈ s.all, ∀ t, m.time = some t → cur < t
          | some m => m ∈ s.all ∧ ∃ t, m.time = some t ∧ t ≤ cur ∧ ∀ m' ∈ s.all, ∀ t', m'.time = some t' → t ≤ t') := by
  obtain ⟨l, s, h1, h2, h3, -⟩ := run_ok es ⟨[], []⟩ inv_empty he
  refine ⟨l, s, h1, by simpa [St.all] using h3, ?_⟩
  obtain ⟨r, s', g1, -, g2⟩ := pump_ok h2 hc
  refine ⟨r, s', g1, ?_⟩
  cases r with
  | none => exact g2.1
  | some m => exact ⟨g2.1, g2.2.1⟩

/-- Messages with the same time run in the order of posting. -/
theorem C98_fifo_partial (es : List Ev) (he : ∀ e ∈ es, TimedEv e) :
    ∃ l s, run es ⟨[], []⟩ = some (l, s) ∧ ∀ t : Nat, (l.filter fun m => m.time = some t) <+: (posted es).filter fun m => m.time = some t := by
  obtain ⟨l, s, h1, -, -, h4⟩ := run_ok es ⟨[], []⟩ inv_empty he
  refine ⟨l, s, h1, ?_⟩
  intro t
  have := h4 t
  rw [at_append] at this
  refine ⟨at_ t s.all, ?_⟩
  show at_ t l ++ at_ t s.all = at_ t (posted es)
  simpa [St.all] using this

/-- A history with three messages run, one waiting. -/
example : run [.post ⟨some 9, 0⟩, .post ⟨some 5, 1⟩, .pump 4, .post ⟨some 5, 2⟩, .pump 5, .post ⟨some 20, 3⟩, .pump 6, .pump 7, .pump 12] ⟨[], []⟩ =
    some ([⟨some 5, 1⟩, ⟨some 5, 2⟩, ⟨some 9, 0⟩], ⟨[⟨some 20, 3⟩], []⟩) := by rfl

/-- With messages without a time the order is wrong: the message for time 7 runs before the one for time 5 although both were posted and due, because the
message without a time, taken as due "now", stood between them. -/
theorem C98_mixed_violated :
    ∃ s, run [.post ⟨some 0, 0⟩, .post ⟨none, 1⟩, .post ⟨some 5, 2⟩, .pump 0, .post ⟨some 7, 3⟩, .pump 8] ⟨[], []⟩ = some ([⟨some 0, 0⟩, ⟨some 7, 3⟩], s) ∧
      (⟨some 5, 2⟩ : Msg) ∈ s.all := ⟨⟨[⟨none, 1⟩, ⟨some 5, 2⟩], []⟩, rfl, by decide⟩

end LS.OldSched

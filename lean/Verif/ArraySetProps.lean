import Verif.ArraySet
import Verif.HeapProps
/-
C25: lookup in the array set.
-/
namespace LS.ArraySet

open LS.Heap (StrictWeak Sorted)

variable {α : Type} {less : α → α → Bool}

/-! ### Specification -/

/-- Neither of two items is less than the other. -/
def Equiv (less : α → α → Bool) (a b : α) : Prop := less a b = false ∧ less b a = false

/-- The prefix which the set takes for ordered is ordered. -/
structure Inv (less : α → α → Bool) (s : St α) : Prop where
  le : s.oc ≤ s.items.length
  sorted : Sorted less (s.items.take s.oc)

theorem equiv_dec (x v : α) : (!less x v && !less v x) = true ↔ Equiv less v x := by
  simp [Equiv, and_comm]

/-! ### Lookup -/

theorem item_ok {l : List α} {i : Nat} (h : i < l.length) : item l i = .ok l[i] := by
  simp [item, List.getElem?_eq_getElem h]

/-- The loop: below `lo` everything is less, from `hi` on everything of the prefix is greater. -/
theorem bsearch_ok (hs : StrictWeak less) (l : List α) (n : Nat) (hn : n ≤ l.length) (hsort : Sorted less (l.take n)) (x : α) :
    ∀ k lo hi, lo ≤ hi → hi ≤ n → hi - lo ≤ k →
      (∀ i (h : i < l.length), i < lo → less l[i] x = true) → (∀ i (h : i < l.length), hi ≤ i → i < n → less x l[i] = true) →
      ∃ r, bsearch less l x k lo hi = .ok r ∧
        (r.1 = true → r.2 < n ∧ ∃ h : r.2 < l.length, Equiv less l[r.2] x) ∧
        (r.1 = false → r.2 ≤ n ∧ (∀ i (h : i < l.length), i < r.2 → less l[i] x = true) ∧ (∀ i (h : i < l.length), r.2 ≤ i → i < n → less x l[i] = true)) := by
  have hle : ∀ i j (hi : i < l.length) (hj : j < l.length), i < j → j < n → less l[j] l[i] = false := by
    intro i j hi hj hij hjn
    have := List.pairwise_iff_getElem.1 hsort i j (by simp; omega) (by simp; omega) hij
    simpa using this
  intro k
  induction k with
  | zero =>
    intro lo hi h1 h2 h3 h4 h5
    have : lo = hi := by omega
    subst this
    exact ⟨(false, lo), by simp [bsearch], by simp, fun _ => ⟨h2, h4, h5⟩⟩
  | succ k ih =>
    intro lo hi h1 h2 h3 h4 h5
    by_cases hlt : lo < hi
    · have hm : (lo + hi) / 2 < l.length := by omega
      rw [bsearch, if_pos hlt, item_ok hm]
      show ∃ r, (if less x l[(lo + hi) / 2] = true then _ else _) = _ ∧ _
      by_cases c1 : less x l[(lo + hi) / 2] = true
      · rw [if_pos c1]
        refine ih lo ((lo + hi) / 2) (by omega) (by omega) (by omega) h4 ?_
        intro i hi' hmi hin
        by_cases e : i = (lo + hi) / 2
        · subst e; exact c1
        · have h6 := hle ((lo + hi) / 2) i hm hi' (by omega) hin
          cases h7 : less x l[i] with
          | true => rfl
          | false => rw [hs.negTrans _ _ _ h7 h6] at c1; cases c1
      · rw [if_neg c1]
        by_cases c2 : less l[(lo + hi) / 2] x = true
        · rw [if_pos c2]
          refine ih ((lo + hi) / 2 + 1) hi (by omega) h2 (by omega) ?_ h5
          intro i hi' hmi
          by_cases e : i = (lo + hi) / 2
          · subst e; exact c2
          · have h6 := hle i ((lo + hi) / 2) hi' hm (by omega) (by omega)
            cases h7 : less l[i] x with
            | true => rfl
            | false => rw [hs.negTrans _ _ _ h6 h7] at c2; cases c2
        · rw [if_neg c2]
          refine ⟨_, rfl, fun _ => ⟨by show (lo + hi) / 2 < n; omega, hm, ?_⟩, by simp⟩
          exact ⟨by simpa using c2, by simpa using c1⟩
    · have : lo = hi := by omega
      subst this
      exact ⟨(false, lo), by simp [bsearch], by simp, fun _ => ⟨h2, h4, h5⟩⟩

theorem lsearch_ok (l : List α) (x : α) : ∀ k i, i + k = l.length →
    ∃ r, lsearch less l x k i = .ok r ∧ (r.1 = true → i ≤ r.2 ∧ ∃ h : r.2 < l.length, Equiv less l[r.2] x) ∧
      (r.1 = false → ∀ j (h : j < l.length), i ≤ j → ¬ Equiv less l[j] x) := by
  intro k
  induction k with
  | zero =>
    intro i hi
    exact ⟨(false, l.length), rfl, by simp, fun _ j h h2 => by omega⟩
  | succ k ih =>
    intro i hi
    have hil : i < l.length := by omega
    rw [lsearch, item_ok hil]
    show ∃ r, (if (!less x l[i] && !less l[i] x) = true then _ else _) = _ ∧ _
    by_cases c : (!less x l[i] && !less l[i] x) = true
    · rw [if_pos c]
      exact ⟨_, rfl, fun _ => ⟨Nat.le_refl _, hil, (equiv_dec _ _).1 c⟩, by simp⟩
    · rw [if_neg c]
      obtain ⟨r, h1, h2, h3⟩ := ih (i + 1) (by omega)
      refine ⟨r, h1, fun e => ⟨by have := (h2 e).1; omega, (h2 e).2⟩, ?_⟩
      intro e j hj hij
      by_cases e2 : j = i
      · subst e2; exact fun h => c ((equiv_dec _ _).2 h)
      · exact h3 e j hj (by omega)

/-- What `find` gives: in which of the two parts, with which pointer. -/
theorem find_ok (hs : StrictWeak less) {s : St α} (h : Inv less s) (x : α) :
    ∃ r, find less s x = .ok r ∧ (r.1.isSome = true ↔ ∃ y ∈ s.items, Equiv less y x) ∧
      (r.1.isSome = true → ∃ hp : r.2 < s.items.length, Equiv less s.items[r.2] x) ∧
      (∀ v, r.1 = some v → (∃ y ∈ s.items.take s.oc, Equiv less y x) → Equiv less v x) := by
  have hmin : min s.oc s.items.length = s.oc := Nat.min_eq_left h.le
  obtain ⟨r, h1, h2, h3⟩ := bsearch_ok hs s.items s.oc h.le h.sorted x s.items.length 0 s.oc (Nat.zero_le _) (Nat.le_refl _) (by have := h.le; omega)
    (fun i _ hi => absurd hi (Nat.not_lt_zero _)) (fun i _ h1 h2 => by omega)
  have hso : searchOrdered less s x = .ok r := by rw [searchOrdered, hmin, h1]
  cases hr : r.1 with
  | true =>
    obtain ⟨h4, h5, h6⟩ := h2 hr
    refine ⟨(some s.items[r.2], r.2), ?_, ?_, ?_, ?_⟩
    · simp [find, hso, hr, item_ok h5, Except.bind, Except.map]
    · simp only [Option.isSome_some, true_iff]
      exact ⟨_, List.getElem_mem h5, h6⟩
    · exact fun _ => ⟨h5, h6⟩
    · intro v hv _
      simp only [Option.some.injEq] at hv
      subst hv
      exact h6
  | false =>
    obtain ⟨h4, h5, h6⟩ := h3 hr
    have hno : ∀ i (hi : i < s.items.length), i < s.oc → ¬ Equiv less s.items[i] x := by
      intro i hi hio he
      by_cases c : i < r.2
      · have := he.1; rw [h5 i hi c] at this; cases this
      · have := he.2; rw [h6 i hi (by omega) hio] at this; cases this
    have hno2 : ¬ ∃ y ∈ s.items.take s.oc, Equiv less y x := by
      rintro ⟨y, hy, he⟩
      obtain ⟨i, hi, e⟩ := List.getElem_of_mem hy
      rw [List.length_take] at hi
      rw [List.getElem_take] at e
      subst e
      exact hno i (by omega) (by omega) he
    obtain ⟨u, h7, h8, h9⟩ := lsearch_ok (less := less) s.items x (s.items.length - s.oc) s.oc (by have := h.le; omega)
    have hsu : searchUnordered less s x = .ok u := by rw [searchUnordered, hmin, h7]
    cases hu : u.1 with
    | true =>
      obtain ⟨h10, h11, h12⟩ := h8 hu
      have hlt : r.2 < s.items.length := by omega
      refine ⟨(some s.items[r.2], u.2), ?_, ?_, ?_, fun _ _ hc => absurd hc hno2⟩
      · simp [find, hso, hr, hsu, hu, item_ok hlt, Except.bind, Except.map]
      · simp only [Option.isSome_some, true_iff]
        exact ⟨_, List.getElem_mem h11, h12⟩
      · exact fun _ => ⟨h11, h12⟩
    | false =>
      refine ⟨(none, r.2), ?_, ?_, by simp, by simp⟩
      · simp [find, hso, hr, hsu, hu, Except.bind]
      · simp only [Option.isSome_none, Bool.false_eq_true, false_iff, not_exists, not_and]
        intro y hy he
        obtain ⟨i, hi, e⟩ := List.getElem_of_mem hy
        subst e
        by_cases c : i < s.oc
        · exact hno i hi c he
        · exact h9 hu i hi (by omega) he

/-! ### Ordering -/

theorem swap_mid (A B : List α) (a b : α) : Heap.swap (A ++ a :: b :: B) A.length (A.length + 1) = some (A ++ b :: a :: B) := by
  simp [Heap.swap]

theorem bubble_ok (hs : StrictWeak less) : ∀ (k : Nat) (P : List α) (v : α) (R : List α), P.length = k → Sorted less P →
    ∃ P', bubble less k (P ++ v :: R) = some (P' ++ R) ∧ P'.Perm (P ++ [v]) ∧ Sorted less P' := by
  intro k
  induction k with
  | zero =>
    intro P v R hP _
    have : P = [] := List.length_eq_zero_iff.1 hP
    subst this
    exact ⟨[v], rfl, List.Perm.refl _, List.pairwise_singleton _ _⟩
  | succ k ih =>
    intro P v R hP hsort
    rcases List.eq_nil_or_concat P with e | ⟨A, a, e⟩
    · subst e; simp at hP
    · rw [List.concat_eq_append] at e
      subst e
      have hA : A.length = k := by simpa using hP
      have hsA : Sorted less A := (List.pairwise_append.1 hsort).1
      have hAa : ∀ y ∈ A, less a y = false := fun y hy => (List.pairwise_append.1 hsort).2.2 y hy a (by simp)
      have e1 : A ++ [a] ++ v :: R = A ++ a :: v :: R := by simp
      have g1 : (A ++ a :: v :: R)[k]? = some a := by rw [← hA]; simp
      have g2 : (A ++ a :: v :: R)[k + 1]? = some v := by
        rw [List.getElem?_append_right (by omega), show k + 1 - A.length = 1 by omega]; rfl
      rw [e1, bubble, g1, g2]
      by_cases c : less a v = true
      · refine ⟨A ++ [a, v], ?_, by simp, ?_⟩
        · simp [c]
        · rw [show A ++ [a, v] = (A ++ [a]) ++ [v] by simp]
          refine List.pairwise_append.2 ⟨hsort, List.pairwise_singleton _ _, ?_⟩
          intro y hy z hz
          simp only [List.mem_singleton] at hz
          subst hz
          rcases List.mem_append.1 hy with hy | hy
          · exact hs.negTrans _ _ _ (hs.asymm _ _ c) (hAa y hy)
          · simp only [List.mem_singleton] at hy
            subst hy
            exact hs.asymm _ _ c
      · obtain ⟨P', h1, h2, h3⟩ := ih A v (a :: R) hA hsA
        refine ⟨P' ++ [a], ?_, ?_, ?_⟩
        · simp only [c]
          have := swap_mid A R a v
          rw [hA] at this
          rw [this]
          simpa using h1
        · have := h2.append_right [a]
          refine this.trans ?_
          simp only [List.append_assoc]
          exact List.Perm.append_left A (List.Perm.swap a v [])
        · refine List.pairwise_append.2 ⟨h3, List.pairwise_singleton _ _, ?_⟩
          intro y hy z hz
          simp only [List.mem_singleton] at hz
          subst hz
          rcases List.mem_append.1 (h2.mem_iff.1 hy) with hy | hy
          · exact hAa y hy
          · simp only [List.mem_singleton] at hy
            subst hy
            simpa using c

theorem insLoop_ok (hs : StrictWeak less) : ∀ (k : Nat) (P R : List α), R.length = k → Sorted less P →
    ∃ l, insLoop less k P.length (P ++ R) = some l ∧ l.Perm (P ++ R) ∧ Sorted less l := by
  intro k
  induction k with
  | zero =>
    intro P R hR hsort
    have : R = [] := List.length_eq_zero_iff.1 hR
    subst this
    exact ⟨P, by simp [insLoop], by simp, hsort⟩
  | succ k ih =>
    intro P R hR hsort
    cases R with
    | nil => simp at hR
    | cons v R =>
      obtain ⟨P', h1, h2, h3⟩ := bubble_ok hs P.length P v R rfl hsort
      obtain ⟨l, h4, h5, h6⟩ := ih P' R (by simpa using hR) h3
      refine ⟨l, ?_, ?_, h6⟩
      · rw [insLoop, h1]
        show insLoop less k (P.length + 1) (P' ++ R) = _
        rw [← h4, h2.length_eq]
        simp
      · refine h5.trans ?_
        have := h2.append_right R
        simpa using this

/-- Ordering gives an ordered set of the same items. -/
theorem makeOrdered_ok (hs : StrictWeak less) (rest : St α → Except Err (St α)) {s : St α} (h : Inv less s) :
    ∃ t, makeOrdered less rest s = .ok t ∧ t.items.Perm s.items ∧ Sorted less t.items ∧ t.oc = t.items.length ∧ t.dup = s.dup := by
  unfold makeOrdered
  by_cases he : s.items = []
  · rw [if_pos he]
    refine ⟨s, rfl, .refl _, by rw [he]; exact .nil, ?_, rfl⟩
    have := h.le
    rw [he] at this ⊢
    simpa using this
  · rw [if_neg he]
    have hpos : 0 < s.items.length := List.length_pos_iff.2 he
    obtain ⟨oc, hoc⟩ : ∃ oc, oc = (if s.oc = 0 then s.oc + 1 else s.oc) := ⟨_, rfl⟩
    have hle : oc ≤ s.items.length := by
      rw [hoc]; split
      · omega
      · exact h.le
    have hsort : Sorted less (s.items.take oc) := by
      rw [hoc]; split
      · rename_i h0
        rw [h0]
        cases hl : s.items with
        | nil => exact .nil
        | cons a l => exact List.pairwise_singleton _ a
      · exact h.sorted
    simp only [← hoc]
    by_cases c1 : s.items.length ≤ oc
    · rw [if_pos c1]
      refine ⟨{ s with oc := oc }, rfl, .refl _, ?_, Nat.le_antisymm hle c1, rfl⟩
      rw [List.take_of_length_le c1] at hsort
      exact hsort
    · rw [if_neg c1]
      by_cases c2 : s.items.length - oc < 30
      · rw [if_pos c2]
        obtain ⟨l, h1, h2, h3⟩ := insLoop_ok hs (s.items.length - oc) (s.items.take oc) (s.items.drop oc) (by simp) hsort
        rw [List.take_append_drop] at h1 h2
        rw [List.length_take, Nat.min_eq_left hle] at h1
        exact ⟨{ s with items := l, oc := l.length }, by rw [h1]; rfl, h2, h3, rfl, rfl⟩
      · rw [if_neg c2]
        obtain ⟨l, h1, h2, h3⟩ := Heap.C15_heapsort_sorts hs s.items
        have hr : removeDuplicates rest { s with items := l, oc := oc } = .ok { s with items := l, oc := oc } := by
          unfold removeDuplicates
          rw [if_pos]
          right
          show oc < l.length
          rw [h2.length_eq]
          omega
        refine ⟨{ s with items := l, oc := l.length }, ?_, h2, h3, rfl, rfl⟩
        rw [h1]
        show Except.map _ (if s.dup = true then _ else _) = _
        cases hd : s.dup with
        | true => rfl
        | false => simp only [Bool.false_eq_true, if_false]; rw [← hd, hr]; rfl

theorem inv_of_sorted {t : St α} (h : Sorted less t.items) (ho : t.oc ≤ t.items.length) : Inv less t :=
  ⟨ho, List.Pairwise.sublist (List.take_sublist _ _) h⟩

theorem checkLoop_ok (hs : StrictWeak less) (l : List α) (hl : l ≠ []) : ∀ k i, i + k = l.length → i ≤ l.length - 1 → Sorted less (l.take (i + 1)) →
    ∃ r, checkLoop less l (l.length - 1) k i = .ok r ∧ r ≤ l.length - 1 ∧ Sorted less (l.take (r + 1)) := by
  have hpos : 0 < l.length := List.length_pos_iff.2 hl
  intro k
  induction k with
  | zero => intro i h1 h2 _; omega
  | succ k ih =>
    intro i h1 h2 h3
    rw [checkLoop]
    by_cases c : i < l.length - 1
    · rw [if_pos c, item_ok (by omega : i < l.length), item_ok (by omega : i + 1 < l.length)]
      show ∃ r, (if less l[i] l[i + 1] = true then _ else _) = _ ∧ _
      by_cases c2 : less l[i] l[i + 1] = true
      · rw [if_pos c2]
        refine ih (i + 1) (by omega) (by omega) ?_
        rw [List.take_add_one, List.getElem?_eq_getElem (by omega : i + 1 < l.length)]
        refine List.pairwise_append.2 ⟨h3, List.pairwise_singleton _ _, ?_⟩
        intro y hy z hz
        simp only [Option.toList_some, List.mem_singleton] at hz
        subst hz
        rw [List.take_add_one, List.getElem?_eq_getElem (by omega : i < l.length)] at h3 hy
        rcases List.mem_append.1 hy with hy | hy
        · have := (List.pairwise_append.1 h3).2.2 y hy l[i] (by simp)
          exact hs.negTrans _ _ _ (hs.asymm _ _ c2) this
        · simp only [Option.toList_some, List.mem_singleton] at hy
          subst hy
          exact hs.asymm _ _ c2
      · rw [if_neg c2]
        exact ⟨i, rfl, h2, h3⟩
    · rw [if_neg c]
      exact ⟨i, rfl, h2, h3⟩

/-! ### Histories -/

/-- Operations of a user. -/
inductive Op (α : Type)
  | add (v : α)
  | insert (i : Nat) (v : α)
  | insertN (i : Nat) (v : α) (n : Nat)
  | erase (i : Nat)
  | eraseN (i n : Nat)
  | trunc (n : Nat)
  | clear
  | makeOrdered
  | enableDuplicates (b : Bool)

/-- What the program does. -/
def run (less : α → α → Bool) (rest : St α → Except Err (St α)) (s : St α) : Op α → Except Err (St α)
  | .add v => .ok (add s v)
  | .insert i v => insert less s i v
  | .insertN i v n => insertN less s i v n
  | .erase i => erase s i
  | .eraseN i n => eraseN s i n
  | .trunc n => .ok (trunc s n)
  | .clear => .ok (clear s)
  | .makeOrdered => makeOrdered less rest s
  | .enableDuplicates b => .ok { s with dup := b }

def runAll (less : α → α → Bool) (rest : St α → Except Err (St α)) : St α → List (Op α) → Except Err (St α)
  | s, [] => .ok s
  | s, o :: os => (run less rest s o).bind fun s => runAll less rest s os

/-- The calls which keep the prefix ordered: repeated items are not inserted into the unordered part, `count` of `erase` is neither zero nor huge. -/
def Valid (s : St α) : Op α → Prop
  | .insertN i _ n => n = 1 ∨ i ≤ s.oc
  | .eraseN i n => 0 < n ∧ i + n < 2 ^ 64
  | _ => True

def ValidAll (less : α → α → Bool) (rest : St α → Except Err (St α)) : St α → List (Op α) → Prop
  | _, [] => True
  | s, o :: os => Valid s o ∧ ∀ t, run less rest s o = .ok t → ValidAll less rest t os

theorem sorted_take_le {l : List α} {m n : Nat} (h : Sorted less (l.take n)) (hm : m ≤ n) : Sorted less (l.take m) := by
  rw [show l.take m = (l.take n).take m by rw [List.take_take, Nat.min_eq_left hm]]
  exact List.Pairwise.sublist (List.take_sublist _ _) h

/-- A prefix before the place of the change. -/
theorem inv_before {s : St α} (h : Inv less s) (i : Nat) (l' : List α) (b : Bool) (hi : i ≤ s.oc) : Inv less ⟨s.items.take i ++ l', i, b⟩ := by
  have := h.le
  refine ⟨by simp; omega, ?_⟩
  have : (s.items.take i ++ l').take i = s.items.take i := by
    rw [List.take_append_of_le_length (by simp; omega), List.take_take, Nat.min_self]
  show Sorted less ((s.items.take i ++ l').take i)
  rw [this]
  exact sorted_take_le h.sorted hi

theorem take_insert {l : List α} {i n : Nat} (v : α) (hi : i < n) (hn : n ≤ l.length) :
    (l.take i ++ v :: l.drop i).take (n + 1) = l.take i ++ v :: (l.take n).drop i := by
  rw [List.take_append, List.take_of_length_le (by simp; omega), List.length_take, Nat.min_eq_left (by omega : i ≤ l.length),
    show n + 1 - i = (n - i) + 1 by omega, List.take_succ_cons, List.drop_take]

theorem insert_ok (hs : StrictWeak less) {s t : St α} (h : Inv less s) {i : Nat} {v : α} (ht : insert less s i v = .ok t) :
    i ≤ s.items.length ∧ t.items = s.items.take i ++ v :: s.items.drop i ∧ t.dup = s.dup ∧ Inv less t := by
  have hle := h.le
  unfold insert at ht
  by_cases c0 : s.items.length < i
  · rw [if_pos c0] at ht; cases ht
  rw [if_neg c0] at ht
  refine ⟨by omega, ?_⟩
  by_cases c1 : s.oc > i
  · rw [if_pos c1] at ht
    have hlen : (s.items.take i ++ v :: s.items.drop i).length = s.items.length + 1 := by simp; omega
    have gi : ∀ (hh : i < (s.items.take i ++ v :: s.items.drop i).length), (s.items.take i ++ v :: s.items.drop i)[i] = v := by
      intro hh
      rw [List.getElem_append_right (by simp; omega)]
      simp [Nat.min_eq_left (by omega : i ≤ s.items.length)]
    have gp : ∀ (hh : i - 1 < (s.items.take i ++ v :: s.items.drop i).length) (h0 : 0 < i), (s.items.take i ++ v :: s.items.drop i)[i - 1] = s.items[i - 1] := by
      intro hh h0
      rw [List.getElem_append_left (by simp; omega)]
      simp
    have gn : ∀ (hh : i + 1 < (s.items.take i ++ v :: s.items.drop i).length), (s.items.take i ++ v :: s.items.drop i)[i + 1] = s.items[i] := by
      intro hh
      rw [List.getElem_append_right (by simp; omega)]
      simp [Nat.min_eq_left (by omega : i ≤ s.items.length)]
    -- the two comparisons
    have key : ∀ (b1 b2 : Bool),
        (if i > 0 then (item (s.items.take i ++ v :: s.items.drop i) (i - 1)).bind fun a => (item (s.items.take i ++ v :: s.items.drop i) i).map fun b => !less a b else .ok false) = Except.ok b1 →
        (if i + 1 < (s.items.take i ++ v :: s.items.drop i).length then (item (s.items.take i ++ v :: s.items.drop i) i).bind fun a =>
          (item (s.items.take i ++ v :: s.items.drop i) (i + 1)).map fun b => !less a b else .ok false) = Except.ok b2 →
        b1 = false → b2 = false → (∀ h0 : 0 < i, less s.items[i - 1] v = true) ∧ less v s.items[i] = true := by
      intro b1 b2 e1 e2 f1 f2
      constructor
      · intro h0
        rw [if_pos h0, item_ok (by omega), item_ok (by omega), gp (by omega) h0, gi (by omega)] at e1
        injection e1 with e1
        rw [f1] at e1
        simpa using e1
      · rw [if_pos (by omega), item_ok (by omega), item_ok (by omega), gi (by omega), gn (by omega)] at e2
        injection e2 with e2
        rw [f2] at e2
        simpa using e2
    have ex1 : ∃ b1, (if i > 0 then (item (s.items.take i ++ v :: s.items.drop i) (i - 1)).bind fun a => (item (s.items.take i ++ v :: s.items.drop i) i).map fun b => !less a b else .ok false) = Except.ok b1 := by
      by_cases h0 : i > 0
      · rw [if_pos h0, item_ok (by omega), item_ok (by omega)]; exact ⟨_, rfl⟩
      · rw [if_neg h0]; exact ⟨_, rfl⟩
    have ex2 : ∃ b2, (if i + 1 < (s.items.take i ++ v :: s.items.drop i).length then (item (s.items.take i ++ v :: s.items.drop i) i).bind fun a =>
          (item (s.items.take i ++ v :: s.items.drop i) (i + 1)).map fun b => !less a b else .ok false) = Except.ok b2 := by
      rw [if_pos (by omega), item_ok (by omega), item_ok (by omega)]; exact ⟨_, rfl⟩
    obtain ⟨b1, e1⟩ := ex1
    obtain ⟨b2, e2⟩ := ex2
    have hk := key b1 b2 e1 e2
    rw [e1] at ht
    cases b1 with
    | true =>
      injection ht with ht
      subst ht
      exact ⟨rfl, rfl, inv_before h i _ s.dup (by omega)⟩
    | false =>
      rw [show ∀ f : Bool → Except Err (St α), (Except.ok false : Except Err Bool).bind f = f false from fun _ => rfl] at ht
      rw [if_neg (by simp), e2] at ht
      cases b2 with
      | true =>
        injection ht with ht
        subst ht
        exact ⟨rfl, rfl, inv_before h i _ s.dup (by omega)⟩
      | false =>
        injection ht with ht
        subst ht
        refine ⟨rfl, rfl, ?_, ?_⟩
        · show s.oc + 1 ≤ _
          simp only [Bool.false_eq_true, if_false]
          rw [hlen]; omega
        · obtain ⟨k1, k2⟩ := hk rfl rfl
          show Sorted less ((s.items.take i ++ v :: s.items.drop i).take (s.oc + 1))
          rw [take_insert v c1 hle]
          have hsplit : s.items.take s.oc = s.items.take i ++ (s.items.take s.oc).drop i := by
            rw [show s.items.take i = (s.items.take s.oc).take i by rw [List.take_take, Nat.min_eq_left (by omega)], List.take_append_drop]
          have hsort := h.sorted
          rw [hsplit] at hsort
          obtain ⟨s1, s2, s3⟩ := List.pairwise_append.1 hsort
          have hdrop : (s.items.take s.oc).drop i = s.items[i] :: (s.items.take s.oc).drop (i + 1) := by
            rw [List.drop_eq_getElem_cons (by simp; omega)]; simp
          have hvR : ∀ z ∈ (s.items.take s.oc).drop i, less z v = false := by
            intro z hz
            rw [hdrop] at hz s2
            rcases List.mem_cons.1 hz with e | hz
            · subst e; exact hs.asymm _ _ k2
            · exact hs.negTrans _ _ _ ((List.pairwise_cons.1 s2).1 z hz) (hs.asymm _ _ k2)
          refine List.pairwise_append.2 ⟨s1, List.pairwise_cons.2 ⟨hvR, s2⟩, ?_⟩
          intro y hy z hz
          have hyv : less v y = false := by
            by_cases h0 : 0 < i
            · have k1 := hs.asymm _ _ (k1 h0)
              have hl : s.items.take i = s.items.take (i - 1) ++ [s.items[i - 1]] := by
                have := List.take_add_one (l := s.items) (i := i - 1)
                rw [show i - 1 + 1 = i by omega, List.getElem?_eq_getElem (by omega)] at this
                simpa using this
              rw [hl] at hy s1
              rcases List.mem_append.1 hy with hy | hy
              · exact hs.negTrans _ _ _ k1 ((List.pairwise_append.1 s1).2.2 y hy _ (by simp))
              · simp only [List.mem_singleton] at hy
                subst hy
                exact k1
            · have : i = 0 := by omega
              subst this
              simp at hy
          rcases List.mem_cons.1 hz with e | hz
          · subst e; exact hyv
          · exact s3 y hy z hz
  · rw [if_neg c1] at ht
    injection ht with ht
    subst ht
    refine ⟨rfl, rfl, by simp; omega, ?_⟩
    show Sorted less ((s.items.take i ++ v :: s.items.drop i).take s.oc)
    rw [List.take_append_of_le_length (by simp; omega), List.take_take, Nat.min_eq_left (by omega)]
    exact h.sorted

theorem sorted_eraseIdx {l : List α} {i n m : Nat} (h : Sorted less (l.take n)) (hm : m ≤ n) (hm' : i < n → m < n) (hl : m ≤ l.length) : Sorted less ((l.eraseIdx i).take m) := by
  by_cases c : m ≤ i
  · rw [List.eraseIdx_eq_take_drop_succ, List.take_append_of_le_length (by simp; omega), List.take_take, Nat.min_eq_left c]
    exact sorted_take_le h hm
  · have hin : i < n := by omega
    have hmn := hm' hin
    have : (l.eraseIdx i).take m = (l.take (m + 1)).eraseIdx i := by
      rw [List.eraseIdx_eq_take_drop_succ, List.eraseIdx_eq_take_drop_succ, List.take_append, List.take_of_length_le (by simp; omega), List.length_take,
        Nat.min_eq_left (by omega : i ≤ l.length), List.take_take, Nat.min_eq_left (by omega), List.drop_take, show m + 1 - (i + 1) = m - i by omega]
    rw [this]
    exact List.Pairwise.sublist (List.eraseIdx_sublist _ _) (sorted_take_le h (by omega))

theorem run_inv (hs : StrictWeak less) (rest : St α → Except Err (St α)) {s t : St α} (h : Inv less s) (o : Op α) (ho : Valid s o)
    (ht : run less rest s o = .ok t) : Inv less t := by
  have hle := h.le
  cases o with
  | add v =>
    injection ht with ht
    subst ht
    refine ⟨by simp [add]; omega, ?_⟩
    show Sorted less ((s.items ++ [v]).take s.oc)
    rw [List.take_append_of_le_length hle]
    exact h.sorted
  | insert i v => exact (insert_ok hs h ht).2.2.2
  | insertN i v n =>
    change insertN less s i v n = .ok t at ht
    unfold insertN at ht
    by_cases c : n = 1
    · rw [if_pos c] at ht
      exact (insert_ok hs h ht).2.2.2
    · rw [if_neg c] at ht
      by_cases c2 : s.items.length < i
      · rw [if_pos c2] at ht; cases ht
      · rw [if_neg c2] at ht
        injection ht with ht
        subst ht
        have hi : i ≤ s.oc := by
          rcases ho with e | hi
          · exact absurd e c
          · exact hi
        simpa using inv_before h i (List.replicate n v ++ s.items.drop i) s.dup hi
  | erase i =>
    change erase s i = .ok t at ht
    unfold erase at ht
    by_cases c2 : s.items.length < i
    · rw [if_pos c2] at ht; cases ht
    · rw [if_neg c2] at ht
      injection ht with ht
      subst ht
      constructor
      · show (if s.oc > i then s.oc - 1 else s.oc) ≤ (s.items.eraseIdx i).length
        rw [List.length_eraseIdx]
        split <;> split <;> omega
      · show Sorted less ((s.items.eraseIdx i).take (if s.oc > i then s.oc - 1 else s.oc))
        split
        · exact sorted_eraseIdx h.sorted (by omega) (by omega) (by omega)
        · exact sorted_eraseIdx h.sorted (by omega) (by omega) (by omega)
  | eraseN i n =>
    change eraseN s i n = .ok t at ht
    unfold eraseN at ht
    by_cases c2 : s.items.length < i
    · rw [if_pos c2] at ht; cases ht
    · rw [if_neg c2] at ht
      injection ht with ht
      subst ht
      obtain ⟨hn0, ho⟩ := ho
      rw [Nat.mod_eq_of_lt ho]
      obtain ⟨m, hm⟩ : ∃ m, m = (if s.oc > i + n then (if n ≤ s.oc then s.oc - n else 2 ^ 64 - (n - s.oc)) else if s.oc > i then i else s.oc) := ⟨_, rfl⟩
      have hml : m ≤ s.oc ∧ (i < s.oc → m < s.oc) := by
        rw [hm]
        split
        · rw [if_pos (by omega)]; omega
        · split <;> omega
      simp only [← hm]
      constructor
      · have : (s.items.eraseIdx i).length = if i < s.items.length then s.items.length - 1 else s.items.length := List.length_eraseIdx ..
        show m ≤ (s.items.eraseIdx i).length
        rw [this]
        split <;> omega
      · exact sorted_eraseIdx h.sorted hml.1 hml.2 (Nat.le_trans hml.1 hle)
  | trunc n =>
    injection ht with ht
    subst ht
    constructor
    · simp only [trunc]; split <;> omega
    · show Sorted less ((s.items.take (s.items.length - n)).take (if s.oc > (s.items.take (s.items.length - n)).length then (s.items.take (s.items.length - n)).length else s.oc))
      refine List.Pairwise.sublist ?_ (sorted_take_le h.sorted (m := min (s.items.length - n) s.oc) (by omega))
      rw [List.take_take]
      refine List.IsPrefix.sublist ?_
      apply List.take_prefix_take_left
      simp only [List.length_take]
      split <;> omega
  | clear =>
    injection ht with ht
    subst ht
    exact ⟨Nat.le_refl _, .nil⟩
  | makeOrdered =>
    obtain ⟨u, h1, -, h3, h4, -⟩ := makeOrdered_ok hs rest h
    change makeOrdered less rest s = .ok t at ht
    rw [h1] at ht
    injection ht with ht
    subst ht
    exact inv_of_sorted h3 (by omega)
  | enableDuplicates b =>
    injection ht with ht
    subst ht
    exact ⟨h.le, h.sorted⟩

theorem runAll_inv (hs : StrictWeak less) (rest : St α → Except Err (St α)) (os : List (Op α)) : ∀ {s t : St α}, Inv less s → ValidAll less rest s os →
    runAll less rest s os = .ok t → Inv less t := by
  induction os with
  | nil =>
    intro s t h _ ht
    injection ht with ht
    exact ht ▸ h
  | cons o os ih =>
    intro s t h hv ht
    rw [runAll] at ht
    cases hr : run less rest s o with
    | error e => rw [hr] at ht; cases ht
    | ok u =>
      rw [hr] at ht
      exact ih (run_inv hs rest h o hv.1 hr) (hv.2 u hr) ht

/-! ### C25 -/

/-- The constructors give sets whose prefix is ordered; `alreadyOrdered` needs ordered data, `detectOrder` some data. -/
theorem create_inv (hs : StrictWeak less) (rest : St α → Except Err (St α)) (l : List α) (o : Order)
    (ho : match o with | .detectOrder => l ≠ [] | .alreadyOrdered => Sorted less l | _ => True) :
    ∃ s, create less rest l o = .ok s ∧ s.items.Perm l ∧ Inv less s := by
  have h0 : ∀ b, Inv less (⟨l, 0, b⟩ : St α) := fun b => ⟨Nat.zero_le _, .nil⟩
  cases o with
  | detectOrder =>
    have hpos : 0 < l.length := List.length_pos_iff.2 ho
    obtain ⟨r, h1, h2, h3⟩ := checkLoop_ok hs l ho l.length 0 (by omega) (Nat.zero_le _) (by
      cases l with
      | nil => exact .nil
      | cons a l => exact List.pairwise_singleton _ a)
    refine ⟨⟨l, r, false⟩, ?_, .refl _, by show r ≤ l.length; omega, sorted_take_le h3 (Nat.le_succ _)⟩
    simp only [create, checkOrder]
    rw [if_neg (by omega), h1]
    rfl
  | orderNow =>
    obtain ⟨t, h1, h2, h3, h4, -⟩ := makeOrdered_ok hs rest (h0 false)
    exact ⟨t, h1, h2, inv_of_sorted h3 (by omega)⟩
  | orderNowAllowDups =>
    obtain ⟨t, h1, h2, h3, h4, -⟩ := makeOrdered_ok hs rest (h0 true)
    exact ⟨t, h1, h2, inv_of_sorted h3 (by omega)⟩
  | alreadyOrdered => exact ⟨⟨l, l.length, false⟩, rfl, .refl _, inv_of_sorted ho (Nat.le_refl _)⟩

/-- After any history of calls which keep the prefix ordered, lookup reports an item exactly when the array holds an equivalent one, and the
position it gives is the position of such an item.  What is missing: the pointer (`C25_find_item_violated`), and the calls which break the
prefix (`C25_insert_violated`, `C25_erase_violated`, `C25_erase_zero_violated`, `C25_resize_violated`). -/
theorem C25_find_partial (hs : StrictWeak less) (rest : St α → Except Err (St α)) (os : List (Op α)) (s : St α)
    (hv : ValidAll less rest (empty α) os) (h : runAll less rest (empty α) os = .ok s) (x : α) :
    ∃ r, find less s x = .ok r ∧ (r.1.isSome = true ↔ ∃ y ∈ s.items, Equiv less y x) ∧
      (r.1.isSome = true → ∃ hp : r.2 < s.items.length, Equiv less s.items[r.2] x) := by
  have h0 : Inv less (empty α) := ⟨Nat.le_refl _, .nil⟩
  have hi : Inv less s := runAll_inv hs rest os h0 hv h
  obtain ⟨r, h1, h2, h3, -⟩ := find_ok hs hi x
  exact ⟨r, h1, h2, h3⟩

/-- The same for a set made from other data. -/
theorem C25_create_find_partial (hs : StrictWeak less) (rest : St α → Except Err (St α)) (l : List α) (o : Order)
    (ho : match o with | .detectOrder => l ≠ [] | .alreadyOrdered => Sorted less l | _ => True) (x : α) :
    ∃ s r, create less rest l o = .ok s ∧ find less s x = .ok r ∧ (r.1.isSome = true ↔ ∃ y ∈ l, Equiv less y x) := by
  obtain ⟨s, h1, h2, h3⟩ := create_inv hs rest l o ho
  obtain ⟨r, h4, h5, -⟩ := find_ok hs h3 x
  refine ⟨s, r, h1, h4, h5.trans ?_⟩
  constructor
  · rintro ⟨y, hy, he⟩; exact ⟨y, h2.mem_iff.1 hy, he⟩
  · rintro ⟨y, hy, he⟩; exact ⟨y, h2.mem_iff.2 hy, he⟩

/-- The calls change the items as the array operations do. -/
theorem C25_items (hs : StrictWeak less) (rest : St α → Except Err (St α)) {s : St α} (h : Inv less s) :
    (∀ v, (add s v).items = s.items ++ [v]) ∧
    (∀ i v t, insert less s i v = .ok t → t.items = s.items.take i ++ v :: s.items.drop i) ∧
    (∀ i t, erase s i = .ok t → t.items = s.items.eraseIdx i) ∧
    (∃ t, makeOrdered less rest s = .ok t ∧ isOrdered t = true ∧ Sorted less t.items ∧ t.items.Perm s.items) := by
  refine ⟨fun v => rfl, fun i v t ht => (insert_ok hs h ht).2.1, ?_, ?_⟩
  · intro i t ht
    unfold erase at ht
    split at ht
    · cases ht
    · injection ht with ht
      subst ht
      rfl
  · obtain ⟨t, h1, h2, h3, h4, -⟩ := makeOrdered_ok hs rest h
    exact ⟨t, h1, by simp [isOrdered, h4], h3, h2⟩

def lt (a b : Nat × Nat) : Bool := a.1 < b.1

def noRest : St (Nat × Nat) → Except Err (St (Nat × Nat)) := fun _ => .error .ub

/-- Keys with a payload: an ordered part, an insertion into it, an unordered tail. -/
example : ∃ s, runAll lt noRest (empty _) [.add (5, 0), .add (2, 1), .makeOrdered, .insert 1 (3, 2), .add (1, 3), .add (9, 4), .erase 0] = .ok s ∧
    s.items = [(3, 2), (5, 0), (1, 3), (9, 4)] ∧ s.oc = 2 ∧ find lt s (9, 7) = .ok (some (1, 3), 3) ∧ find lt s (5, 7) = .ok (some (5, 0), 1) ∧
    find lt s (4, 0) = .ok (none, 1) := ⟨_, rfl, rfl, rfl, rfl, rfl, rfl⟩

/-- An item of the unordered part is found, but the pointer goes to another item: looking for `1` gives `3`. -/
theorem C25_find_item_violated : ∃ s r, runAll lt noRest (empty _) [.add (3, 0), .makeOrdered, .add (1, 1)] = .ok s ∧
    find lt s (1, 0) = .ok r ∧ r = (some (3, 0), 1) ∧ ¬ Equiv lt (3, 0) (1, 0) := ⟨_, _, rfl, rfl, rfl, by unfold Equiv; decide⟩

/-- Ordering never removes duplicates, whatever their number. -/
theorem C25_duplicates_violated (hs : StrictWeak less) (rest : St α → Except Err (St α)) {s : St α} (h : Inv less s) :
    ∃ t, makeOrdered less rest s = .ok t ∧ t.items.length = s.items.length ∧ ∀ x, (t.items.countP fun y => !less x y && !less y x) = s.items.countP fun y => !less x y && !less y x := by
  obtain ⟨t, h1, h2, -⟩ := makeOrdered_ok hs rest h
  exact ⟨t, h1, h2.length_eq, fun x => h2.countP_eq _⟩

example : ∃ s t, runAll lt noRest (empty _) ((List.replicate 40 (7, 0)).map Op.add ++ [.enableDuplicates false]) = .ok s ∧ makeOrdered lt noRest s = .ok t ∧
    t.items.length = 40 := by
  refine ⟨⟨List.replicate 40 (7, 0), 0, false⟩, ⟨List.replicate 40 (7, 0), 40, false⟩, by rfl, by rfl, by simp⟩

/-- `insert` of several items into the unordered part calls everything before them ordered; the item `5` is not found any more. -/
theorem C25_insert_violated : ∃ s r, runAll lt noRest (empty _) [.add (5, 0), .add (1, 0), .insertN 2 (9, 0) 2] = .ok s ∧
    s.items = [(5, 0), (1, 0), (9, 0), (9, 0)] ∧ find lt s (5, 0) = .ok r ∧ r.1 = none := ⟨_, _, rfl, rfl, rfl, rfl⟩

/-- `erase(at, count)` erases one item; with `count = 2^64 - 1` the ordered part grows by one, and the item `0` is not found any more. -/
theorem C25_erase_violated : ∃ s r, runAll lt noRest (empty _) [.add (1, 0), .add (2, 0), .add (3, 0), .makeOrdered, .add (0, 0), .eraseN 1 (2 ^ 64 - 1)] = .ok s ∧
    s.items = [(1, 0), (3, 0), (0, 0)] ∧ find lt s (0, 0) = .ok r ∧ r.1 = none := ⟨_, _, rfl, rfl, rfl, rfl⟩

/-- `erase(at, count)` with a usual count: two items should go, one does. -/
theorem C25_erase_count_violated : ∃ s, runAll lt noRest (empty _) [.add (1, 0), .add (2, 0), .add (3, 0), .eraseN 0 2] = .ok s ∧ s.items = [(2, 0), (3, 0)] := ⟨_, rfl, rfl⟩

/-- `erase(at, 0)` erases an item and keeps the size of the ordered part; the item `3` is not found any more. -/
theorem C25_erase_zero_violated : ∃ s r, runAll lt noRest (empty _) [.add (1, 0), .add (3, 0), .makeOrdered, .add (2, 0), .eraseN 0 0] = .ok s ∧
    s.items = [(3, 0), (2, 0)] ∧ find lt s (3, 0) = .ok r ∧ r.1 = none := ⟨_, _, rfl, rfl, rfl, rfl⟩

/-- `resize` comes from the array and does not lower `orderedCount`; items added later are taken for ordered. -/
theorem C25_resize_violated : ∃ s t r, runAll lt noRest (empty _) [.add (1, 0), .add (2, 0), .makeOrdered] = .ok s ∧
    runAll lt noRest (resize s 0 (0, 0)) [.add (5, 0), .add (1, 0)] = .ok t ∧ t.items = [(5, 0), (1, 0)] ∧ find lt t (5, 0) = .ok r ∧ r.1 = none :=
  ⟨_, _, _, rfl, rfl, rfl, rfl, rfl⟩

/-- `checkOrder` of an empty array reads an item which is not there, and it does not recognise an ordered array. -/
theorem C25_detect_violated : create lt noRest [] .detectOrder = .error .ub ∧
    ∃ s, create lt noRest [(1, 0), (2, 0), (3, 0)] .detectOrder = .ok s ∧ isOrdered s = false := ⟨rfl, _, rfl, rfl⟩

end LS.ArraySet

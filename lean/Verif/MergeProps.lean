import Verif.Merge
import Verif.HeapProps
/-
C114: the merge iterator gives what its functor says, and the functors concatenate and merge.
-/
namespace LS.Merge
open LS.Heap (StrictWeak Sorted)
variable {α : Type}

/-! ## What a functor says, after its documentation (merge.h:21-44) -/

/-- One item is taken from the source, or none. -/
inductive Takes : Bool → List α → List α → Prop
  | no (l : List α) : Takes false l l
  | yes (x : α) (l : List α) : Takes true (x :: l) l

inductive Gen (F : Fn α) : List α → List α → List α → Prop
  /-- both sources are at the end -/
  | done : Gen F [] [] []
  /-- neither result nor commit: the end -/
  | stop {l r : List α} : ¬(l = [] ∧ r = []) → F l.head? r.head? = some ⟨none, false, false⟩ → Gen F l r []
  /-- a result -/
  | emit {l r l' r' out : List α} {x : α} {cl cr : Bool} : ¬(l = [] ∧ r = []) → F l.head? r.head? = some ⟨some x, cl, cr⟩ →
      Takes cl l l' → Takes cr r r' → Gen F l' r' out → Gen F l r (x :: out)
  /-- commit without result -/
  | drop {l r l' r' out : List α} {cl cr : Bool} : ¬(l = [] ∧ r = []) → F l.head? r.head? = some ⟨none, cl, cr⟩ → cl = true ∨ cr = true →
      Takes cl l l' → Takes cr r r' → Gen F l' r' out → Gen F l r out

/-! ## The iterator -/

inductive Op where
  | has
  | peek
  | next
deriving DecidableEq, Repr

/-- `none`: the exception at the end. -/
inductive Ev (α : Type) where
  | has (b : Bool)
  | peek (x : Option α)
  | next (x : Option α)
  /-- undefined, or does not return -/
  | bad
deriving DecidableEq, Repr

/-- The calls on a plain list. -/
def plain : List α → List Op → List (Ev α)
  | _, [] => []
  | t, .has :: os => .has (!t.isEmpty) :: plain t os
  | t, .peek :: os => .peek t.head? :: plain t os
  | t, .next :: os => .next t.head? :: plain t.tail os

/-- The calls on the iterator. -/
def run (F : Fn α) : St α → List Op → List (Ev α)
  | _, [] => []
  | s, .has :: os =>
    match hasItems F s with
    | .ok (b, s) => .has b :: run F s os
    | _ => [.bad]
  | s, .peek :: os =>
    match peek F s with
    | .ok (x, s) => .peek (some x) :: run F s os
    | .thrown =>
      match ready F s with
      | .ok s => .peek none :: run F s os
      | _ => [.bad]
    | _ => [.bad]
  | s, .next :: os =>
    match getNext F s with
    | .ok (x, s) => .next (some x) :: run F s os
    | .thrown =>
      match ready F s with
      | .ok s => .next none :: run F s os
      | _ => [.bad]
    | _ => [.bad]

theorem takes_skip {b : Bool} {l l' : List α} : Takes b l l' ↔ skip b l = some l' := by
  unfold skip
  constructor
  · intro h; cases h <;> rfl
  · intro h
    cases b with
    | false => simp only [Bool.false_eq_true, if_false, Option.some.injEq] at h; subst h; exact .no _
    | true =>
      cases l with
      | nil => simp at h
      | cons x l => simp only [if_true, Option.some.injEq] at h; subst h; exact .yes _ _

/-- What is still to come: `out`. -/
def Later (F : Fn α) (s : St α) (out : List α) : Prop :=
  ∃ l r, Takes s.cached.cl s.l l ∧ Takes s.cached.cr s.r r ∧ Gen F l r out

def Rel (F : Fn α) (s : St α) (out : List α) : Prop :=
  if s.prepared then
    match s.cached.res with
    | some x => ∃ out', out = x :: out' ∧ Later F s out'
    | none => out = []
  else Later F s out

theorem takes_len {b : Bool} {l l' : List α} (h : Takes b l l') : l'.length ≤ l.length ∧ (b = true → l'.length < l.length) := by
  cases h <;> simp

theorem prepare_ok {F : Fn α} {l r out : List α} (g : Gen F l r out) : ∀ (n : Nat) (s : St α), l.length + r.length < n →
    Takes s.cached.cl s.l l → Takes s.cached.cr s.r r → ∃ s', prepare F n s = .ok s' ∧ s'.prepared = true ∧ Rel F s' out := by
  induction g with
  | done =>
    intro n s hn h1 h2
    obtain ⟨n, rfl⟩ : ∃ m, n = m + 1 := ⟨n - 1, by omega⟩
    rw [prepare, takes_skip.mp h1]
    simp only [takes_skip.mp h2]
    exact ⟨_, rfl, rfl, rfl⟩
  | @stop l r he hf =>
    intro n s hn h1 h2
    obtain ⟨n, rfl⟩ : ∃ m, n = m + 1 := ⟨n - 1, by omega⟩
    rw [prepare, takes_skip.mp h1]
    simp only [takes_skip.mp h2]
    have : (l.isEmpty && r.isEmpty) = false := by
      cases l <;> cases r <;> simp at he ⊢
    rw [this]
    simp only [Bool.false_eq_true, if_false, hf]
    exact ⟨_, rfl, rfl, rfl⟩
  | @emit l r l' r' out x cl cr he hf t1 t2 g ih =>
    intro n s hn h1 h2
    obtain ⟨n, rfl⟩ : ∃ m, n = m + 1 := ⟨n - 1, by omega⟩
    rw [prepare, takes_skip.mp h1]
    simp only [takes_skip.mp h2]
    have : (l.isEmpty && r.isEmpty) = false := by
      cases l <;> cases r <;> simp at he ⊢
    rw [this]
    simp only [Bool.false_eq_true, if_false, hf]
    exact ⟨_, rfl, rfl, out, rfl, l', r', t1, t2, g⟩
  | @drop l r l' r' out cl cr he hf hc t1 t2 g ih =>
    intro n s hn h1 h2
    obtain ⟨n, rfl⟩ : ∃ m, n = m + 1 := ⟨n - 1, by omega⟩
    rw [prepare, takes_skip.mp h1]
    simp only [takes_skip.mp h2]
    have : (l.isEmpty && r.isEmpty) = false := by
      cases l <;> cases r <;> simp at he ⊢
    rw [this]
    have hc' : (cl || cr) = true := by rcases hc with h | h <;> simp [h]
    simp only [Bool.false_eq_true, if_false, hf, Option.isNone_none, hc', Bool.and_self, if_true]
    have k1 := takes_len t1
    have k2 := takes_len t2
    refine ih n ⟨l, r, true, ⟨none, cl, cr⟩⟩ ?_ t1 t2
    rcases hc with h | h
    · have := k1.2 h; omega
    · have := k2.2 h; omega

theorem ready_ok {F : Fn α} {s : St α} {out : List α} (h : Rel F s out) : ∃ s', ready F s = .ok s' ∧ s'.prepared = true ∧ Rel F s' out := by
  unfold ready
  cases hp : s.prepared with
  | true => exact ⟨s, rfl, hp, h⟩
  | false =>
    unfold Rel at h
    rw [hp] at h
    simp only [Bool.false_eq_true, if_false] at h
    obtain ⟨l, r, t1, t2, g⟩ := h
    have k1 := takes_len t1
    have k2 := takes_len t2
    simp only [Bool.false_eq_true, if_false]
    exact prepare_ok g _ s (by omega) t1 t2

theorem run_rel {F : Fn α} : ∀ (os : List Op) {s : St α} {out : List α}, Rel F s out → run F s os = plain out os
  | [], _, _, _ => rfl
  | o :: os, s, out, h => by
    obtain ⟨s', e, hp, h'⟩ := ready_ok h
    have h2 := h'
    unfold Rel at h2
    rw [hp] at h2
    simp only [if_true] at h2
    cases hr : s'.cached.res with
    | some x =>
      rw [hr] at h2
      obtain ⟨out', rfl, hl⟩ := h2
      cases o with
      | has => simp only [run, hasItems, e, hr, plain, run_rel os h']; rfl
      | peek => simp only [run, peek, e, hr, plain, run_rel os h']; rfl
      | next =>
        have : Rel F { s' with prepared := false } out' := by unfold Rel; exact hl
        simp only [run, getNext, e, hr, plain, run_rel os this]; rfl
    | none =>
      rw [hr] at h2
      simp only at h2
      subst h2
      cases o with
      | has => simp only [run, hasItems, e, hr, plain, run_rel os h']; rfl
      | peek => simp only [run, peek, e, hr, plain, run_rel os h']; rfl
      | next => simp only [run, getNext, e, hr, plain, run_rel os h']; rfl

/-- C114: for every functor and all calls, the iterator gives the items the functor's documentation says. -/
theorem C114_iterator {F : Fn α} {l r out : List α} (g : Gen F l r out) (os : List Op) : run F { l := l, r := r } os = plain out os :=
  run_rel os ⟨l, r, .no _, .no _, g⟩

/-- The functor determines the items. -/
theorem Gen.det {F : Fn α} {l r out out' : List α} (g : Gen F l r out) (g' : Gen F l r out') : out = out' := by
  have td : ∀ {b : Bool} {l l1 l2 : List α}, Takes b l l1 → Takes b l l2 → l1 = l2 := by
    intro b l l1 l2 h1 h2
    have := takes_skip.mp h1
    rw [takes_skip.mp h2] at this
    exact (Option.some.inj this).symm
  induction g generalizing out' with
  | done =>
    cases g' with
    | done => rfl
    | stop h => exact absurd ⟨rfl, rfl⟩ h
    | emit h => exact absurd ⟨rfl, rfl⟩ h
    | drop h => exact absurd ⟨rfl, rfl⟩ h
  | stop he hf =>
    cases g' with
    | done => exact absurd ⟨rfl, rfl⟩ he
    | stop => rfl
    | emit _ h => rw [hf] at h; cases h
    | drop _ h hc => rw [hf] at h; cases h; rcases hc with hc | hc <;> cases hc
  | emit he hf t1 t2 _ ih =>
    cases g' with
    | done => exact absurd ⟨rfl, rfl⟩ he
    | stop _ h => rw [hf] at h; cases h
    | emit _ h s1 s2 g =>
      rw [hf] at h; cases h
      have e1 := td t1 s1
      have e2 := td t2 s2
      subst e1 e2
      rw [ih g]
    | drop _ h => rw [hf] at h; cases h
  | drop he hf hc t1 t2 _ ih =>
    cases g' with
    | done => exact absurd ⟨rfl, rfl⟩ he
    | stop _ h => rw [hf] at h; cases h; rcases hc with hc | hc <;> cases hc
    | emit _ h => rw [hf] at h; cases h
    | drop _ h _ s1 s2 g =>
      rw [hf] at h; cases h
      have e1 := td t1 s1
      have e2 := td t2 s2
      subst e1 e2
      exact ih g

/-! ## The functors -/

theorem concat_gen : ∀ (l r : List α), Gen concatFn l r (l ++ r)
  | [], [] => .done
  | [], y :: r => .emit (by simp) rfl (.no _) (.yes _ _) (concat_gen [] r)
  | x :: l, r => .emit (by simp) rfl (.yes _ _) (.no _) (concat_gen l r)

/-- C114: concatenation. -/
theorem C114_concat (l r : List α) (os : List Op) : run concatFn { l := l, r := r } os = plain (l ++ r) os := C114_iterator (concat_gen l r) os

theorem lt_trans {less : α → α → Bool} (hs : StrictWeak less) {a b c : α} (h1 : less a b = true) (h2 : less b c = true) : less a c = true := by
  cases h : less a c with
  | true => rfl
  | false => rw [hs.negTrans a c b h (hs.asymm _ _ h2)] at h1; cases h1

theorem lt_le {less : α → α → Bool} (hs : StrictWeak less) {a b c : α} (h1 : less a b = true) (h2 : less c b = false) : less a c = true := by
  cases h : less a c with
  | true => rfl
  | false => rw [hs.negTrans a c b h h2] at h1; cases h1

theorem le_lt {less : α → α → Bool} (hs : StrictWeak less) {a b c : α} (h1 : less b a = false) (h2 : less b c = true) : less a c = true := by
  cases h : less a c with
  | true => rfl
  | false => rw [hs.negTrans b a c h1 h] at h2; cases h2

theorem sorted_gen {less : α → α → Bool} (hs : StrictWeak less) : ∀ (n : Nat) (l r : List α), l.length + r.length = n → Sorted less l → Sorted less r →
    ∃ out, Gen (sortedFn less true) l r out ∧ out.Perm (l ++ r) ∧ Sorted less out
  | _, [], [], _, _, _ => ⟨[], .done, List.Perm.refl _, List.Pairwise.nil⟩
  | n, x :: l, [], h, s1, s2 => by
    obtain ⟨out, g, p, s⟩ := sorted_gen hs (n - 1) l [] (by simp at h ⊢; omega) s1.of_cons s2
    refine ⟨x :: out, .emit (by simp) rfl (.yes _ _) (.no _) g, p.cons x, List.pairwise_cons.mpr ⟨fun y hy => ?_, s⟩⟩
    have := p.mem_iff.mp hy
    rw [List.append_nil] at this
    exact (List.pairwise_cons.mp s1).1 y this
  | n, [], y :: r, h, s1, s2 => by
    obtain ⟨out, g, p, s⟩ := sorted_gen hs (n - 1) [] r (by simp at h ⊢; omega) s1 s2.of_cons
    refine ⟨y :: out, .emit (by simp) rfl (.no _) (.yes _ _) g, p.cons y, List.pairwise_cons.mpr ⟨fun z hz => ?_, s⟩⟩
    exact (List.pairwise_cons.mp s2).1 z (p.mem_iff.mp hz)
  | n, x :: l, y :: r, h, s1, s2 => by
    have k1 := (List.pairwise_cons.mp s1).1
    have k2 := (List.pairwise_cons.mp s2).1
    cases hxy : less x y with
    | true =>
      obtain ⟨out, g, p, s⟩ := sorted_gen hs (n - 1) l (y :: r) (by simp at h ⊢; omega) s1.of_cons s2
      refine ⟨x :: out, .emit (by simp) (by simp [sortedFn, hxy]) (.yes _ _) (.no _) g, p.cons x, List.pairwise_cons.mpr ⟨fun z hz => ?_, s⟩⟩
      rcases List.mem_append.mp (p.mem_iff.mp hz) with hz | hz
      · exact k1 z hz
      · rcases List.mem_cons.mp hz with rfl | hz
        · exact hs.asymm _ _ hxy
        · exact hs.asymm _ _ (lt_le hs hxy (k2 z hz))
    | false =>
      obtain ⟨out, g, p, s⟩ := sorted_gen hs (n - 1) (x :: l) r (by simp at h ⊢; omega) s1 s2.of_cons
      refine ⟨y :: out, .emit (by simp) (by simp [sortedFn, hxy]) (.no _) (.yes _ _) g, (p.cons y).trans List.perm_middle.symm, List.pairwise_cons.mpr ⟨fun z hz => ?_, s⟩⟩
      rcases List.mem_append.mp (p.mem_iff.mp hz) with hz | hz
      · rcases List.mem_cons.mp hz with rfl | hz
        · exact hxy
        · exact hs.negTrans z x y (k1 z hz) hxy
      · exact k2 z hz
termination_by n => n
decreasing_by all_goals (simp only [List.length_cons, List.length_nil] at h; omega)

/-- C114: merging two sorted arrays with duplicates gives all items of both, sorted. -/
theorem C114_sorted {less : α → α → Bool} (hs : StrictWeak less) {l r : List α} (s1 : Sorted less l) (s2 : Sorted less r) :
    ∃ out, (∀ os, run (sortedFn less true) { l := l, r := r } os = plain out os) ∧ out.Perm (l ++ r) ∧ Sorted less out := by
  obtain ⟨out, g, p, s⟩ := sorted_gen hs _ l r rfl s1 s2
  exact ⟨out, C114_iterator g, p, s⟩

theorem union_gen {less : α → α → Bool} (hs : StrictWeak less) : ∀ (n : Nat) (l r : List α), l.length + r.length = n → l.Pairwise (fun a b => less a b = true) →
    r.Pairwise (fun a b => less a b = true) →
    ∃ out, Gen (sortedFn less false) l r out ∧ out.Pairwise (fun a b => less a b = true) ∧ (∀ z, z ∈ out → z ∈ l ∨ z ∈ r) ∧ (∀ z, z ∈ l → z ∈ out) ∧
      ∀ z, z ∈ r → ∃ w, w ∈ out ∧ less z w = false ∧ less w z = false
  | _, [], [], _, _, _ => ⟨[], .done, .nil, by simp, by simp, by simp⟩
  | n, x :: l, [], h, s1, s2 => by
    obtain ⟨out, g, s, m1, m2, m3⟩ := union_gen hs (n - 1) l [] (by simp at h ⊢; omega) s1.of_cons s2
    refine ⟨x :: out, .emit (by simp) rfl (.yes _ _) (.no _) g, List.pairwise_cons.mpr ⟨fun y hy => ?_, s⟩, ?_, ?_, by simp⟩
    · rcases m1 y hy with h | h
      · exact (List.pairwise_cons.mp s1).1 y h
      · cases h
    · intro z hz
      rcases List.mem_cons.mp hz with rfl | hz
      · exact .inl List.mem_cons_self
      · exact (m1 z hz).imp_left (List.mem_cons_of_mem x)
    · intro z hz
      rcases List.mem_cons.mp hz with rfl | hz
      · exact List.mem_cons_self
      · exact List.mem_cons_of_mem _ (m2 z hz)
  | n, [], y :: r, h, s1, s2 => by
    obtain ⟨out, g, s, m1, m2, m3⟩ := union_gen hs (n - 1) [] r (by simp at h ⊢; omega) s1 s2.of_cons
    refine ⟨y :: out, .emit (by simp) rfl (.no _) (.yes _ _) g, List.pairwise_cons.mpr ⟨fun z hz => ?_, s⟩, ?_, by simp, ?_⟩
    · rcases m1 z hz with h | h
      · cases h
      · exact (List.pairwise_cons.mp s2).1 z h
    · intro z hz
      rcases List.mem_cons.mp hz with rfl | hz
      · exact .inr List.mem_cons_self
      · exact (m1 z hz).imp_right (List.mem_cons_of_mem y)
    · intro z hz
      rcases List.mem_cons.mp hz with rfl | hz
      · refine ⟨z, List.mem_cons_self, ?_⟩
        have : less z z = false := by
          cases q : less z z with
          | false => rfl
          | true => rw [← q]; exact hs.asymm _ _ q
        exact ⟨this, this⟩
      · obtain ⟨w, h1, h2⟩ := m3 z hz
        exact ⟨w, List.mem_cons_of_mem _ h1, h2⟩
  | n, x :: l, y :: r, h, s1, s2 => by
    have irr : ∀ z, less z z = false := fun z => by
      cases q : less z z with
      | false => rfl
      | true => rw [← q]; exact hs.asymm _ _ q
    have k1 := (List.pairwise_cons.mp s1).1
    have k2 := (List.pairwise_cons.mp s2).1
    cases hxy : less x y with
    | true =>
      obtain ⟨out, g, s, m1, m2, m3⟩ := union_gen hs (n - 1) l (y :: r) (by simp at h ⊢; omega) s1.of_cons s2
      refine ⟨x :: out, .emit (by simp) (by simp [sortedFn, hxy]) (.yes _ _) (.no _) g, List.pairwise_cons.mpr ⟨fun z hz => ?_, s⟩, ?_, ?_, ?_⟩
      · rcases m1 z hz with hz | hz
        · exact k1 z hz
        · rcases List.mem_cons.mp hz with rfl | hz
          · exact hxy
          · exact lt_trans hs hxy (k2 z hz)
      · intro z hz
        rcases List.mem_cons.mp hz with rfl | hz
        · exact .inl List.mem_cons_self
        · exact (m1 z hz).imp_left (List.mem_cons_of_mem x)
      · intro z hz
        rcases List.mem_cons.mp hz with rfl | hz
        · exact List.mem_cons_self
        · exact List.mem_cons_of_mem _ (m2 z hz)
      · intro z hz
        obtain ⟨w, h1, h2⟩ := m3 z hz
        exact ⟨w, List.mem_cons_of_mem _ h1, h2⟩
    | false =>
      cases hyx : less y x with
      | true =>
        obtain ⟨out, g, s, m1, m2, m3⟩ := union_gen hs (n - 1) (x :: l) r (by simp at h ⊢; omega) s1 s2.of_cons
        refine ⟨y :: out, .emit (by simp) (by simp [sortedFn, hxy, hyx]) (.no _) (.yes _ _) g, List.pairwise_cons.mpr ⟨fun z hz => ?_, s⟩, ?_, ?_, ?_⟩
        · rcases m1 z hz with hz | hz
          · rcases List.mem_cons.mp hz with rfl | hz
            · exact hyx
            · exact lt_trans hs hyx (k1 z hz)
          · exact k2 z hz
        · intro z hz
          rcases List.mem_cons.mp hz with rfl | hz
          · exact .inr List.mem_cons_self
          · exact (m1 z hz).imp_right (List.mem_cons_of_mem y)
        · intro z hz
          exact List.mem_cons_of_mem _ (m2 z hz)
        · intro z hz
          rcases List.mem_cons.mp hz with rfl | hz
          · exact ⟨z, List.mem_cons_self, irr z, irr z⟩
          · obtain ⟨w, h1, h2⟩ := m3 z hz
            exact ⟨w, List.mem_cons_of_mem _ h1, h2⟩
      | false =>
        obtain ⟨out, g, s, m1, m2, m3⟩ := union_gen hs (n - 2) l r (by simp at h ⊢; omega) s1.of_cons s2.of_cons
        refine ⟨x :: out, .emit (by simp) (by simp [sortedFn, hxy, hyx]) (.yes _ _) (.yes _ _) g, List.pairwise_cons.mpr ⟨fun z hz => ?_, s⟩, ?_, ?_, ?_⟩
        · rcases m1 z hz with hz | hz
          · exact k1 z hz
          · exact le_lt hs hyx (k2 z hz)
        · intro z hz
          rcases List.mem_cons.mp hz with rfl | hz
          · exact .inl List.mem_cons_self
          · rcases m1 z hz with h | h
            · exact .inl (List.mem_cons_of_mem _ h)
            · exact .inr (List.mem_cons_of_mem _ h)
        · intro z hz
          rcases List.mem_cons.mp hz with rfl | hz
          · exact List.mem_cons_self
          · exact List.mem_cons_of_mem _ (m2 z hz)
        · intro z hz
          rcases List.mem_cons.mp hz with rfl | hz
          · exact ⟨x, List.mem_cons_self, hyx, hxy⟩
          · obtain ⟨w, h1, h2⟩ := m3 z hz
            exact ⟨w, List.mem_cons_of_mem _ h1, h2⟩
termination_by n => n
decreasing_by all_goals (simp only [List.length_cons, List.length_nil] at h; omega)

/-- C114: without duplicates, two arrays without equal items give the union: strictly ascending, every item of the left one, and for each item of the right one an equal item. -/
theorem C114_union {less : α → α → Bool} (hs : StrictWeak less) {l r : List α} (s1 : l.Pairwise fun a b => less a b = true) (s2 : r.Pairwise fun a b => less a b = true) :
    ∃ out, (∀ os, run (sortedFn less false) { l := l, r := r } os = plain out os) ∧ out.Pairwise (fun a b => less a b = true) ∧ (∀ z, z ∈ out → z ∈ l ∨ z ∈ r) ∧
      (∀ z, z ∈ l → z ∈ out) ∧ ∀ z, z ∈ r → ∃ w, w ∈ out ∧ less z w = false ∧ less w z = false := by
  obtain ⟨out, g, h⟩ := union_gen hs _ l r rfl s1 s2
  exact ⟨out, C114_iterator g, h⟩

theorem sortFn_gen {less : α → α → Bool} (hs : StrictWeak less) {z : α} : ∀ (n : Nat) (l r : List α), l.length + r.length = n → Sorted less (l ++ [z]) → Sorted less r →
    (∀ y, y ∈ r → less y z = true) → ∃ out, Gen (sortFn less true) (l ++ [z]) r out ∧ out.Perm (l ++ [z] ++ r) ∧ Sorted less out
  | _, [], [], _, s1, _, _ => ⟨[z], .emit (by simp) rfl (.yes _ _) (.no _) .done, List.Perm.refl _, s1⟩
  | n, x :: l, [], h, s1, s2, hz => by
    obtain ⟨out, g, p, s⟩ := sortFn_gen hs (n - 1) l [] (by simp at h ⊢; omega) (List.Pairwise.of_cons s1) s2 hz
    refine ⟨x :: out, .emit (by simp) rfl (.yes _ _) (.no _) g, p.cons x, List.pairwise_cons.mpr ⟨fun y hy => ?_, s⟩⟩
    have := p.mem_iff.mp hy
    rw [List.append_nil] at this
    exact (List.pairwise_cons.mp s1).1 y this
  | n, [], y :: r, h, s1, s2, hz => by
    obtain ⟨out, g, p, s⟩ := sortFn_gen hs (n - 1) [] r (by simp at h ⊢; omega) s1 s2.of_cons (fun y h => hz y (List.mem_cons_of_mem _ h))
    have hy := hz y List.mem_cons_self
    have hy2 := hs.asymm _ _ hy
    refine ⟨y :: out, .emit (by simp) (by simp [sortFn, onPtr, hy, hy2]) (.no _) (.yes _ _) g, (p.cons y).trans List.perm_middle.symm, List.pairwise_cons.mpr ⟨fun w hw => ?_, s⟩⟩
    rcases List.mem_append.mp (p.mem_iff.mp hw) with hw | hw
    · have : w = z := by simpa using hw
      rw [this]; exact hy2
    · exact (List.pairwise_cons.mp s2).1 w hw
  | n, x :: l, y :: r, h, s1, s2, hz => by
    have k1 := (List.pairwise_cons.mp s1).1
    have k2 := (List.pairwise_cons.mp s2).1
    cases hyx : less y x with
    | true =>
      have hxy := hs.asymm _ _ hyx
      obtain ⟨out, g, p, s⟩ := sortFn_gen hs (n - 1) (x :: l) r (by simp at h ⊢; omega) s1 s2.of_cons (fun y h => hz y (List.mem_cons_of_mem _ h))
      refine ⟨y :: out, .emit (by simp) (by simp [sortFn, onPtr, hxy, hyx]) (.no _) (.yes _ _) g, (p.cons y).trans List.perm_middle.symm, List.pairwise_cons.mpr ⟨fun w hw => ?_, s⟩⟩
      rcases List.mem_append.mp (p.mem_iff.mp hw) with hw | hw
      · rcases List.mem_cons.mp hw with rfl | hw
        · exact hxy
        · exact hs.negTrans w x y (k1 w hw) hxy
      · exact k2 w hw
    | false =>
      obtain ⟨out, g, p, s⟩ := sortFn_gen hs (n - 1) l (y :: r) (by simp at h ⊢; omega) (List.Pairwise.of_cons s1) s2 hz
      refine ⟨x :: out, .emit (by simp) ?_ (.yes _ _) (.no _) g, p.cons x, List.pairwise_cons.mpr ⟨fun w hw => ?_, s⟩⟩
      · cases hxy : less x y <;> simp [sortFn, onPtr, hxy, hyx]
      · rcases List.mem_append.mp (p.mem_iff.mp hw) with hw | hw
        · exact k1 w hw
        · rcases List.mem_cons.mp hw with rfl | hw
          · exact hyx
          · exact hs.negTrans w y x (k2 w hw) hyx
termination_by n => n
decreasing_by all_goals (simp only [List.length_cons, List.length_nil] at h; omega)

/-- C114: `MergeSortFn` merges when the greatest item is in the left source.  Missing: the other case (violated below), and sources without duplicates. -/
theorem C114_sortFn_partial {less : α → α → Bool} (hs : StrictWeak less) {l r : List α} {z : α} (s1 : Sorted less (l ++ [z])) (s2 : Sorted less r) (hz : ∀ y, y ∈ r → less y z = true) :
    ∃ out, (∀ os, run (sortFn less true) { l := l ++ [z], r := r } os = plain out os) ∧ out.Perm (l ++ [z] ++ r) ∧ Sorted less out := by
  obtain ⟨out, g, p, s⟩ := sortFn_gen hs _ l r rfl s1 s2 hz
  exact ⟨out, C114_iterator g, p, s⟩

/-- When the left source is at the end, `MergeSortFn` compares the null pointer (merge.h:334). -/
theorem C114_null_violated (less : α → α → Bool) (dups : Bool) (y : α) (r out : List α) : ¬ Gen (sortFn less dups) [] (y :: r) out := by
  intro g
  cases g with
  | stop _ h => cases h
  | emit _ h => cases h
  | drop _ h => cases h

/-- Merging 1 and 2. -/
theorem C114_violated : run (sortFn (fun a b => decide (a < b)) true) { l := [1], r := [2] } [.next, .next] = [.next (some 1), .bad] := by decide

/-- Concrete cases. -/
example : run (sortedFn (fun a b => decide (a < b)) false) { l := [1, 3, 5], r := [2, 3, 6] } [.has, .next, .peek, .next, .next, .next, .next, .has, .next] =
    [.has true, .next (some 1), .peek (some 2), .next (some 2), .next (some 3), .next (some 5), .next (some 6), .has false, .next none] := by decide
example : run (sortFn (fun a b => decide (a < b)) true) { l := [1, 3, 9], r := [2, 3] } [.next, .next, .next, .next, .next, .has] =
    [.next (some 1), .next (some 2), .next (some 3), .next (some 3), .next (some 9), .has false] := by decide

end LS.Merge

import Verif.LinkedList
import Batteries.Data.List.Perm
/-
C26: the linked list against plain lists.
-/
namespace LS.LinkedList

variable {α : Type}

/-! ### Specification: the chain of nodes -/

/-- From pointer `p` the nodes `L` (address, value) follow, and the last of them points to `q`. -/
def Seg (m : Nat → Option (Cell α)) : Option Nat → List (Nat × α) → Option Nat → Prop
  | p, [], q => p = q
  | p, x :: L, q => p = some x.1 ∧ ∃ nx, m x.1 = some ⟨x.2, nx⟩ ∧ Seg m nx L q

/-- The list object holds exactly the values `l`, in this order, and `last` is the last node. -/
structure RepL (s : St α) (L : List (Nat × α)) : Prop where
  seg : Seg s.mem s.first L none
  nodup : (L.map Prod.fst).Nodup
  bound : ∀ x ∈ L, x.1 < s.fresh
  last : s.last = L.getLast?.map Prod.fst

def Rep (s : St α) (l : List α) : Prop := ∃ L, RepL s L ∧ L.map Prod.snd = l

/-! ### Chains -/

theorem seg_append (m : Nat → Option (Cell α)) (L1 L2 : List (Nat × α)) : ∀ p q, Seg m p (L1 ++ L2) q ↔ ∃ r, Seg m p L1 r ∧ Seg m r L2 q := by
  induction L1 with
  | nil => intro p q; simp [Seg]
  | cons x L ih =>
    intro p q
    simp only [List.cons_append, Seg, ih]
    constructor
    · rintro ⟨h, nx, h1, r, h2, h3⟩
      exact ⟨r, ⟨h, nx, h1, h2⟩, h3⟩
    · rintro ⟨r, ⟨h, nx, h1, h2⟩, h3⟩
      exact ⟨h, nx, h1, r, h2, h3⟩

theorem seg_upd (m : Nat → Option (Cell α)) (a : Nat) (c : Option (Cell α)) (L : List (Nat × α)) :
    ∀ p q, a ∉ L.map Prod.fst → Seg m p L q → Seg (upd m a c) p L q := by
  induction L with
  | nil => intro p q _ h; exact h
  | cons x L ih =>
    rintro p q hn ⟨h, nx, h1, h2⟩
    simp only [List.map_cons, List.mem_cons, not_or] at hn
    refine ⟨h, nx, ?_, ih _ _ hn.2 h2⟩
    unfold upd
    rw [if_neg (fun e => hn.1 e.symm), h1]

/-- Changing the pointer in the last node of a segment. -/
theorem seg_tail (m : Nat → Option (Cell α)) (L : List (Nat × α)) (x : Nat × α) (p q r : Option Nat)
    (hd : x.1 ∉ L.map Prod.fst) (h : Seg m p (L ++ [x]) q) : m x.1 = some ⟨x.2, q⟩ ∧ Seg (upd m x.1 (some ⟨x.2, r⟩)) p (L ++ [x]) r := by
  rw [seg_append] at h
  obtain ⟨t, h1, h2, nx, h3, h4⟩ := h
  simp only [Seg] at h4
  subst h4
  refine ⟨h3, ?_⟩
  rw [seg_append]
  exact ⟨t, seg_upd _ _ _ _ _ _ hd h1, h2, r, by simp [upd], rfl⟩

theorem seg_first (m : Nat → Option (Cell α)) (L : List (Nat × α)) (p : Option Nat) (h : Seg m p L none) : p = L.head?.map Prod.fst := by
  cases L with
  | nil => exact h
  | cons x L => exact h.1

/-! ### Operations -/

theorem empty_rep : Rep (empty α) [] := ⟨[], ⟨rfl, by simp, by simp, rfl⟩, rfl⟩

theorem fresh_notin {s : St α} {L : List (Nat × α)} (h : RepL s L) : s.fresh ∉ L.map Prod.fst := by
  intro hm
  obtain ⟨x, hx, e⟩ := List.mem_map.1 hm
  have := h.bound x hx
  omega

theorem insertFirst_repL {s : St α} {L : List (Nat × α)} (h : RepL s L) (v : α) : RepL (insertFirst s v).1 ((s.fresh, v) :: L) := by
  have hf := fresh_notin h
  refine ⟨⟨rfl, s.first, by simp [insertFirst, upd], seg_upd _ _ _ _ _ _ hf h.seg⟩, ?_, ?_, ?_⟩
  · simpa using ⟨by simpa using hf, h.nodup⟩
  · intro x hx
    rcases List.mem_cons.1 hx with e | hx
    · subst e; simp [insertFirst]
    · have := h.bound x hx
      simp only [insertFirst]; omega
  · simp only [insertFirst, h.last]
    cases L with
    | nil => simp
    | cons y L => simp [List.getLast?_cons]

theorem insertFirst_rep {s : St α} {l : List α} (h : Rep s l) (v : α) : Rep (insertFirst s v).1 (v :: l) := by
  obtain ⟨L, h, e⟩ := h
  exact ⟨_, insertFirst_repL h v, by simp [e]⟩

/-- A new node after the last node of a prefix. -/
theorem splice {s : St α} {A B : List (Nat × α)} {x : Nat × α} (h : RepL s (A ++ x :: B)) (v : α) :
    ∃ nx, s.mem x.1 = some ⟨x.2, nx⟩ ∧ nx = B.head?.map Prod.fst ∧
      Seg (upd (upd s.mem s.fresh (some ⟨v, nx⟩)) x.1 (some ⟨x.2, some s.fresh⟩)) s.first (A ++ x :: (s.fresh, v) :: B) none := by
  have hs := h.seg
  have hf := fresh_notin h
  have hn := h.nodup
  have hb := h.bound x (by simp)
  rw [show A ++ x :: B = (A ++ [x]) ++ B by simp, seg_append] at hs
  obtain ⟨nx, h1, h2⟩ := hs
  simp only [List.map_append, List.map_cons, List.nodup_append, List.nodup_cons, List.mem_append, List.mem_cons, not_or] at hn hf
  have hxA : x.1 ∉ A.map Prod.fst := fun hm => hn.2.2 _ hm x.1 (Or.inl rfl) rfl
  obtain ⟨h3, -⟩ := seg_tail s.mem A x s.first nx nx hxA h1
  refine ⟨nx, h3, seg_first _ _ _ h2, ?_⟩
  rw [show A ++ x :: (s.fresh, v) :: B = (A ++ [x]) ++ (s.fresh, v) :: B by simp, seg_append]
  have h1' : Seg (upd s.mem s.fresh (some ⟨v, nx⟩)) s.first (A ++ [x]) nx := seg_upd _ _ _ _ _ _ (by simp; exact ⟨by simpa using hf.1, hf.2.1⟩) h1
  refine ⟨some s.fresh, (seg_tail _ A x s.first nx (some s.fresh) hxA h1').2, rfl, nx, ?_, ?_⟩
  · have : ¬ s.fresh = x.1 := hf.2.1
    simp [upd, this]
  · exact seg_upd _ _ _ _ _ _ hn.2.1.1 (seg_upd _ _ _ _ _ _ hf.2.2 h2)

theorem splice_nodup {s : St α} {A B : List (Nat × α)} {x : Nat × α} (h : RepL s (A ++ x :: B)) (v : α) :
    ((A ++ x :: (s.fresh, v) :: B).map Prod.fst).Nodup ∧ ∀ y ∈ A ++ x :: (s.fresh, v) :: B, y.1 < s.fresh + 1 := by
  have hf := fresh_notin h
  have hn := h.nodup
  have hp : (A ++ x :: (s.fresh, v) :: B).Perm ((s.fresh, v) :: (A ++ x :: B)) := by
    rw [show A ++ x :: (s.fresh, v) :: B = (A ++ [x]) ++ (s.fresh, v) :: B by simp, show A ++ x :: B = (A ++ [x]) ++ B by simp]
    exact List.perm_middle
  constructor
  · rw [(hp.map Prod.fst).nodup_iff]
    exact List.nodup_cons.2 ⟨hf, hn⟩
  · intro y hy
    rcases List.mem_cons.1 (hp.mem_iff.1 hy) with e | hy
    · subst e; simp
    · have := h.bound y hy
      omega

theorem last_eq {s : St α} {A B : List (Nat × α)} {x : Nat × α} (h : RepL s (A ++ x :: B)) : s.last = some x.1 ↔ B = [] := by
  rw [h.last]
  cases hB : B.getLast? with
  | none =>
    have : B = [] := List.getLast?_eq_none_iff.1 hB
    subst this; simp
  | some y =>
    have hy : y ∈ B := List.mem_of_getLast? hB
    have hne : B ≠ [] := by rintro rfl; cases hy
    have hl : (A ++ x :: B).getLast? = some y := by rw [List.getLast?_append, List.getLast?_cons, hB]; simp
    rw [hl]
    simp only [Option.map_some, Option.some.injEq, hne, iff_false]
    intro e
    have hn := h.nodup
    simp only [List.map_append, List.map_cons, List.nodup_append, List.nodup_cons] at hn
    exact hn.2.1.1 (e ▸ List.mem_map_of_mem hy)

theorem insertAfter_repL {s : St α} {A B : List (Nat × α)} {x : Nat × α} (h : RepL s (A ++ x :: B)) (v : α) (pr : Option Nat) :
    ∃ r, insertAfter s ⟨some x.1, pr⟩ v = .ok r ∧ RepL r.1 (A ++ x :: (s.fresh, v) :: B) := by
  obtain ⟨nx, h1, -, h2⟩ := splice h v
  obtain ⟨h3, h4⟩ := splice_nodup h v
  refine ⟨_, by simp only [insertAfter, get, h1]; rfl, h2, h3, h4, ?_⟩
  have hl := last_eq h
  by_cases hB : B = []
  · subst hB
    simp [hl.2 rfl, List.getLast?_append]
  · rw [if_neg (fun e => hB (hl.1 e)), h.last]
    cases B with
    | nil => exact absurd rfl hB
    | cons y B => simp [List.getLast?_append, List.getLast?_cons]

theorem add_repL {s : St α} {L : List (Nat × α)} (h : RepL s L) (v : α) : ∃ r, add s v = .ok r ∧ RepL r.1 (L ++ [(s.fresh, v)]) := by
  rcases List.eq_nil_or_concat L with e | ⟨A, x, e⟩
  · subst e
    have hl := h.last
    have hs := h.seg
    simp only [List.getLast?_nil, Option.map_none] at hl
    refine ⟨_, by simp only [add, hl]; rfl, ⟨rfl, none, by simp [upd], rfl⟩, by simp, by simp, by simp⟩
  · subst e
    have h' : RepL s (A ++ x :: []) := by simpa using h
    obtain ⟨nx, h1, hx, h2⟩ := splice h' v
    obtain ⟨h3, h4⟩ := splice_nodup h' v
    have hl := (last_eq h').2 rfl
    simp only [List.head?_nil, Option.map_none] at hx
    subst hx
    refine ⟨_, by simp only [add, hl, get, h1]; rfl, by simpa using h2, by simpa using h3, by simpa using h4, by simp⟩

theorem add_rep {s : St α} {l : List α} (h : Rep s l) (v : α) : ∃ r, add s v = .ok r ∧ Rep r.1 (l ++ [v]) := by
  obtain ⟨L, h, e⟩ := h
  obtain ⟨r, h1, h2⟩ := add_repL h v
  exact ⟨r, h1, _, h2, by simp [e]⟩

theorem insertBefore_repL {s : St α} {A B : List (Nat × α)} {x y : Nat × α} (h : RepL s (A ++ x :: y :: B)) (v : α) :
    ∃ r, insertBefore s ⟨some y.1, some x.1⟩ v = .ok r ∧ RepL r.1 (A ++ x :: (s.fresh, v) :: y :: B) ∧ r.2.2 = ⟨some y.1, some s.fresh⟩ := by
  obtain ⟨nx, h1, hx, h2⟩ := splice h v
  obtain ⟨h3, h4⟩ := splice_nodup h v
  simp only [List.head?_cons, Option.map_some] at hx
  subst hx
  refine ⟨_, by simp only [insertBefore, get, h1]; rfl, ⟨h2, h3, h4, ?_⟩, rfl⟩
  rw [show s.last = _ from h.last]
  simp [List.getLast?_append, List.getLast?_cons]

theorem removeFirst_repL {s : St α} {L : List (Nat × α)} {x : Nat × α} (h : RepL s (x :: L)) :
    ∃ t, removeFirst s = .ok (t, some x.1) ∧ RepL t L ∧ t.mem = s.mem := by
  obtain ⟨h1, nx, h2, h3⟩ := h.seg
  have hx := seg_first _ _ _ h3
  have hn := h.nodup
  simp only [List.map_cons, List.nodup_cons] at hn
  refine ⟨{ s with first := nx, last := if nx = none then none else s.last }, by simp only [removeFirst, h1, get, h2]; rfl, ⟨h3, hn.2, fun y hy => h.bound y (List.mem_cons_of_mem _ hy), ?_⟩, rfl⟩
  simp only [hx, h.last]
  cases L with
  | nil => simp
  | cons y L => simp [List.getLast?_cons]

theorem free_repL {s : St α} {L : List (Nat × α)} (h : RepL s L) (a : Nat) (ha : a ∉ L.map Prod.fst) : RepL (free s a) L :=
  ⟨seg_upd _ _ _ _ _ _ ha h.seg, h.nodup, h.bound, h.last⟩

theorem eraseFirst_repL {s : St α} {L : List (Nat × α)} {x : Nat × α} (h : RepL s (x :: L)) :
    ∃ t, eraseFirst s = .ok t ∧ RepL t L := by
  obtain ⟨t, h1, h2, -⟩ := removeFirst_repL h
  have hn := h.nodup
  simp only [List.map_cons, List.nodup_cons] at hn
  exact ⟨_, by simp only [eraseFirst, h1]; rfl, free_repL h2 _ hn.1⟩

theorem clear_repL (k : Nat) : ∀ {s : St α} {L : List (Nat × α)}, RepL s L → L.length ≤ k → ∃ t, clear k s = .ok t ∧ RepL t [] := by
  induction k with
  | zero =>
    intro s L h hl
    have : L = [] := List.length_eq_zero_iff.1 (by omega)
    subst this
    exact ⟨s, by simp [clear, show s.first = none from h.seg], h⟩
  | succ k ih =>
    intro s L h hl
    cases L with
    | nil => exact ⟨s, by simp [clear, show s.first = none from h.seg], h⟩
    | cons x L =>
      obtain ⟨t, h1, h2⟩ := eraseFirst_repL h
      obtain ⟨u, h3, h4⟩ := ih h2 (by simpa using hl)
      refine ⟨u, ?_, h4⟩
      simp only [clear, h.seg.1, h1]
      exact h3

/-- The addresses are different and below `fresh`, so there are at most `fresh` nodes. -/
theorem length_le {s : St α} {L : List (Nat × α)} (h : RepL s L) : L.length ≤ s.fresh := by
  have h1 : (L.map Prod.fst).Subperm (List.range s.fresh) := by
    apply List.subperm_of_subset h.nodup
    intro a ha
    obtain ⟨x, hx, e⟩ := List.mem_map.1 ha
    simpa [← e] using h.bound x hx
  simpa using h1.length_le

theorem iterate_seg (s : St α) (L : List (Nat × α)) : ∀ (k : Nat) (p pr : Option Nat), Seg s.mem p L none → L.length ≤ k →
    iterate s k ⟨p, pr⟩ = .ok (L.map Prod.snd) := by
  induction L with
  | nil =>
    intro k p pr h _
    simp only [Seg] at h
    cases k <;> simp [iterate, h]
  | cons x L ih =>
    rintro k p pr ⟨h1, nx, h2, h3⟩ hl
    cases k with
    | zero => simp at hl
    | succ k =>
      have := ih k nx (some x.1) h3 (by simpa using hl)
      simp only [iterate, h1, getNext, get, h2]
      simp only [reduceCtorEq, if_false]
      show Except.map _ (iterate s k ⟨nx, some x.1⟩) = _
      rw [this]
      rfl

/-- Iteration gives exactly the values, and so does `size`. -/
theorem values_rep {s : St α} {l : List α} (h : Rep s l) : values s = .ok l ∧ size s = .ok l.length := by
  obtain ⟨L, h, e⟩ := h
  have : values s = .ok l := by
    rw [← e]
    exact iterate_seg s L s.fresh _ _ h.seg (length_le h)
  exact ⟨this, by simp [size, this, Except.map]⟩

theorem skip_seg (s : St α) (A : List (Nat × α)) : ∀ (x : Nat × α) (p pr q : Option Nat), Seg s.mem p (A ++ [x]) q → skip s (A.length + 1) ⟨p, pr⟩ = .ok ⟨q, some x.1⟩ := by
  induction A with
  | nil =>
    rintro x p pr q ⟨h1, nx, h2, h3⟩
    simp only [Seg] at h3
    simp [skip, getNext, h1, get, h2, h3, Except.map, Except.bind]
  | cons y A ih =>
    rintro x p pr q ⟨h1, nx, h2, h3⟩
    have := ih x nx (some y.1) q h3
    simp only [List.length_cons]
    rw [skip]
    simp only [getNext, h1, get, h2]
    exact this

/-- Where an iterator moved by `getNext` stands. -/
theorem iterAt_repL {s : St α} {A B : List (Nat × α)} {x y : Nat × α} (h : RepL s (A ++ x :: y :: B)) : iterAt s (A.length + 1) = .ok ⟨some y.1, some x.1⟩ := by
  have hs := h.seg
  rw [show A ++ x :: y :: B = (A ++ [x]) ++ y :: B by simp, seg_append] at hs
  obtain ⟨r, h1, h2, -⟩ := hs
  rw [← h2]
  exact skip_seg s A x _ _ r h1

theorem iterAt_zero {s : St α} {L : List (Nat × α)} {x : Nat × α} (h : RepL s (x :: L)) : iterAt s 0 = .ok ⟨some x.1, none⟩ := by
  simp [iterAt, skip, getFwIter, h.seg.1]

/-- Removal of a node which has a predecessor: the chain is right, but `last` is not changed. -/
theorem remove_seg {s : St α} {A B : List (Nat × α)} {x y : Nat × α} (h : RepL s (A ++ x :: y :: B)) :
    ∃ t, remove s ⟨some y.1, some x.1⟩ = .ok (t, some y.1) ∧ Seg t.mem t.first (A ++ x :: B) none ∧ t.last = s.last ∧ t.fresh = s.fresh ∧
      (∃ nx, t.mem x.1 = some ⟨x.2, nx⟩ ∧ nx = B.head?.map Prod.fst) ∧ t.mem y.1 = some ⟨y.2, none⟩ := by
  have hs := h.seg
  have hn := h.nodup
  rw [show A ++ x :: y :: B = (A ++ [x]) ++ y :: B by simp, seg_append] at hs
  obtain ⟨r, h1, h2, nx, h3, h4⟩ := hs
  simp only [List.map_append, List.map_cons, List.nodup_append, List.nodup_cons, List.mem_cons, not_or] at hn
  have hxA : x.1 ∉ A.map Prod.fst := fun hm => hn.2.2 _ hm x.1 (Or.inl rfl) rfl
  have hyA : y.1 ∉ A.map Prod.fst := fun hm => hn.2.2 _ hm y.1 (Or.inr (Or.inl rfl)) rfl
  have hxy : x.1 ≠ y.1 := hn.2.1.1.1
  obtain ⟨h5, h6⟩ := seg_tail s.mem A x s.first r nx hxA h1
  refine ⟨{ s with mem := upd (upd s.mem x.1 (some ⟨x.2, nx⟩)) y.1 (some ⟨y.2, none⟩) }, by simp only [remove, get, h5, h3]; rfl, ?_, rfl, rfl, ⟨nx, by simp [upd, hxy], seg_first _ _ _ h4⟩, by simp [upd]⟩
  rw [show A ++ x :: B = (A ++ [x]) ++ B by simp, seg_append]
  refine ⟨nx, seg_upd _ _ _ _ _ _ ?_ h6, ?_⟩
  · simp only [List.map_append, List.map_cons, List.map_nil, List.mem_append, List.mem_singleton, not_or]
    exact ⟨hyA, fun e => hxy e.symm⟩
  · exact seg_upd _ _ _ _ _ _ hn.2.1.2.1 (seg_upd _ _ _ _ _ _ hn.2.1.1.2 h4)

theorem drop_nodup {A B : List (Nat × α)} {x y : Nat × α} (h : ((A ++ x :: y :: B).map Prod.fst).Nodup) : ((A ++ x :: B).map Prod.fst).Nodup ∧ y.1 ∉ (A ++ x :: B).map Prod.fst := by
  have hp : (A ++ x :: y :: B).Perm (y :: (A ++ x :: B)) := by
    rw [show A ++ x :: y :: B = (A ++ [x]) ++ y :: B by simp, show A ++ x :: B = (A ++ [x]) ++ B by simp]
    exact List.perm_middle
  rw [(hp.map Prod.fst).nodup_iff] at h
  simp only [List.map_cons, List.nodup_cons] at h
  exact ⟨h.2, h.1⟩

theorem remove_repL {s : St α} {A B : List (Nat × α)} {x y : Nat × α} (h : RepL s (A ++ x :: y :: B)) (hB : B ≠ []) :
    ∃ t, remove s ⟨some y.1, some x.1⟩ = .ok (t, some y.1) ∧ RepL t (A ++ x :: B) ∧ (∃ nx, t.mem x.1 = some ⟨x.2, nx⟩ ∧ nx = B.head?.map Prod.fst) := by
  obtain ⟨t, h1, h2, h3, h4, h5, -⟩ := remove_seg h
  refine ⟨t, h1, ⟨h2, (drop_nodup h.nodup).1, ?_, ?_⟩, h5⟩
  · intro z hz
    rw [h4]
    apply h.bound z
    simp only [List.mem_append, List.mem_cons] at hz ⊢
    rcases hz with hz | hz | hz
    · exact Or.inl hz
    · exact Or.inr (Or.inl hz)
    · exact Or.inr (Or.inr (Or.inr hz))
  · rw [h3, h.last]
    cases B with
    | nil => exact absurd rfl hB
    | cons z B => simp [List.getLast?_append, List.getLast?_cons]

theorem erase_repL {s : St α} {A B : List (Nat × α)} {x y : Nat × α} (h : RepL s (A ++ x :: y :: B)) (hB : B ≠ []) :
    ∃ t, erase s ⟨some y.1, some x.1⟩ = .ok (t, ⟨B.head?.map Prod.fst, some x.1⟩) ∧ RepL t (A ++ x :: B) := by
  obtain ⟨t, h1, h2, nx, h3, h4⟩ := remove_repL h hB
  have hd := (drop_nodup h.nodup).2
  have hxy : ¬ x.1 = y.1 := by
    intro e
    apply hd
    rw [← e]
    simp
  refine ⟨free t y.1, ?_, free_repL h2 _ hd⟩
  simp only [erase, h1]
  show Except.map _ (get (free t y.1) x.1) = _
  simp only [get, free, upd, if_neg hxy, h3, h4]
  rfl

/-- Erasing the first item through an iterator. -/
theorem erase_first_repL {s : St α} {L : List (Nat × α)} {x : Nat × α} (h : RepL s (x :: L)) :
    ∃ t, erase s ⟨some x.1, none⟩ = .ok (t, getFwIter t) ∧ RepL t L := by
  obtain ⟨t, h1, h2, -⟩ := removeFirst_repL h
  have hn := h.nodup
  simp only [List.map_cons, List.nodup_cons] at hn
  refine ⟨free t x.1, ?_, free_repL h2 _ hn.1⟩
  simp only [erase, remove, h1]
  rfl

/-! ### Sequences of operations -/

/-- Operations of a user; positions are reached by an iterator moved from the first item. -/
inductive Op (α : Type)
  | add (v : α)
  | insertFirst (v : α)
  | insertAfter (i : Nat) (v : α)
  | insertBefore (i : Nat) (v : α)
  | eraseFirst
  | erase (i : Nat)
  | clear

/-- What the program does. -/
def run (s : St α) : Op α → Except Err (St α)
  | .add v => (add s v).map Prod.fst
  | .insertFirst v => .ok (insertFirst s v).1
  | .insertAfter i v => (iterAt s i).bind fun it => (insertAfter s it v).map Prod.fst
  | .insertBefore i v => (iterAt s i).bind fun it => (insertBefore s it v).map Prod.fst
  | .eraseFirst => eraseFirst s
  | .erase i => (iterAt s i).bind fun it => (erase s it).map Prod.fst
  | .clear => clear s.fresh s

def runAll : St α → List (Op α) → Except Err (St α)
  | s, [] => .ok s
  | s, o :: os => (run s o).bind fun s => runAll s os

/-- What should happen to a plain list. -/
def spec (l : List α) : Op α → List α
  | .add v => l ++ [v]
  | .insertFirst v => v :: l
  | .insertAfter i v => l.take (i + 1) ++ v :: l.drop (i + 1)
  | .insertBefore i v => l.take i ++ v :: l.drop i
  | .eraseFirst => l.tail
  | .erase i => l.eraseIdx i
  | .clear => []

/-- The item addressed exists; the item erased is the first one or is not the last one. -/
def Valid (l : List α) : Op α → Prop
  | .insertAfter i _ => i < l.length
  | .insertBefore i _ => i < l.length
  | .erase i => i < l.length ∧ (i = 0 ∨ i + 1 < l.length)
  | _ => True

def ValidAll : List α → List (Op α) → Prop
  | _, [] => True
  | l, o :: os => Valid l o ∧ ValidAll (spec l o) os

def specAll : List α → List (Op α) → List α
  | l, [] => l
  | l, o :: os => specAll (spec l o) os

theorem split_at {β : Type} {L : List β} {i : Nat} (h : i < L.length) : ∃ A x B, L = A ++ x :: B ∧ A.length = i := by
  refine ⟨L.take i, L[i], L.drop (i + 1), ?_, by simp; omega⟩
  rw [List.getElem_cons_drop, List.take_append_drop]

theorem iterAt_any {s : St α} {A B : List (Nat × α)} {x : Nat × α} (h : RepL s (A ++ x :: B)) :
    ∃ pr, iterAt s A.length = .ok ⟨some x.1, pr⟩ ∧ (A = [] → pr = none) ∧ (∀ A' w, A = A' ++ [w] → pr = some w.1) := by
  rcases List.eq_nil_or_concat A with e | ⟨A', w, e⟩
  · subst e
    exact ⟨none, iterAt_zero h, fun _ => rfl, fun A' w e => by simp at e⟩
  · subst e
    have h' : RepL s (A' ++ w :: x :: B) := by simpa using h
    refine ⟨some w.1, by simpa using iterAt_repL h', by simp, ?_⟩
    intro A'' w' e
    rw [List.concat_eq_append] at e
    have := List.append_inj' e rfl
    simp only [List.cons.injEq, and_true] at this
    rw [this.2]

theorem run_rep {s : St α} {l : List α} (h : Rep s l) (o : Op α) (ho : Valid l o) : ∃ t, run s o = .ok t ∧ Rep t (spec l o) := by
  have hr := h
  obtain ⟨L, h, e⟩ := h
  have hlen : L.length = l.length := by rw [← e]; simp
  cases o with
  | add v =>
    obtain ⟨r, h1, h2⟩ := add_rep hr v
    exact ⟨r.1, by simp [run, h1, Except.map], h2⟩
  | insertFirst v => exact ⟨_, rfl, insertFirst_rep hr v⟩
  | insertAfter i v =>
    obtain ⟨A, x, B, e1, e2⟩ := split_at (L := L) (i := i) (by rw [hlen]; exact ho)
    subst e1 e2
    obtain ⟨pr, h1, -⟩ := iterAt_any h
    obtain ⟨r, h2, h3⟩ := insertAfter_repL h v pr
    refine ⟨r.1, by simp [run, h1, h2, Except.map, Except.bind], _, h3, ?_⟩
    subst e
    simp [spec, List.take_append, List.drop_append, List.take_of_length_le, List.drop_eq_nil_of_le]
  | insertBefore i v =>
    obtain ⟨A, x, B, e1, e2⟩ := split_at (L := L) (i := i) (by rw [hlen]; exact ho)
    subst e1 e2
    rcases List.eq_nil_or_concat A with e3 | ⟨A', w, e3⟩
    · subst e3
      refine ⟨(insertFirst s v).1, ?_, by simpa [spec] using insertFirst_rep hr v⟩
      simp only [run, List.length_nil]
      rw [iterAt_zero h]
      rfl
    · subst e3
      have h' : RepL s (A' ++ w :: x :: B) := by simpa using h
      obtain ⟨r, h2, h3, -⟩ := insertBefore_repL h' v
      refine ⟨r.1, ?_, _, h3, ?_⟩
      · have := iterAt_repL h'
        simp only [run, List.concat_eq_append, List.length_append, List.length_cons, List.length_nil, Nat.zero_add]
        rw [this]
        simp [h2, Except.map, Except.bind]
      · subst e
        simp only [spec, List.concat_eq_append, List.map_append, List.map_cons, List.append_assoc, List.cons_append, List.nil_append]
        simp [List.take_append, List.drop_append, List.take_of_length_le, List.drop_eq_nil_of_le]
  | eraseFirst =>
    cases L with
    | nil =>
      refine ⟨s, ?_, by subst e; exact ⟨[], h, rfl⟩⟩
      simp [run, eraseFirst, removeFirst, show s.first = none from h.seg, Except.map]
    | cons x L =>
      obtain ⟨t, h1, h2⟩ := eraseFirst_repL h
      exact ⟨t, h1, L, h2, by subst e; simp [spec]⟩
  | erase i =>
    obtain ⟨hi, hc⟩ := ho
    obtain ⟨A, x, B, e1, e2⟩ := split_at (L := L) (i := i) (by rw [hlen]; exact hi)
    subst e1 e2
    rcases List.eq_nil_or_concat A with e3 | ⟨A', w, e3⟩
    · subst e3
      obtain ⟨t, h1, h2⟩ := erase_first_repL (L := B) (x := x) h
      refine ⟨t, ?_, B, h2, by subst e; simp [spec]⟩
      simp only [run, List.length_nil]
      rw [iterAt_zero (L := B) (x := x) h]
      simp [h1, Except.map, Except.bind]
    · subst e3
      have h' : RepL s (A' ++ w :: x :: B) := by simpa using h
      have hB : B ≠ [] := by
        rintro rfl
        simp at hlen hc
        omega
      obtain ⟨t, h1, h2⟩ := erase_repL h' hB
      refine ⟨t, ?_, _, h2, ?_⟩
      · have := iterAt_repL h'
        simp only [run, List.concat_eq_append, List.length_append, List.length_cons, List.length_nil, Nat.zero_add]
        rw [this]
        simp [h1, Except.map, Except.bind]
      · subst e
        simp only [spec, List.concat_eq_append, List.length_append, List.length_cons, List.length_nil, Nat.zero_add, List.map_append, List.map_cons, List.append_assoc, List.cons_append, List.nil_append]
        rw [List.eraseIdx_append_of_length_le (by simp)]
        simp
  | clear =>
    obtain ⟨t, h1, h2⟩ := clear_repL s.fresh h (length_le h)
    exact ⟨t, h1, [], h2, rfl⟩

theorem runAll_rep (os : List (Op α)) : ∀ {s : St α} {l : List α}, Rep s l → ValidAll l os → ∃ t, runAll s os = .ok t ∧ Rep t (specAll l os) := by
  induction os with
  | nil => intro s l h _; exact ⟨s, rfl, h⟩
  | cons o os ih =>
    rintro s l h ⟨h1, h2⟩
    obtain ⟨t, h3, h4⟩ := run_rep h o h1
    obtain ⟨u, h5, h6⟩ := ih h4 h2
    exact ⟨u, by simp [runAll, h3, h5, Except.bind], h6⟩

theorem getLast_repL {s : St α} {L : List (Nat × α)} {x : Nat × α} (h : RepL s (L ++ [x])) : getLast s = .ok x.2 := by
  have hl := (last_eq h).2 rfl
  have hs := h.seg
  rw [seg_append] at hs
  obtain ⟨r, -, -, nx, h1, -⟩ := hs
  simp [getLast, hl, get, h1, Except.map]

theorem getFirst_repL {s : St α} {L : List (Nat × α)} {x : Nat × α} (h : RepL s (x :: L)) : getFirst s = .ok x.2 := by
  obtain ⟨h0, nx, h1, -⟩ := h.seg
  simp [getFirst, h0, get, h1, Except.map]

theorem getLastConst_repL {s : St α} {L : List (Nat × α)} {x : Nat × α} (h : RepL s (x :: L)) : getLastConst s = .ok x.2 := by
  obtain ⟨h0, nx, h1, -⟩ := h.seg
  have hl := h.last
  rw [List.getLast?_cons] at hl
  simp only [Option.map_some] at hl
  simp [getLastConst, hl, h0, get, h1, Except.map]

/-! ### C26 -/

/-- A list built by any operations, where erasing through an iterator moved from the first item does not take the last of several items: no
access to a released node, and iteration, `size`, `getFirst` and `getLast` show exactly the list which the operations describe.  What is missing
is the erasing of the last item (`C26_erase_last_violated`) and iterators returned by `add` and `insert…` (`C26_returned_iterator_violated`). -/
theorem C26_operations_partial (os : List (Op α)) (h : ValidAll [] os) :
    ∃ s, runAll (empty α) os = .ok s ∧ values s = .ok (specAll [] os) ∧ size s = .ok (specAll [] os).length ∧
      (∀ v l, specAll [] os = v :: l → getFirst s = .ok v) ∧ (∀ v l, specAll [] os = l ++ [v] → getLast s = .ok v) := by
  obtain ⟨s, h1, h2⟩ := runAll_rep os empty_rep h
  obtain ⟨h3, h4⟩ := values_rep h2
  obtain ⟨L, h2, e⟩ := h2
  refine ⟨s, h1, h3, h4, ?_, ?_⟩
  · intro v l e2
    rw [e2] at e
    cases L with
    | nil => simp at e
    | cons x L =>
      simp only [List.map_cons, List.cons.injEq] at e
      rw [← e.1]
      exact getFirst_repL h2
  · intro v l e2
    rw [e2] at e
    rcases List.eq_nil_or_concat L with e3 | ⟨A, x, e3⟩
    · subst e3; simp at e
    · subst e3
      simp only [List.concat_eq_append, List.map_append, List.map_cons, List.map_nil] at e
      have := List.append_inj' e rfl
      simp only [List.cons.injEq, and_true] at this
      rw [← this.2]
      exact getLast_repL (by simpa using h2)

example : ∃ s, runAll (empty Nat) [.add 1, .add 2, .insertFirst 0, .insertBefore 1 7, .erase 2, .insertAfter 2 9, .eraseFirst, .add 5] = .ok s ∧ values s = .ok [7, 2, 9, 5] :=
  ⟨_, rfl, rfl⟩

/-- Assigning another list: the same items in the same order, whatever the target held before. -/
theorem C26_assign_partial {s t : St α} {l m : List α} (hs : Rep s l) (ht : Rep t m) : ∃ u, assign s t = .ok u ∧ Rep u m ∧ values u = .ok m := by
  obtain ⟨L, hs, -⟩ := hs
  obtain ⟨c, h1, h2⟩ := clear_repL s.fresh hs (length_le hs)
  have key : ∀ (l' : List α) (c : St α) (k : List α), Rep c k → ∃ u, addAll c l' = .ok u ∧ Rep u (k ++ l') := by
    intro l'
    induction l' with
    | nil => intro c k h; exact ⟨c, rfl, by simpa using h⟩
    | cons v l' ih =>
      intro c k h
      obtain ⟨r, h3, h4⟩ := add_rep h v
      obtain ⟨u, h5, h6⟩ := ih r.1 _ h4
      exact ⟨u, by simp [addAll, h3, h5, Except.bind], by simpa using h6⟩
  obtain ⟨u, h3, h4⟩ := key m c [] ⟨[], h2, rfl⟩
  refine ⟨u, ?_, by simpa using h4, by simpa using (values_rep h4).1⟩
  simp [assign, h1, (values_rep ht).1, h3, Except.bind]

example : ∃ s t u, runAll (empty Nat) [.add 4] = .ok s ∧ runAll (empty Nat) [.add 1, .add 2, .add 3] = .ok t ∧ assign s t = .ok u ∧ values u = .ok [1, 2, 3] :=
  ⟨_, _, _, rfl, rfl, rfl, rfl⟩

/-- The copy constructor makes the list in the reverse order, so the copy is the same list exactly when this is a palindrome. -/
theorem C26_copy_partial {s : St α} {l : List α} (h : Rep s l) : ∃ u, copy s = .ok u ∧ Rep u l.reverse ∧ (values u = .ok l ↔ l.reverse = l) := by
  have key : ∀ (l : List α) (t : St α) (k : List α), Rep t k → Rep (l.foldl (fun t v => (insertFirst t v).1) t) (l.reverse ++ k) := by
    intro l
    induction l with
    | nil => intro t k h; exact h
    | cons v l ih =>
      intro t k h
      have := ih _ _ (insertFirst_rep h v)
      simpa using this
  have h2 := key l (empty α) [] empty_rep
  rw [List.append_nil] at h2
  refine ⟨_, by simp only [copy, (values_rep h).1]; rfl, h2, ?_⟩
  rw [(values_rep h2).1]
  constructor
  · intro e; injection e
  · intro e; rw [e]

/-- The copy of `1, 2` is `2, 1`. -/
theorem C26_copy_violated : ∃ s u, runAll (empty Nat) [.add 1, .add 2] = .ok s ∧ values s = .ok [1, 2] ∧ copy s = .ok u ∧ values u = .ok [2, 1] :=
  ⟨_, _, rfl, rfl, rfl, rfl⟩

/-- Assigning a list to itself empties it. -/
theorem C26_assign_self_violated {s : St α} {l : List α} (h : Rep s l) : ∃ u, assignSelf s = .ok u ∧ values u = .ok [] := by
  obtain ⟨L, h, -⟩ := h
  obtain ⟨c, h1, h2⟩ := clear_repL s.fresh h (length_le h)
  have hv := (values_rep ⟨[], h2, rfl⟩).1
  refine ⟨c, ?_, hv⟩
  simp only [assignSelf, h1, Except.bind, hv]
  rfl

example : ∃ s u, runAll (empty Nat) [.add 1, .add 2] = .ok s ∧ assignSelf s = .ok u ∧ values u = .ok [] := ⟨_, _, rfl, rfl, rfl⟩

/-- Erasing the last of two or more items through an iterator: the rest is right at first, but each later `add` writes to the released node. -/
theorem C26_erase_last_violated {s : St α} {l : List α} {v w : α} (h : Rep s (l ++ [v, w])) (z : α) :
    ∃ t, run s (.erase (l.length + 1)) = .ok t ∧ values t = .ok (l ++ [v]) ∧ run t (.add z) = .error .ub ∧ getLast t = .error .ub := by
  obtain ⟨L, h, e⟩ := h
  obtain ⟨A, xy, e1, e2, e3⟩ := List.map_eq_append_iff.1 e
  subst e1
  obtain ⟨x, ys, e4, e5, e6⟩ := List.map_eq_cons_iff.1 e3
  subst e4
  obtain ⟨y, ys, e7, e8, e9⟩ := List.map_eq_cons_iff.1 e6
  subst e7
  have := List.map_eq_nil_iff.1 e9
  subst this e2 e5 e8
  obtain ⟨t, h1, h2, h3, h4, ⟨nx, h5, -⟩, -⟩ := remove_seg h
  have hd := (drop_nodup h.nodup).2
  have hxy : ¬ x.1 = y.1 := by
    intro e
    apply hd
    rw [← e]
    simp
  have hit := iterAt_repL h
  have hl : s.last = some y.1 := by rw [h.last]; simp [List.getLast?_append]
  have hle : A.length + 1 ≤ t.fresh := by
    have := length_le h
    rw [h4]
    simp at this
    omega
  have her : erase s ⟨some y.1, some x.1⟩ = .ok (free t y.1, ⟨nx, some x.1⟩) := by
    simp only [erase, h1]
    show Except.map _ (get (free t y.1) x.1) = _
    simp only [get, free, upd, if_neg hxy, h5]
    rfl
  refine ⟨free t y.1, ?_, ?_, ?_, ?_⟩
  · simp only [run, List.length_map]
    rw [hit]
    simp [her, Except.map, Except.bind]
  · have := iterate_seg (free t y.1) (A ++ [x]) t.fresh t.first none (seg_upd _ _ _ _ _ _ hd h2) (by simpa using hle)
    rw [show (A ++ [x]).map Prod.snd = A.map Prod.snd ++ [x.2] by simp] at this
    exact this
  · simp [run, add, free, h3, hl, get, upd, Except.map]
  · simp [getLast, free, h3, hl, get, upd, Except.map]

example : ∃ s t, runAll (empty Nat) [.add 1, .add 2, .add 3] = .ok s ∧ run s (.erase 2) = .ok t ∧ values t = .ok [1, 2] ∧ run t (.add 4) = .error .ub :=
  ⟨_, _, rfl, rfl, rfl, rfl⟩

/-- With `remove`, which keeps the node, the item appended next is lost. -/
theorem C26_remove_last_violated : ∃ s it t n u, runAll (empty Nat) [.add 1, .add 2, .add 3] = .ok s ∧ iterAt s 2 = .ok it ∧ remove s it = .ok (t, some n) ∧
    run t (.add 4) = .ok u ∧ values u = .ok [1, 2] := ⟨_, _, _, _, _, rfl, rfl, rfl, rfl, rfl⟩

/-- The iterator which `add` returns (item `3`) erases the first item, and `insertBefore` with it inserts at the front. -/
theorem C26_returned_iterator_violated : ∃ s r t u, runAll (empty Nat) [.add 1, .add 2] = .ok s ∧ add s 3 = .ok r ∧ getNext r.1 r.2 = .ok (3, ⟨none, r.2.cur⟩) ∧
    erase r.1 r.2 = .ok t ∧ values t.1 = .ok [2, 3] ∧ insertBefore r.1 r.2 7 = .ok u ∧ values u.1 = .ok [7, 1, 2, 3] :=
  ⟨_, _, _, _, rfl, rfl, rfl, rfl, rfl, rfl, rfl⟩

/-- `getLast` of a constant list is the first item. -/
theorem C26_const_last_violated : ∃ s, runAll (empty Nat) [.add 1, .add 2] = .ok s ∧ getLastConst s = .ok 1 ∧ getLast s = .ok 2 := ⟨_, rfl, rfl, rfl⟩

/-- `erase` with an iterator which has passed all items reads through a null pointer, if there are any items. -/
theorem C26_erase_end_violated {s : St α} {l : List α} {v : α} (h : Rep s (l ++ [v])) : run s (.erase (l.length + 1)) = .error .ub := by
  obtain ⟨L, h, e⟩ := h
  obtain ⟨A, xs, e1, e2, e3⟩ := List.map_eq_append_iff.1 e
  subst e1
  obtain ⟨x, ys, e4, e5, e6⟩ := List.map_eq_cons_iff.1 e3
  subst e4
  have := List.map_eq_nil_iff.1 e6
  subst this e2 e5
  have := skip_seg s A x s.first none none h.seg
  simp only [run, List.length_map]
  simp [iterAt, getFwIter, this, erase, remove, Except.bind, Except.map]

example : ∃ s, runAll (empty Nat) [.add 1, .add 2] = .ok s ∧ run s (.erase 2) = .error .ub := ⟨_, rfl, rfl⟩

end LS.LinkedList

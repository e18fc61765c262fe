import Verif.AutoArray
/-!
# C24: the dynamic array edits its content like a sequence
-/

namespace LS.AutoArray

open LS.Deque (construct destroy load release)

variable {α : Type}

/-- Size of the block of an empty array. -/
def Alloc.least (A : Alloc) : Nat := (A.block 0).getD 0

/-- A block is never smaller than asked for, and never smaller than that of an empty array. -/
structure Alloc.Sound (A : Alloc) : Prop where
  size : ∀ n m, A.block n = some m → n ≤ m
  least : ∀ n m, A.block n = some m → A.least ≤ m

/-- Bigger blocks are always given out. -/
def Alloc.Unlimited (A : Alloc) : Prop :=
  ∀ n, A.least < n → (∃ m, A.block n = some m) ∧ A.movable n = true

theorem stdAlloc_sound : stdAlloc.Sound :=
  ⟨fun n m h => by cases h; exact Nat.le_refl _, fun n m h => by cases h; exact Nat.zero_le _⟩

theorem stdAlloc_unlimited : stdAlloc.Unlimited := fun n _ => ⟨⟨n, rfl⟩, rfl⟩

theorem staticAlloc_sound (c : Nat) : (staticAlloc c).Sound := by
  constructor
  · intro n m h
    simp only [staticAlloc] at h
    split at h
    · cases h
    · cases h; omega
  · intro n m h
    simp only [staticAlloc] at h
    split at h
    · cases h
    · cases h; simp [Alloc.least, staticAlloc]

theorem smallAlloc_sound (c : Nat) : (smallAlloc c).Sound := by
  constructor
  · intro n m h
    simp only [smallAlloc] at h
    split at h <;> (cases h; omega)
  · intro n m h
    have e : (smallAlloc c).least = c := by simp [Alloc.least, smallAlloc]
    rw [e]
    simp only [smallAlloc] at h
    split at h <;> (cases h; omega)

theorem smallAlloc_unlimited (c : Nat) : (smallAlloc c).Unlimited := by
  intro n h
  have e : (smallAlloc c).least = c := by simp [Alloc.least, smallAlloc]
  rw [e] at h
  simp [smallAlloc, h]

/-- The array holds the sequence `l`: its items are constructed at the start of the block, the rest
of the block is raw. -/
structure Holds (A : Alloc) (a : Arr α) (l : List α) : Prop where
  used : a.used = l.length
  mem : ∃ k, a.mem = l.map some ++ List.replicate k none
  least : A.least ≤ a.mem.length

/-- The call ends with an array which holds `l`, or it is refused because the allocator does not give
a block for `need` items, more than there is room for. Undefined behaviour is excluded. -/
def Gives (A : Alloc) (a : Arr α) (need : Nat) (r : Except Err (Arr α)) (l : List α) : Prop :=
  (∃ a', r = .ok a' ∧ Holds A a' l) ∨
    (r = .error .thrown ∧ ¬ A.Unlimited ∧ a.mem.length < need)

theorem Holds.le {A : Alloc} {a : Arr α} {l : List α} (h : Holds A a l) :
    l.length ≤ a.mem.length := by
  obtain ⟨_, ⟨k, h⟩, _⟩ := h; simp [h]

/-- The reference reads `v` as long as the block is not replaced and the items `l` stay in place. -/
def Stable (r : Ref α) (gen : Nat) (l : List α) (v : α) : Prop :=
  r = .val v ∨ ∃ i, r = .cell gen i ∧ l[i]? = some v

/-! ## Cells -/

theorem load_mid {p q : List (Option α)} {v : α} {i : Nat} (h : i = p.length) :
    load (p ++ some v :: q) i = .ok v := by subst h; simp [load]

theorem construct_mid {p q : List (Option α)} {v : α} {i : Nat} (h : i = p.length) :
    construct (p ++ none :: q) i v = .ok (p ++ some v :: q) := by subst h; simp [construct]

theorem destroy_mid {p q : List (Option α)} {v : α} {i : Nat} (h : i = p.length) :
    destroy (p ++ some v :: q) i = .ok (p ++ none :: q) := by subst h; simp [destroy]

theorem rep_snoc (k : Nat) (q : List (Option α)) :
    List.replicate (k + 1) none ++ q = List.replicate k none ++ none :: q := by
  rw [List.replicate_succ']; simp

theorem rep_cons (k : Nat) (q : List (Option α)) :
    (List.replicate (k + 1) none : List (Option α)) ++ q = none :: (List.replicate k none ++ q) := by
  rw [List.replicate_succ]; simp

/-- One item goes up by `k + 1` cells. -/
theorem moveOne_up {p q : List (Option α)} {v : α} {k i j : Nat} (hi : i = p.length)
    (hj : j = p.length + (k + 1)) :
    moveOne (p ++ some v :: (List.replicate (k + 1) none ++ q)) i j =
      .ok (p ++ (List.replicate (k + 1) none ++ some v :: q)) := by
  unfold moveOne
  rw [load_mid hi]
  show (construct _ j v >>= fun mem => destroy mem i) = _
  have e : p ++ some v :: (List.replicate (k + 1) none ++ q) =
      (p ++ some v :: List.replicate k none) ++ none :: q := by rw [rep_snoc]; simp
  rw [e, construct_mid (by simp; omega)]
  show destroy _ i = _
  have e : (p ++ some v :: List.replicate k none) ++ some v :: q =
      p ++ some v :: (List.replicate k none ++ some v :: q) := by simp
  rw [e, destroy_mid hi, rep_cons]

/-- One item goes down by `k + 1` cells. -/
theorem moveOne_down {p q : List (Option α)} {v : α} {k i j : Nat} (hi : i = p.length + (k + 1))
    (hj : j = p.length) :
    moveOne (p ++ (List.replicate (k + 1) none ++ some v :: q)) i j =
      .ok (p ++ some v :: (List.replicate (k + 1) none ++ q)) := by
  unfold moveOne
  have e : p ++ (List.replicate (k + 1) none ++ some v :: q) =
      (p ++ List.replicate (k + 1) none) ++ some v :: q := by simp
  rw [e, load_mid (by simp; omega)]
  show (construct _ j v >>= fun mem => destroy mem i) = _
  have e : (p ++ List.replicate (k + 1) none) ++ some v :: q =
      p ++ none :: (List.replicate k none ++ some v :: q) := by
    rw [List.append_assoc, rep_cons]
  rw [e, construct_mid hj]
  show destroy _ i = _
  have e : p ++ some v :: (List.replicate k none ++ some v :: q) =
      (p ++ some v :: List.replicate k none) ++ some v :: q := by simp
  rw [e, destroy_mid (by simp; omega), rep_snoc]
  simp

theorem moveUp_shift {p q : List (Option α)} {k : Nat} {xs : List α} {src dst : Nat}
    (hs : src = p.length) (hd : dst = p.length + (k + 1)) :
    moveUp (p ++ (xs.map some ++ (List.replicate (k + 1) none ++ q))) src dst xs.length =
      .ok (p ++ (List.replicate (k + 1) none ++ (xs.map some ++ q))) := by
  obtain ⟨n, hn⟩ : ∃ n, n = xs.length := ⟨_, rfl⟩
  rw [← hn]
  induction n generalizing xs q with
  | zero =>
    have : xs = [] := List.eq_nil_of_length_eq_zero hn.symm
    subst this; rfl
  | succ n ih =>
    obtain ⟨ys, y, rfl⟩ : ∃ ys y, xs = ys ++ [y] := by
      have := List.eq_nil_or_concat xs
      rcases this with h | ⟨ys, y, h⟩
      · subst h; simp at hn
      · exact ⟨ys, y, by simpa using h⟩
    have hl : n = ys.length := by simpa using hn
    unfold moveUp
    have e : p ++ ((ys ++ [y]).map some ++ (List.replicate (k + 1) none ++ q)) =
        (p ++ ys.map some) ++ some y :: (List.replicate (k + 1) none ++ q) := by simp
    rw [e, moveOne_up (by simp; omega) (by simp; omega)]
    show moveUp _ src dst n = _
    have e : p ++ ys.map some ++ (List.replicate (k + 1) none ++ some y :: q) =
        p ++ (ys.map some ++ (List.replicate (k + 1) none ++ some y :: q)) := by simp
    rw [e, ih hl]
    simp

theorem moveDown_shift {p q : List (Option α)} {k : Nat} {xs : List α} {src dst : Nat}
    (hs : src = p.length + (k + 1)) (hd : dst = p.length) :
    moveDown (p ++ (List.replicate (k + 1) none ++ (xs.map some ++ q))) src dst xs.length =
      .ok (p ++ (xs.map some ++ (List.replicate (k + 1) none ++ q))) := by
  induction xs generalizing p src dst with
  | nil => rfl
  | cons x xs ih =>
    rw [List.length_cons, moveDown]
    rw [List.map_cons, List.cons_append, moveOne_down hs hd]
    show moveDown _ (src + 1) (dst + 1) xs.length = _
    have e : p ++ some x :: (List.replicate (k + 1) none ++ (xs.map some ++ q)) =
        (p ++ [some x]) ++ (List.replicate (k + 1) none ++ (xs.map some ++ q)) := by simp
    rw [e, ih (by simp; omega) (by simp; omega)]
    simp

theorem moveTo_all {p q p' q' : List (Option α)} {xs : List α} {i : Nat} (hp : i = p.length)
    (hp' : i = p'.length) :
    moveTo (p ++ (xs.map some ++ q)) (p' ++ (List.replicate xs.length none ++ q')) i xs.length =
      .ok (p ++ (List.replicate xs.length none ++ q), p' ++ (xs.map some ++ q')) := by
  induction xs generalizing p p' i with
  | nil => rfl
  | cons x xs ih =>
    rw [List.length_cons, moveTo, List.map_cons, List.cons_append, load_mid hp]
    show (construct _ i x >>= _) = _
    rw [rep_cons, construct_mid hp']
    show (destroy _ i >>= _) = _
    rw [destroy_mid hp]
    show moveTo _ _ (i + 1) xs.length = _
    have e1 : p ++ none :: (xs.map some ++ q) = (p ++ [none]) ++ (xs.map some ++ q) := by simp
    have e2 : p' ++ some x :: (List.replicate xs.length none ++ q') =
        (p' ++ [some x]) ++ (List.replicate xs.length none ++ q') := by simp
    rw [e1, e2, ih (by simp; omega) (by simp; omega), rep_cons]
    simp

theorem destruct_all {p q : List (Option α)} {xs : List α} {i : Nat} (hp : i = p.length) :
    destruct (p ++ (xs.map some ++ q)) i xs.length =
      .ok (p ++ (List.replicate xs.length none ++ q)) := by
  obtain ⟨n, hn⟩ : ∃ n, n = xs.length := ⟨_, rfl⟩
  rw [← hn]
  induction n generalizing xs q with
  | zero =>
    have : xs = [] := List.eq_nil_of_length_eq_zero hn.symm
    subst this; rfl
  | succ n ih =>
    obtain ⟨ys, y, rfl⟩ : ∃ ys y, xs = ys ++ [y] := by
      rcases List.eq_nil_or_concat xs with h | ⟨ys, y, h⟩
      · subst h; simp at hn
      · exact ⟨ys, y, by simpa using h⟩
    have hl : n = ys.length := by simpa using hn
    unfold destruct
    have e : p ++ ((ys ++ [y]).map some ++ q) = (p ++ ys.map some) ++ some y :: q := by simp
    rw [e, destroy_mid (by simp; omega)]
    show destruct _ i n = _
    have e : p ++ ys.map some ++ none :: q = p ++ (ys.map some ++ none :: q) := by simp
    rw [e, ih hl, rep_snoc]

theorem Stable.get {r : Ref α} {a : Arr α} {l : List α} {v : α} {q : List (Option α)}
    (h : Stable r a.gen l v) (hm : a.mem = l.map some ++ q) : r.get a = .ok v := by
  rcases h with rfl | ⟨i, rfl, h⟩
  · rfl
  · have hi : i < l.length := by
      rcases Nat.lt_or_ge i l.length with h' | h'
      · exact h'
      · rw [List.getElem?_eq_none h'] at h; cases h
    have : a.mem[i]? = some (some v) := by
      rw [hm, List.getElem?_append_left (by simpa using hi), List.getElem?_map, h]; rfl
    simp [Ref.get, load, this]

theorem Stable.append {r : Ref α} {g : Nat} {l : List α} {v : α} (h : Stable r g l v)
    (m : List α) : Stable r g (l ++ m) v := by
  rcases h with rfl | ⟨i, rfl, h⟩
  · exact Or.inl rfl
  · refine Or.inr ⟨i, rfl, ?_⟩
    have hi : i < l.length := by
      rcases Nat.lt_or_ge i l.length with h' | h'
      · exact h'
      · rw [List.getElem?_eq_none h'] at h; cases h
    rw [List.getElem?_append_left hi, h]

/-! ## Growth -/

theorem w64_eq {n : Nat} (h : n < 2 ^ 64) : w64 n = n := Nat.mod_eq_of_lt h

theorem realloc_holds {A : Alloc} (hA : A.Sound) {a : Arr α} {l : List α} (h : Holds A a l)
    {max m : Nat} (hm : l.length ≤ max) (hb : A.block max = some m) (hv : A.movable max = true) :
    ∃ a', realloc A a max = .ok (some a') ∧ Holds A a' l ∧ a'.mem.length = m := by
  obtain ⟨hu, ⟨k, hk⟩, hl⟩ := h
  have hmm := hA.size _ _ hb
  refine ⟨{ mem := l.map some ++ List.replicate (m - l.length) none, used := a.used, gen := a.gen + 1 },
    ?_, ⟨hu, ⟨_, rfl⟩, ?_⟩, by simp; omega⟩
  · simp only [realloc, hb, hv, if_true]
    have e1 : a.mem = [] ++ (l.map some ++ List.replicate k none) := hk
    have e2 : (List.replicate m none : List (Option α)) =
        [] ++ (List.replicate l.length none ++ List.replicate (m - l.length) none) := by
      rw [List.nil_append, List.replicate_append_replicate]; congr 1; omega
    rw [e1, e2, hu, moveTo_all (i := 0) rfl rfl]
    show (release _ >>= _) = _
    have : release ([] ++ (List.replicate l.length none ++ List.replicate k none) :
        List (Option α)) = .ok () := by
      rw [List.nil_append, List.replicate_append_replicate, release, if_pos]
      simp
    rw [this]
    rfl
  · simp only [List.length_append, List.length_map, List.length_replicate]
    have := hA.least _ _ hb
    omega

theorem realloc_refused {A : Alloc} {a : Arr α} {max : Nat}
    (h : ¬ ((∃ m, A.block max = some m) ∧ A.movable max = true)) :
    realloc A a max = .error .thrown ∨ realloc A a max = .ok none := by
  unfold realloc
  cases hb : A.block max with
  | none => exact Or.inl rfl
  | some m =>
    cases hv : A.movable max with
    | true => exact absurd ⟨⟨m, hb⟩, hv⟩ h
    | false => exact Or.inr rfl

/-- `addExtra` makes room and keeps the content, or refuses. -/
theorem addExtra_holds {A : Alloc} (hA : A.Sound) {a : Arr α} {l : List α} (h : Holds A a l)
    {n : Nat} (hn : l.length + n < 2 ^ 64) :
    (∃ a', addExtra A a n = .ok a' ∧ Holds A a' l ∧ l.length + n ≤ a'.mem.length ∧
      a.mem.length ≤ a'.mem.length) ∨
      (addExtra A a n = .error .thrown ∧ ¬ A.Unlimited ∧ a.mem.length < l.length + n) := by
  unfold addExtra
  rw [h.used, w64_eq hn]
  by_cases hc : l.length + n > a.mem.length
  · rw [if_pos hc]
    obtain ⟨max, hmax, hfin⟩ : ∃ max, max = (if l.length + n > w64 (l.length * 3) / 2 then l.length + n
        else w64 (l.length * 3) / 2) ∧ l.length + n ≤ max := by
      refine ⟨_, rfl, ?_⟩
      split <;> omega
    simp only [← hmax]
    by_cases hb : (∃ m, A.block max = some m) ∧ A.movable max = true
    · obtain ⟨⟨m, hb⟩, hv⟩ := hb
      obtain ⟨a', hr, ha, hm⟩ := realloc_holds hA h (by omega) hb hv
      have := hA.size _ _ hb
      exact Or.inl ⟨a', by rw [hr]; rfl, ha, by omega, by omega⟩
    · refine Or.inr ⟨?_, ?_, hc⟩
      · rcases realloc_refused (a := a) hb with e | e <;> (rw [e]; rfl)
      · intro hu
        exact hb (hu _ (by have := h.least; omega))
  · rw [if_neg hc]
    exact Or.inl ⟨a, rfl, h, by omega, Nat.le_refl _⟩

theorem addExtra_room {A : Alloc} {a : Arr α} {l : List α} (h : Holds A a l) {n : Nat}
    (hn : l.length + n < 2 ^ 64) (hc : l.length + n ≤ a.mem.length) : addExtra A a n = .ok a := by
  unfold addExtra
  rw [h.used, w64_eq hn, if_neg (by omega)]

/-- A block can be given back: the content stays, whether it is replaced or not. -/
theorem freeExtra_holds {A : Alloc} (hA : A.Sound) {a : Arr α} {l : List α} (h : Holds A a l) :
    (∃ a', freeExtra A a = .ok a' ∧ Holds A a' l) ∨
      (freeExtra A a = .error .thrown ∧ A.block l.length = none) := by
  unfold freeExtra
  rw [h.used]
  split
  · cases hb : A.block l.length with
    | none =>
      refine Or.inr ⟨?_, rfl⟩
      have : realloc A a l.length = .error .thrown := by simp only [realloc, hb]
      rw [this]; rfl
    | some m =>
      cases hv : A.movable l.length with
      | true =>
        obtain ⟨a', hr, ha, _⟩ := realloc_holds hA h (Nat.le_refl _) hb hv
        exact Or.inl ⟨a', by rw [hr]; rfl, ha⟩
      | false =>
        have : realloc A a l.length = .ok none := by simp only [realloc, hb, hv]; rfl
        exact Or.inl ⟨a, by rw [this]; rfl, h⟩
  · exact Or.inl ⟨a, rfl, h⟩

/-! ## Items at the end -/

theorem push_holds {A : Alloc} {a : Arr α} {l : List α} (h : Holds A a l) {r : Ref α} {v : α}
    (hr : Stable r a.gen l v) (hc : l.length < a.mem.length) :
    ∃ a', push a r = .ok a' ∧ Holds A a' (l ++ [v]) ∧ a'.mem.length = a.mem.length ∧
      a'.gen = a.gen := by
  obtain ⟨hu, ⟨k, hk⟩, hl⟩ := h
  unfold push
  rw [hr.get hk]
  show ∃ a', (construct a.mem a.used v >>= _) = _ ∧ _
  obtain ⟨j, rfl⟩ : ∃ j, k = j + 1 := by
    refine ⟨k - 1, ?_⟩
    rw [hk] at hc; simp at hc; omega
  have hk' := hk
  rw [List.replicate_succ] at hk
  rw [hk, construct_mid (by simp [hu])]
  refine ⟨_, rfl, ⟨by simp [hu], ⟨j, by simp⟩, ?_⟩, ?_, rfl⟩
  · rw [hk'] at hl; simp at hl ⊢; omega
  · simp [hk']

theorem pushN_holds {A : Alloc} {n : Nat} {a : Arr α} {l : List α} (h : Holds A a l) {r : Ref α}
    {v : α} (hr : Stable r a.gen l v) (hc : l.length + n ≤ a.mem.length) :
    ∃ a', pushN a r n = .ok a' ∧ Holds A a' (l ++ List.replicate n v) := by
  induction n generalizing a l with
  | zero => exact ⟨a, rfl, by simpa using h⟩
  | succ n ih =>
    obtain ⟨a1, h1, h2, h3, h4⟩ := push_holds h hr (by omega)
    obtain ⟨a2, e, h5⟩ := ih h2 (by rw [h4]; exact hr.append _) (by simp; omega)
    refine ⟨a2, ?_, by simpa [List.replicate_succ] using h5⟩
    rw [pushN, h1]
    exact e

theorem Gives.bind {A : Alloc} {a : Arr α} {need : Nat} {r : Except Err (Arr α)} {l l' : List α}
    {f : Arr α → Except Err (Arr α)} (h : Gives A a need r l)
    (hf : ∀ b, Holds A b l → Gives A a need (f b) l') : Gives A a need (r >>= f) l' := by
  rcases h with ⟨b, rfl, hb⟩ | ⟨rfl, h⟩
  · exact hf b hb
  · exact Or.inr ⟨rfl, h⟩

theorem Gives.mono {A : Alloc} {a b : Arr α} {need need' : Nat} {r : Except Err (Arr α)} {l : List α}
    (h : Gives A a need r l) (hn : need ≤ need') (hl : b.mem.length ≤ a.mem.length) :
    Gives A b need' r l := by
  rcases h with h | ⟨h1, h2, h3⟩
  · exact Or.inl h
  · exact Or.inr ⟨h1, h2, by omega⟩

/-- C24: `add(item)` and `add(item, count)` append; the item is an independent value. -/
theorem c24_addN {A : Alloc} (hA : A.Sound) {a : Arr α} {l : List α} (h : Holds A a l) (v : α)
    {n : Nat} (hn : l.length + n < 2 ^ 64) :
    Gives A a (l.length + n) (addN A a (.val v) n) (l ++ List.replicate n v) := by
  unfold addN
  rcases addExtra_holds hA h hn with ⟨a1, e, h1, h2, _⟩ | ⟨e, h1, h2⟩
  · rw [e]
    exact Or.inl (pushN_holds h1 (Or.inl rfl) h2)
  · rw [e]
    exact Or.inr ⟨rfl, h1, h2⟩

theorem add_gives {A : Alloc} (hA : A.Sound) {a : Arr α} {l : List α} (h : Holds A a l) (v : α)
    (hn : l.length + 1 < 2 ^ 64) :
    (∃ a', add A a (.val v) = .ok a' ∧ Holds A a' (l ++ [v]) ∧ a.mem.length ≤ a'.mem.length) ∨
      (add A a (.val v) = .error .thrown ∧ ¬ A.Unlimited ∧ a.mem.length < l.length + 1) := by
  unfold add
  rcases addExtra_holds hA h hn with ⟨a1, e, h1, h2, h3⟩ | ⟨e, h1, h2⟩
  · rw [e]
    obtain ⟨a2, e2, h4, h5, _⟩ := push_holds (r := .val v) h1 (Or.inl rfl) (by omega)
    exact Or.inl ⟨a2, e2, h4, by omega⟩
  · rw [e]
    exact Or.inr ⟨rfl, h1, h2⟩

theorem addAll_gives {A : Alloc} (hA : A.Sound) {a : Arr α} {l : List α} (h : Holds A a l)
    (xs : List α) (hn : l.length + xs.length < 2 ^ 64) :
    Gives A a (l.length + xs.length) (addAll A a xs) (l ++ xs) := by
  induction xs generalizing a l with
  | nil => exact Or.inl ⟨a, rfl, by simpa using h⟩
  | cons x xs ih =>
    simp only [List.length_cons] at hn
    unfold addAll
    rcases add_gives hA h x (by omega) with ⟨a1, e, h1, h2⟩ | ⟨e, h1, h2⟩
    · rw [e]
      have := (ih h1 (by simp; omega)).mono (need' := l.length + (x :: xs).length) (b := a)
        (by simp; omega) h2
      rw [List.append_assoc] at this
      exact this
    · rw [e]
      exact Or.inr ⟨rfl, h1, by simp; omega⟩

/-- C24: `append` of another array. -/
theorem c24_append {A : Alloc} (hA : A.Sound) {a : Arr α} {l : List α} (h : Holds A a l)
    (xs : List α) (hn : l.length + xs.length < 2 ^ 64) :
    Gives A a (l.length + xs.length) (append A a xs) (l ++ xs) := by
  unfold append
  rcases addExtra_holds hA h hn with ⟨a1, e, h1, _, h3⟩ | ⟨e, h1, h2⟩
  · rw [e]
    exact (addAll_gives hA h1 xs hn).mono (Nat.le_refl _) h3
  · rw [e]
    exact Or.inr ⟨rfl, h1, h2⟩

/-- C24: `reserve` keeps the content. -/
theorem c24_reserve {A : Alloc} (hA : A.Sound) {a : Arr α} {l : List α} (h : Holds A a l) {n : Nat}
    (hn : n < 2 ^ 64) :
    (∃ a', reserve A a n = .ok a' ∧ Holds A a' l ∧ n ≤ a'.mem.length ∧
      a.mem.length ≤ a'.mem.length) ∨
      (reserve A a n = .error .thrown ∧ ¬ A.Unlimited ∧ a.mem.length < n) := by
  unfold reserve
  rw [h.used]
  split
  · rcases addExtra_holds hA h (n := n - l.length) (by omega) with
      ⟨a1, e, h1, h2, h3⟩ | ⟨e, h1, h2⟩
    · exact Or.inl ⟨a1, e, h1, by omega, h3⟩
    · exact Or.inr ⟨e, h1, by omega⟩
  · exact Or.inl ⟨a, rfl, h, by have := h.le; omega, Nat.le_refl _⟩

/-! ## Removal -/

theorem split_at {l : List α} {i : Nat} (h : i ≤ l.length) : (l.take i).length = i := by
  rw [List.length_take]; omega

/-- The hole of `count` raw cells behind the items `p` is closed. -/
theorem unreserveAt_holds {A : Alloc} {a : Arr α} {p x : List α} {count k : Nat} (hc : 0 < count)
    (hm : a.mem = p.map some ++ (List.replicate count none ++ (x.map some ++ List.replicate k none)))
    (hu : a.used = p.length + count + x.length) (hl : A.least ≤ a.mem.length) :
    ∃ a', unreserveAt a p.length count = .ok a' ∧ Holds A a' (p ++ x) := by
  obtain ⟨c, rfl⟩ : ∃ c, count = c + 1 := ⟨count - 1, by omega⟩
  have e : objMove a.mem (p.length + (c + 1)) (a.used - p.length - (c + 1)) p.length =
      .ok (p.map some ++ (x.map some ++ (List.replicate (c + 1) none ++ List.replicate k none))) := by
    unfold objMove
    rw [if_pos (by omega)]
    have : a.used - p.length - (c + 1) = x.length := by omega
    rw [this, hm]
    exact moveDown_shift (by simp) (by simp)
  unfold unreserveAt
  rw [e]
  refine ⟨_, rfl, ⟨?_, ⟨c + 1 + k, ?_⟩, ?_⟩⟩
  · simp; omega
  · simp only [List.map_append, List.append_assoc, List.replicate_append_replicate]
  · rw [hm] at hl
    simp at hl ⊢
    omega

/-- C24: `erase(at, count)` removes the range, cut at the end of the array; a position behind the
end is refused. (`at + count` must not overflow.) -/
theorem c24_erase_partial {A : Alloc} {a : Arr α} {l : List α} (h : Holds A a l) {i n : Nat}
    (hn : i + n < 2 ^ 64) :
    if i ≤ l.length then ∃ a', erase a i n = .ok a' ∧ Holds A a' (l.take i ++ l.drop (i + n))
    else erase a i n = .error .thrown := by
  obtain ⟨hu, ⟨k, hk⟩, hl⟩ := h
  split
  · rename_i hi
    unfold erase
    rw [if_neg (by omega), w64_eq hn]
    obtain ⟨c, hc, hc1, hc2⟩ : ∃ c, c = (if i + n > a.used then a.used - i else n) ∧
        i + c ≤ l.length ∧ l.drop (i + c) = l.drop (i + n) := by
      refine ⟨_, rfl, ?_, ?_⟩
      · split <;> omega
      · split
        · rw [List.drop_eq_nil_of_le (by omega), List.drop_eq_nil_of_le (by omega)]
        · rfl
    simp only [← hc, ← hc2]
    by_cases h0 : c = 0
    · subst h0
      exact ⟨a, by simp, ⟨by simp [hu], ⟨k, by simpa using hk⟩, hl⟩⟩
    · rw [if_neg h0]
      have hd : destruct a.mem i c = .ok ((l.take i).map some ++ (List.replicate c none ++
          ((l.drop (i + c)).map some ++ List.replicate k none))) := by
        have e : a.mem = (l.take i).map some ++ (((l.drop i).take c).map some ++
            ((l.drop (i + c)).map some ++ List.replicate k none)) := by
          rw [hk]
          conv => lhs; rw [← List.take_append_drop i l, ← List.take_append_drop c (l.drop i)]
          simp [List.drop_drop]
        have hlen : ((l.drop i).take c).length = c := by simp; omega
        have := destruct_all (p := (l.take i).map some) (xs := (l.drop i).take c)
          (q := (l.drop (i + c)).map some ++ List.replicate k none) (i := i)
          (by simp; omega)
        rw [hlen] at this
        rw [e, this]
      rw [hd]
      have := unreserveAt_holds (A := A) (a := { a with mem := (l.take i).map some ++
        (List.replicate c none ++ ((l.drop (i + c)).map some ++ List.replicate k none)) })
        (p := l.take i) (x := l.drop (i + c)) (count := c) (k := k) (by omega) rfl
        (by simp; omega) (by rw [hk] at hl; simp at hl ⊢; omega)
      rw [split_at hi] at this
      exact this
  · unfold erase
    rw [if_pos (by omega)]

/-- C24: `trunc` removes items from the end, all of them if there are not so many. -/
theorem c24_trunc {A : Alloc} {a : Arr α} {l : List α} (h : Holds A a l) (n : Nat)
    (hs : l.length < 2 ^ 64) :
    ∃ a', trunc a n = .ok a' ∧ Holds A a' (l.take (l.length - n)) := by
  unfold trunc
  obtain ⟨c, hc, h1, h2⟩ : ∃ c, c = (if n ≥ a.used then a.used else n) ∧ c ≤ l.length ∧
      l.length - c = l.length - n := by
    refine ⟨_, rfl, ?_, ?_⟩ <;> (rw [h.used]; split <;> omega)
  simp only [← hc]
  have := c24_erase_partial h (i := l.length - c) (n := c) (by omega)
  rw [if_pos (by omega), List.drop_eq_nil_of_le (by omega), List.append_nil, h2] at this
  rw [h.used, h2]
  exact this

/-- C24: `clear` leaves the empty array. -/
theorem c24_clear {A : Alloc} {a : Arr α} {l : List α} (h : Holds A a l) (hs : l.length < 2 ^ 64) :
    ∃ a', clear a = .ok a' ∧ Holds A a' [] := by
  have := c24_trunc h a.used hs
  rw [h.used, Nat.sub_self, List.take_zero] at this
  unfold clear
  rw [h.used]
  exact this

/-- The destructor destroys all items: nothing is left in the block and nothing raw is destroyed. -/
theorem c24_destructor {A : Alloc} {a : Arr α} {l : List α} (h : Holds A a l)
    (hs : l.length < 2 ^ 64) : destructor a = .ok () := by
  obtain ⟨a', e, _, ⟨k, hk⟩, _⟩ := c24_clear h hs
  unfold destructor
  rw [e]
  show release a'.mem = _
  rw [hk, release, if_pos (by simp)]

/-- C24: `resize(items, init)` cuts or fills up with copies of `init`. -/
theorem c24_resizeWith {A : Alloc} (hA : A.Sound) {a : Arr α} {l : List α} (h : Holds A a l)
    (n : Nat) (v : α) (hs : l.length < 2 ^ 64) (hn : n < 2 ^ 64) :
    Gives A a n (resizeWith A a n (.val v)) (l.take n ++ List.replicate (n - l.length) v) := by
  unfold resizeWith
  rw [h.used]
  split
  · rename_i hc
    have := c24_addN hA h v (n := n - l.length) (by omega)
    rw [List.take_of_length_le (by omega)]
    have e : l.length + (n - l.length) = n := by omega
    rwa [e] at this
  · split
    · have := c24_trunc h (l.length - n) hs
      have e1 : l.length - (l.length - n) = n := by omega
      have e2 : n - l.length = 0 := by omega
      rw [e1] at this
      rw [e2]
      exact Or.inl (by simpa using this)
    · have e : n = l.length := by omega
      subst e
      exact Or.inl ⟨a, rfl, by simpa using h⟩

/-- C24: `resize(items)` cuts or fills up with default items. -/
theorem c24_resize {A : Alloc} (hA : A.Sound) {a : Arr α} {l : List α} (h : Holds A a l)
    (n : Nat) (v : α) (hs : l.length < 2 ^ 64) (hn : n < 2 ^ 64) :
    Gives A a n (resize A a n v) (l.take n ++ List.replicate (n - l.length) v) :=
  c24_resizeWith hA h n v hs hn

/-! ## Insertion -/

theorem reserveAt_holds {A : Alloc} (hA : A.Sound) {a : Arr α} {l : List α} (h : Holds A a l)
    {i n : Nat} (hi : i ≤ l.length) (hn : l.length + n < 2 ^ 64) (h0 : i < l.length → 0 < n) :
    (∃ a' k, reserveAt A a i n = .ok a' ∧ a'.used = l.length + n ∧ A.least ≤ a'.mem.length ∧
      a'.mem = (l.take i).map some ++ (List.replicate n none ++
        ((l.drop i).map some ++ List.replicate k none)) ∧
      (l.length + n ≤ a.mem.length → a'.gen = a.gen)) ∨
      (reserveAt A a i n = .error .thrown ∧ ¬ A.Unlimited ∧ a.mem.length < l.length + n) := by
  unfold reserveAt
  rcases addExtra_holds hA h hn with ⟨a1, e, ⟨hu, ⟨k, hk⟩, hl⟩, h2, _⟩ | ⟨e, h1, h2⟩
  · have hg : l.length + n ≤ a.mem.length → a1.gen = a.gen := by
      intro hr
      rw [addExtra_room h hn hr] at e
      cases e; rfl
    rw [e]
    refine Or.inl ?_
    have hkn : n ≤ k := by rw [hk] at h2; simp at h2; omega
    have ek : (List.replicate k none : List (Option α)) =
        List.replicate n none ++ List.replicate (k - n) none := by
      rw [List.replicate_append_replicate]; congr 1; omega
    have em : a1.mem = (l.take i).map some ++ ((l.drop i).map some ++
        (List.replicate n none ++ List.replicate (k - n) none)) := by
      rw [hk, ek]
      conv => lhs; rw [← List.take_append_drop i l, List.map_append, List.append_assoc]
    have : objMove a1.mem i (a1.used - i) (i + n) = .ok ((l.take i).map some ++
        (List.replicate n none ++ ((l.drop i).map some ++ List.replicate (k - n) none))) := by
      unfold objMove
      rw [if_neg (by omega)]
      have hx : a1.used - i = (l.drop i).length := by simp [hu]
      rw [hx, em]
      rcases Nat.lt_or_ge i l.length with hlt | hge
      · obtain ⟨c, rfl⟩ : ∃ c, n = c + 1 := ⟨n - 1, by have := h0 hlt; omega⟩
        exact moveUp_shift (by simp; omega) (by simp; omega)
      · have : l.drop i = [] := List.drop_eq_nil_of_le hge
        rw [this]
        rfl
    refine ⟨{ a1 with mem := (l.take i).map some ++
        (List.replicate n none ++ ((l.drop i).map some ++ List.replicate (k - n) none)), used := a1.used + n }, k - n, ?_, ?_, ?_, rfl, hg⟩
    · show (objMove a1.mem i (a1.used - i) (i + n) >>= _) = _
      rw [this]
      rfl
    · simp [hu]
    · rw [hk] at hl
      simp at hl ⊢
      omega
  · rw [e]
    exact Or.inr ⟨rfl, h1, h2⟩

/-- `rs` read the values `vs`. -/
def StableAll (gen : Nat) (l : List α) : List (Ref α) → List α → Prop
  | [], [] => True
  | r :: rs, v :: vs => Stable r gen l v ∧ StableAll gen l rs vs
  | _, _ => False

theorem StableAll.append {gen : Nat} {l : List α} {rs : List (Ref α)} {vs : List α}
    (h : StableAll gen l rs vs) (m : List α) : StableAll gen (l ++ m) rs vs := by
  induction rs generalizing vs with
  | nil => cases vs <;> exact h
  | cons r rs ih =>
    cases vs with
    | nil => exact h
    | cons v vs => exact ⟨h.1.append m, ih h.2⟩

theorem StableAll.replicate {gen : Nat} {l : List α} {r : Ref α} {v : α} (h : Stable r gen l v)
    (n : Nat) : StableAll gen l (List.replicate n r) (List.replicate n v) := by
  induction n with
  | zero => trivial
  | succ n ih => exact ⟨h, ih⟩

theorem StableAll.vals (gen : Nat) (l vs : List α) : StableAll gen l (vs.map .val) vs := by
  induction vs with
  | nil => trivial
  | cons v vs ih => exact ⟨Or.inl rfl, ih⟩

theorem writes_holds {rs : List (Ref α)} {vs p : List α} {w : InsIter α} {q : List (Option α)}
    (hr : StableAll w.target.gen p rs vs) (hp : w.atpos = p.length)
    (hm : w.target.mem = p.map some ++ (List.replicate w.limit none ++ q))
    (hl : vs.length ≤ w.limit) :
    ∃ w', w.writes rs = .ok w' ∧ w'.atpos = (p ++ vs).length ∧ w'.limit = w.limit - vs.length ∧
      w'.target.used = w.target.used ∧ w'.target.mem =
        (p ++ vs).map some ++ (List.replicate (w.limit - vs.length) none ++ q) := by
  induction rs generalizing vs p w with
  | nil =>
    cases vs with
    | nil => exact ⟨w, rfl, by simpa using hp, rfl, rfl, by simpa using hm⟩
    | cons v vs => exact hr.elim
  | cons r rs ih =>
    cases vs with
    | nil => exact hr.elim
    | cons v vs =>
      obtain ⟨hr1, hr2⟩ := hr
      simp only [List.length_cons] at hl
      obtain ⟨c, hc⟩ : ∃ c, w.limit = c + 1 := ⟨w.limit - 1, by omega⟩
      have e1 : w.write r = .ok { atpos := w.atpos + 1, limit := w.limit - 1, target := { w.target with mem := (p ++ [v]).map some ++ (List.replicate c none ++ q) } } := by
        unfold InsIter.write
        rw [if_pos (by omega), hr1.get hm]
        show (construct w.target.mem w.atpos v >>= _) = _
        rw [hm, hc, rep_cons, construct_mid (by simpa using hp)]
        simp only [List.map_append, List.map_cons, List.map_nil, List.append_assoc,
          List.cons_append, List.nil_append]
        rfl
      obtain ⟨w', h1, h2, h3, h4, h5⟩ := ih
        (w := { atpos := w.atpos + 1, limit := w.limit - 1, target := { w.target with mem := (p ++ [v]).map some ++ (List.replicate c none ++ q) } })
        (p := p ++ [v]) (hr2.append [v]) (by simp [hp])
        (by have : w.limit - 1 = c := by omega
            simp only [this]) (by simp; omega)
      refine ⟨w', ?_, by simpa using h2, ?_, h4, ?_⟩
      · rw [InsIter.writes, e1]; exact h1
      · rw [h3]; simp; omega
      · rw [h5]
        have : w.limit - 1 - vs.length = w.limit - (v :: vs).length := by simp; omega
        simp [this]

/-- C24: the insert iterator of `n` items at position `i`, fed with at most `n` items, leaves them
there; the room for the others disappears again. -/
theorem c24_insertIter {A : Alloc} (hA : A.Sound) {a : Arr α} {l : List α} (h : Holds A a l)
    {i n : Nat} (hn : l.length + n < 2 ^ 64) (h0 : i < l.length → 0 < n) {vs : List α}
    (hv : vs.length ≤ n) :
    if i ≤ l.length then
      Gives A a (l.length + n) (insertIter A a i n (vs.map .val)) (l.take i ++ vs ++ l.drop i)
    else insertIter A a i n (vs.map .val) = .error .thrown := by
  split
  · rename_i hi
    unfold insertIter InsIter.new
    rw [if_neg (by rw [h.used]; omega)]
    rcases reserveAt_holds hA h hi hn h0 with ⟨a', k, e, hu, hl, hm, _⟩ | ⟨e, h1, h2⟩
    · rw [e]
      refine Or.inl ?_
      obtain ⟨w', h1, h2, h3, h4, h5⟩ := writes_holds (w := { atpos := i, limit := n, target := a' })
        (StableAll.vals a'.gen (l.take i) vs) (split_at hi).symm hm hv
      show ∃ a'', (InsIter.writes _ _ >>= _) = _ ∧ _
      rw [h1]
      show ∃ a'', w'.close = _ ∧ _
      unfold InsIter.close
      simp only at h3 h4 h5
      by_cases hz : w'.limit = 0
      · rw [if_neg (by simp [hz])]
        have hz' : n - vs.length = 0 := by omega
        refine ⟨_, rfl, ⟨?_, ⟨k, ?_⟩, ?_⟩⟩
        · rw [h4, hu]; simp; omega
        · rw [h5, hz']; simp
        · rw [h5]
          rw [hm] at hl
          simp at hl ⊢; omega
      · rw [if_pos hz, h2]
        refine unreserveAt_holds (p := l.take i ++ vs) (x := l.drop i) (k := k) (by omega) ?_ ?_ ?_
        · rw [h5, h3]
        · rw [h4, hu, h3]; simp; omega
        · rw [h5]
          rw [hm] at hl
          simp at hl ⊢; omega
    · rw [e]
      exact Or.inr ⟨rfl, h1, h2⟩
  · unfold insertIter
    rw [if_pos (by rw [h.used]; omega)]

/-- The loop of `copy` writes the items, as many as fit. -/
theorem copy_writes {xs : List α} {w : InsIter α} (h : xs.length ≤ w.limit) :
    w.copy xs = w.writes (xs.map .val) := by
  induction xs generalizing w with
  | nil => rfl
  | cons x xs ih =>
    simp only [List.length_cons] at h
    rw [InsIter.copy, if_pos (by omega), List.map_cons, InsIter.writes]
    unfold InsIter.write
    rw [if_pos (by omega)]
    cases (Ref.val x).get w.target with
    | error e => rfl
    | ok v =>
      show (construct w.target.mem w.atpos v >>= _) >>= _ = (construct w.target.mem w.atpos v >>= _) >>= _
      cases construct w.target.mem w.atpos v with
      | error e => rfl
      | ok m => exact ih (by simp; omega)

/-- C24: `insert(at, item, count)` puts the copies in front of the item at the position; at the end it
appends; a position behind the end is refused. (`count` is not 0, the item is an independent value.) -/
theorem c24_insert_partial {A : Alloc} (hA : A.Sound) {a : Arr α} {l : List α} (h : Holds A a l)
    (i : Nat) (v : α) {n : Nat} (hn : l.length + n < 2 ^ 64) (h0 : 0 < n) :
    if i ≤ l.length then
      Gives A a (l.length + n) (insert A a i (.val v) n)
        (l.take i ++ List.replicate n v ++ l.drop i)
    else insert A a i (.val v) n = .error .thrown := by
  split
  · rename_i hi
    unfold insert
    rw [h.used, if_neg (by omega)]
    split
    · rename_i he
      have := c24_addN hA h v hn
      rw [he, List.take_of_length_le (Nat.le_refl _), List.drop_eq_nil_of_le (Nat.le_refl _),
        List.append_nil]
      exact this
    · have := c24_insertIter hA h (i := i) hn (fun _ => h0) (vs := List.replicate n v) (by simp)
      rw [if_pos hi, insertIter, if_neg (by rw [h.used]; omega)] at this
      simpa using this
  · unfold insert
    rw [if_pos (by rw [h.used]; omega)]

/-- C24: `insertArray` of another array, which is not empty. -/
theorem c24_insertArray_partial {A : Alloc} (hA : A.Sound) {a : Arr α} {l : List α} (h : Holds A a l)
    (i : Nat) {xs : List α} (hn : l.length + xs.length < 2 ^ 64) (h0 : xs ≠ []) :
    if i ≤ l.length then
      Gives A a (l.length + xs.length) (insertArray A a i xs) (l.take i ++ xs ++ l.drop i)
    else insertArray A a i xs = .error .thrown := by
  split
  · rename_i hi
    unfold insertArray
    rw [h.used, if_neg (by omega)]
    split
    · rename_i he
      have := c24_append hA h xs hn
      rw [he, List.take_of_length_le (Nat.le_refl _), List.drop_eq_nil_of_le (Nat.le_refl _),
        List.append_nil]
      exact this
    · have := c24_insertIter hA h (i := i) hn (fun _ => List.length_pos_iff.2 h0) (vs := xs)
        (Nat.le_refl _)
      rw [if_pos hi, insertIter, if_neg (by rw [h.used]; omega)] at this
      unfold InsIter.new at this ⊢
      cases hr : reserveAt A a i xs.length with
      | error e => rw [hr] at this; exact this
      | ok b =>
        rw [hr] at this
        show Gives A a _ (InsIter.copy { atpos := i, limit := xs.length, target := b } xs >>= _) _
        rw [copy_writes (by simp)]
        exact this
  · unfold insertArray
    rw [if_pos (by rw [h.used]; omega)]

/-! ## Whole arrays -/

theorem new_holds {A : Alloc} {a : Arr α} (h : new A = .ok a) : Holds A a [] := by
  unfold new at h
  cases hb : A.block 0 with
  | none => rw [hb] at h; cases h
  | some m =>
    rw [hb] at h
    cases h
    exact ⟨rfl, ⟨m, rfl⟩, by simp [Alloc.least, hb]⟩

/-- C24: a copy holds the same items. -/
theorem c24_copy {A : Alloc} (hA : A.Sound) (xs : List α) (hn : xs.length < 2 ^ 64) :
    (∃ a, copy A xs = .ok a ∧ Holds A a xs) ∨
      (copy A xs = .error .thrown ∧ A.block xs.length = none) := by
  unfold copy
  cases hb : A.block xs.length with
  | none => exact Or.inr ⟨rfl, rfl⟩
  | some m =>
    have h0 : Holds A { mem := List.replicate m none } ([] : List α) :=
      ⟨rfl, ⟨m, rfl⟩, by simpa using hA.least _ _ hb⟩
    have := c24_append hA h0 xs (by simpa using hn)
    rcases this with ⟨a', e, h⟩ | ⟨_, _, h⟩
    · exact Or.inl ⟨a', e, by simpa using h⟩
    · exfalso
      have := hA.size _ _ hb
      simp at h
      omega

/-- C24: assignment from another array. (The assignment of the array to itself: below.) -/
theorem c24_assign_partial {A : Alloc} (hA : A.Sound) {a : Arr α} {l : List α} (h : Holds A a l)
    (xs : List α) (hs : l.length < 2 ^ 64) (hn : xs.length < 2 ^ 64) :
    (∃ a', assign A a xs = .ok a' ∧ Holds A a' xs) ∨
      (assign A a xs = .error .thrown ∧ ¬ A.Unlimited) := by
  obtain ⟨a1, e, h1⟩ := c24_clear h hs
  unfold assign
  rw [e]
  show (∃ a', (if xs.length > 0 then _ else _) = _ ∧ _) ∨ _
  by_cases hx : xs.length > 0
  · rw [if_pos hx]
    rcases c24_reserve hA h1 hn with ⟨a2, e2, h2, _, _⟩ | ⟨e2, h2, _⟩
    · show (∃ a', (reserve A a1 xs.length >>= _) = _ ∧ _) ∨ _
      rw [e2]
      rcases addAll_gives hA h2 xs (by simpa using hn) with h3 | ⟨e3, h4, _⟩
      · rw [List.nil_append] at h3
        exact Or.inl h3
      · refine Or.inr ⟨?_, h4⟩
        show (if xs.length > 0 then (reserve A a1 xs.length >>= _) else _) = _
        rw [if_pos hx, e2]
        exact e3
    · refine Or.inr ⟨?_, h2⟩
      show (if xs.length > 0 then (reserve A a1 xs.length >>= _) else _) = _
      rw [if_pos hx, e2]
      rfl
  · rw [if_neg hx]
    have : xs = [] := List.eq_nil_of_length_eq_zero (by omega)
    exact Or.inl ⟨a1, rfl, by rw [this]; exact h1⟩

/-- C24: the items read are those of the sequence. -/
theorem c24_at {A : Alloc} {a : Arr α} {l : List α} (h : Holds A a l) {i : Nat} {v : α}
    (hv : l[i]? = some v) : at_ a i = .ok v := by
  obtain ⟨k, hk⟩ := h.mem
  have := Stable.get (r := .cell a.gen i) (Or.inr ⟨i, rfl, hv⟩) hk
  simpa [Ref.get, at_] using this

/-- C24: writing an item changes just this item. -/
theorem c24_set {A : Alloc} {a : Arr α} {l : List α} (h : Holds A a l) {i : Nat} (hi : i < l.length)
    (v : α) : ∃ a', set a i v = .ok a' ∧ Holds A a' (l.set i v) := by
  obtain ⟨hu, ⟨k, hk⟩, hl⟩ := h
  have : a.mem[i]? = some (some l[i]) := by
    rw [hk, List.getElem?_append_left (by simpa using hi), List.getElem?_map,
      List.getElem?_eq_getElem hi]; rfl
  refine ⟨{ a with mem := a.mem.set i (some v) }, by simp [set, this], ⟨by simp [hu], ⟨k, ?_⟩, by
    simpa using hl⟩⟩
  show a.mem.set i (some v) = _
  rw [hk, List.set_append_left _ _ (by simpa using hi), List.map_set]

theorem swapItems_all {p1 q1 p2 q2 : List (Option α)} {xs ys : List α} {i : Nat}
    (h1 : i = p1.length) (h2 : i = p2.length) (hxy : xs.length = ys.length) :
    swapItems (p1 ++ (xs.map some ++ q1)) (p2 ++ (ys.map some ++ q2)) i xs.length =
      .ok (p1 ++ (ys.map some ++ q1), p2 ++ (xs.map some ++ q2)) := by
  induction xs generalizing ys p1 p2 i with
  | nil =>
    have : ys = [] := List.eq_nil_of_length_eq_zero hxy.symm
    subst this; rfl
  | cons x xs ih =>
    cases ys with
    | nil => simp at hxy
    | cons y ys =>
      simp only [List.length_cons, Nat.add_right_cancel_iff] at hxy
      rw [List.length_cons, swapItems, List.map_cons, List.map_cons, List.cons_append,
        List.cons_append, load_mid h1, load_mid h2]
      show swapItems _ _ (i + 1) xs.length = _
      have e1 : (p1 ++ some x :: (xs.map some ++ q1)).set i (some y) =
          (p1 ++ [some y]) ++ (xs.map some ++ q1) := by subst h1; simp
      have e2 : (p2 ++ some y :: (ys.map some ++ q2)).set i (some x) =
          (p2 ++ [some x]) ++ (ys.map some ++ q2) := by subst h2; simp
      rw [e1, e2, ih (by simp; omega) (by simp; omega) hxy]
      simp

theorem swapLong_holds {A : Alloc} (hA : A.Sound) {a b : Arr α} {l1 l2 : List α}
    (ha : Holds A a l1) (hb : Holds A b l2) (hle : l2.length ≤ l1.length)
    (hs : l1.length < 2 ^ 64) :
    (∃ a' b', swapLong A a b = .ok (a', b') ∧ Holds A a' l2 ∧ Holds A b' l1) ∨
      (swapLong A a b = .error .thrown ∧ ¬ A.Unlimited ∧ b.mem.length < l1.length) := by
  unfold swapLong
  rw [ha.used]
  rcases c24_reserve hA hb hs with ⟨b1, e, hb1, hr, _⟩ | ⟨e, h1, h2⟩
  · refine Or.inl ?_
    rw [e]
    obtain ⟨hu2, ⟨k2, hk2⟩, hl2⟩ := hb1
    obtain ⟨hu1, ⟨k1, hk1⟩, hl1⟩ := ha
    obtain ⟨n, hn⟩ : ∃ n, n = l2.length := ⟨_, rfl⟩
    have ht : (l1.take n).length = l2.length := by simp; omega
    have em1 : a.mem = [] ++ ((l1.take n).map some ++ ((l1.drop n).map some ++ List.replicate k1 none)) := by
      rw [hk1, List.nil_append]
      conv => lhs; rw [← List.take_append_drop n l1, List.map_append, List.append_assoc]
    have em2 : b1.mem = [] ++ (l2.map some ++ List.replicate k2 none) := hk2
    have es : swapItems a.mem b1.mem 0 b1.used =
        .ok (l2.map some ++ ((l1.drop n).map some ++ List.replicate k1 none),
          (l1.take n).map some ++ List.replicate k2 none) := by
      rw [em1, em2, hu2, ← ht, swapItems_all (i := 0) rfl rfl ht]
      rfl
    show ∃ a' b', (swapItems a.mem b1.mem 0 b1.used >>= _) = _ ∧ _
    rw [es]
    have hd : (l1.drop n).length = l1.length - b1.used := by simp [hu2, hn]
    have hk : (l1.drop n).length ≤ k2 := by
      rw [hk2] at hr; simp at hr ⊢; omega
    have er : (List.replicate k2 none : List (Option α)) = List.replicate (l1.drop n).length none ++
        List.replicate (k2 - (l1.drop n).length) none := by
      rw [List.replicate_append_replicate]; congr 1; omega
    have ev : moveTo (l2.map some ++ ((l1.drop n).map some ++ List.replicate k1 none))
        ((l1.take n).map some ++ List.replicate k2 none) b1.used (l1.length - b1.used) =
        .ok (l2.map some ++ (List.replicate (l1.drop n).length none ++ List.replicate k1 none),
          (l1.take n).map some ++ ((l1.drop n).map some ++
            List.replicate (k2 - (l1.drop n).length) none)) := by
      rw [er, ← hd]
      exact moveTo_all (by simp [hu2]) (by simp; omega)
    show ∃ a' b', (moveTo _ _ b1.used (l1.length - b1.used) >>= _) = _ ∧ _
    rw [ev]
    refine ⟨_, _, rfl, ⟨hu2, ⟨(l1.drop n).length + k1, ?_⟩, ?_⟩,
      ⟨rfl, ⟨k2 - (l1.drop n).length, ?_⟩, ?_⟩⟩
    · simp only [List.replicate_append_replicate]
    · rw [hk1] at hl1
      simp at hl1 ⊢; omega
    · rw [← List.append_assoc, ← List.map_append, List.take_append_drop]
    · rw [hk2] at hl2
      simp at hl2 hk ⊢; omega
  · rw [e]
    exact Or.inr ⟨rfl, h1, h2⟩

/-- C24: `swap` exchanges the contents, with both kinds of allocators. -/
theorem c24_swap {A : Alloc} (hA : A.Sound) (fast : Bool) {a b : Arr α} {l1 l2 : List α}
    (ha : Holds A a l1) (hb : Holds A b l2) (h1 : l1.length < 2 ^ 64) (h2 : l2.length < 2 ^ 64) :
    (∃ a' b', swap A fast a b = .ok (a', b') ∧ Holds A a' l2 ∧ Holds A b' l1) ∨
      (swap A fast a b = .error .thrown ∧ ¬ A.Unlimited) := by
  unfold swap
  cases fast with
  | true => exact Or.inl ⟨b, a, rfl, hb, ha⟩
  | false =>
    rw [if_neg (by simp), ha.used, hb.used]
    split
    · rcases swapLong_holds hA hb ha (by omega) h2 with ⟨a', b', e, h3, h4⟩ | ⟨e, h3, _⟩
      · exact Or.inl ⟨b', a', by rw [e]; rfl, h4, h3⟩
      · exact Or.inr ⟨by rw [e]; rfl, h3⟩
    · rcases swapLong_holds hA ha hb (by omega) h1 with h | ⟨e, h3, _⟩
      · exact Or.inl h
      · exact Or.inr ⟨e, h3⟩

/-! ## Sequences of edits -/

/-- Edits of an array. -/
inductive Op (α : Type) where
  | add (v : α) (n : Nat)
  | append (xs : List α)
  | insert (i : Nat) (v : α) (n : Nat)
  | insertArray (i : Nat) (xs : List α)
  | insertIter (i n : Nat) (xs : List α)
  | erase (i n : Nat)
  | trunc (n : Nat)
  | clear
  | resize (n : Nat) (v : α)
  | reserve (n : Nat)
  | freeExtra
  | set (i : Nat) (v : α)
  | assign (xs : List α)

/-- The call on the array. -/
def Op.call (A : Alloc) (a : Arr α) : Op α → Except Err (Arr α)
  | .add v n => addN A a (.val v) n
  | .append xs => AutoArray.append A a xs
  | .insert i v n => AutoArray.insert A a i (.val v) n
  | .insertArray i xs => AutoArray.insertArray A a i xs
  | .insertIter i n xs => AutoArray.insertIter A a i n (xs.map .val)
  | .erase i n => AutoArray.erase a i n
  | .trunc n => AutoArray.trunc a n
  | .clear => AutoArray.clear a
  | .resize n v => AutoArray.resize A a n v
  | .reserve n => AutoArray.reserve A a n
  | .freeExtra => AutoArray.freeExtra A a
  | .set i v => AutoArray.set a i v
  | .assign xs => AutoArray.assign A a xs

/-- The edit of a sequence. -/
def Op.edit (l : List α) : Op α → List α
  | .add v n => l ++ List.replicate n v
  | .append xs => l ++ xs
  | .insert i v n => l.take i ++ List.replicate n v ++ l.drop i
  | .insertArray i xs => l.take i ++ xs ++ l.drop i
  | .insertIter i _ xs => l.take i ++ xs ++ l.drop i
  | .erase i n => l.take i ++ l.drop (i + n)
  | .trunc n => l.take (l.length - n)
  | .clear => []
  | .resize n v => l.take n ++ List.replicate (n - l.length) v
  | .reserve _ => l
  | .freeExtra => l
  | .set i v => l.set i v
  | .assign xs => xs

/-- Arguments in range and sizes which fit into a `natural`; `insert` of nothing is left out. -/
def Op.Valid (l : List α) : Op α → Prop
  | .add _ n => l.length + n < 2 ^ 64
  | .append xs => l.length + xs.length < 2 ^ 64
  | .insert i _ n => l.length + n < 2 ^ 64 ∧ i ≤ l.length ∧ 0 < n
  | .insertArray i xs => l.length + xs.length < 2 ^ 64 ∧ i ≤ l.length ∧ xs ≠ []
  | .insertIter i n xs => l.length + n < 2 ^ 64 ∧ i ≤ l.length ∧ 0 < n ∧ xs.length ≤ n
  | .erase i n => i + n < 2 ^ 64 ∧ i ≤ l.length
  | .trunc _ => True
  | .clear => True
  | .resize n _ => n < 2 ^ 64
  | .reserve n => n < 2 ^ 64
  | .freeExtra => True
  | .set i _ => i < l.length
  | .assign xs => xs.length < 2 ^ 64

/-- Several calls. -/
def calls (A : Alloc) (a : Arr α) : List (Op α) → Except Err (Arr α)
  | [] => .ok a
  | o :: os => o.call A a >>= fun a => calls A a os

/-- Several edits. -/
def edits (l : List α) : List (Op α) → List α
  | [] => l
  | o :: os => edits (o.edit l) os

/-- All edits have valid arguments. -/
def Valids (l : List α) : List (Op α) → Prop
  | [] => True
  | o :: os => o.Valid l ∧ Valids (o.edit l) os

theorem Gives.ok {A : Alloc} (hU : A.Unlimited) {a : Arr α} {need : Nat} {r : Except Err (Arr α)}
    {l : List α} (h : Gives A a need r l) : ∃ a', r = .ok a' ∧ Holds A a' l := by
  rcases h with h | ⟨_, h, _⟩
  · exact h
  · exact absurd hU h

theorem call_holds {A : Alloc} (hA : A.Sound) (hU : A.Unlimited)
    (hB : ∀ n, ∃ m, A.block n = some m) {a : Arr α} {l : List α}
    (h : Holds A a l) (hs : l.length < 2 ^ 64) {o : Op α} (hv : o.Valid l) :
    ∃ a', o.call A a = .ok a' ∧ Holds A a' (o.edit l) := by
  cases o with
  | add v n => exact (c24_addN hA h v hv).ok hU
  | append xs => exact (c24_append hA h xs hv).ok hU
  | insert i v n =>
    have := c24_insert_partial hA h i v hv.1 hv.2.2
    rw [if_pos hv.2.1] at this
    exact this.ok hU
  | insertArray i xs =>
    have := c24_insertArray_partial hA h i hv.1 hv.2.2
    rw [if_pos hv.2.1] at this
    exact this.ok hU
  | insertIter i n xs =>
    have := c24_insertIter hA h (i := i) hv.1 (fun _ => hv.2.2.1) hv.2.2.2
    rw [if_pos hv.2.1] at this
    exact this.ok hU
  | erase i n =>
    have := c24_erase_partial h hv.1
    rw [if_pos hv.2] at this
    exact this
  | trunc n => exact c24_trunc h n hs
  | clear => exact c24_clear h hs
  | resize n v => exact (c24_resize hA h n v hs hv).ok hU
  | reserve n =>
    rcases c24_reserve hA h hv with ⟨a', e, h1, _⟩ | ⟨_, h1, _⟩
    · exact ⟨a', e, h1⟩
    · exact absurd hU h1
  | freeExtra =>
    rcases freeExtra_holds hA h with h1 | ⟨_, h1⟩
    · exact h1
    · obtain ⟨m, hm⟩ := hB l.length
      rw [hm] at h1; cases h1
  | set i v => exact c24_set h hv v
  | assign xs =>
    rcases c24_assign_partial hA h xs hs hv with h1 | ⟨_, h1⟩
    · exact h1
    · exact absurd hU h1

/-- C24: any sequence of edits with valid arguments, with the allocators on the heap, gives the
array which holds the edited sequence; no call throws, none runs into undefined behaviour. -/
theorem c24_edits_partial {A : Alloc} (hA : A.Sound) (hU : A.Unlimited)
    (hB : ∀ n, ∃ m, A.block n = some m) {os : List (Op α)} {a : Arr α} {l : List α} (h : Holds A a l)
    (hs : ∀ n, (edits l (os.take n)).length < 2 ^ 64) (hv : Valids l os) :
    ∃ a', calls A a os = .ok a' ∧ Holds A a' (edits l os) := by
  induction os generalizing a l with
  | nil => exact ⟨a, rfl, h⟩
  | cons o os ih =>
    obtain ⟨a1, e, h1⟩ := call_holds hA hU hB h (hs 0) hv.1
    obtain ⟨a2, e2, h2⟩ := ih h1 (fun n => hs (n + 1)) hv.2
    exact ⟨a2, by rw [calls, e]; exact e2, h2⟩

/-- A concrete run: growth, insertion in the middle, cutting and filling. -/
example : (calls stdAlloc { mem := [] } [.append [1, 2, 3], .insert 1 9 2, .erase 0 1, .resize 6 7,
      .trunc 1, .insertIter 2 3 [4], .set 0 5, .insertArray 1 [8, 8], .freeExtra]).toOption =
    some { mem := [some 5, some 8, some 8, some 9, some 4, some 2, some 3, some 7], used := 8, gen := 4 } := by
  decide +kernel

/-! ## Where the array does something else -/

/-- C24 is false for `insert(at, item, 0)`: in front of an item it moves every item to its own place,
that is copies it over itself and destroys it. -/
theorem c24_insert0_violated {A : Alloc} {a : Arr α} {l : List α} (h : Holds A a l) {i : Nat}
    (hi : i < l.length) (hs : l.length < 2 ^ 64) (r : Ref α) : insert A a i r 0 = .error .ub := by
  have hu := h.used
  unfold insert InsIter.new reserveAt
  rw [if_neg (by omega), if_neg (by omega), addExtra_room h (by simpa using hs) (by simpa using h.le)]
  show ((objMove a.mem i (a.used - i) i >>= _) >>= _) >>= _ = _
  obtain ⟨n, hn⟩ : ∃ n, a.used - i = n + 1 := ⟨a.used - i - 1, by omega⟩
  have hc : ∃ v, a.mem[i + n]? = some (some v) := by
    obtain ⟨k, hk⟩ := h.mem
    have hl : i + n < l.length := by omega
    exact ⟨l[i + n], by rw [hk, List.getElem?_append_left (by simpa using hl), List.getElem?_map,
      List.getElem?_eq_getElem hl]; rfl⟩
  obtain ⟨v, hv⟩ := hc
  have : objMove a.mem i (a.used - i) i = .error .ub := by
    unfold objMove
    rw [if_neg (by omega), hn, moveUp, moveOne]
    simp only [load, construct, hv]
    rfl
  rw [this]
  rfl

/-- The same for `insertArray` of an empty array. -/
theorem c24_insertArray0_violated {A : Alloc} {a : Arr α} {l : List α} (h : Holds A a l) {i : Nat}
    (hi : i < l.length) (hs : l.length < 2 ^ 64) (v : α) : insertArray A a i [] = .error .ub := by
  have h0 := c24_insert0_violated h hi hs (.val v)
  have hu := h.used
  unfold insert at h0
  rw [if_neg (by omega), if_neg (by omega)] at h0
  unfold insertArray
  rw [if_neg (by omega), if_neg (by omega)]
  exact h0

/-- C24 is false for `erase(at, count)` with a count so big that `at + count` overflows: instead of
cutting the range at the end, items outside of the block are destroyed. -/
theorem c24_erase_violated {A : Alloc} {a : Arr α} {l : List α} (h : Holds A a l) {i n : Nat}
    (hi : i ≤ l.length) (hn : n < 2 ^ 64) (hin : 2 ^ 64 ≤ i + n) (hm : a.mem.length < 2 ^ 63) :
    erase a i n = .error .ub := by
  have hu := h.used
  have hle := h.le
  have hw : w64 (i + n) = i + n - 2 ^ 64 := by
    unfold w64
    rw [Nat.mod_eq_sub_mod hin, Nat.mod_eq_of_lt (by omega)]
  have hx : ¬ w64 (i + n) > a.used := by
    have : i + n - 18446744073709551616 ≤ i := by omega
    rw [hw]; omega
  have hy : ¬ n = 0 := by omega
  unfold erase
  rw [if_neg (by omega)]
  simp only [if_neg hx, if_neg hy]
  obtain ⟨m, rfl⟩ : ∃ m, n = m + 1 := ⟨n - 1, by omega⟩
  have : a.mem[i + m]? = none := List.getElem?_eq_none (by omega)
  simp only [destruct, destroy, this]
  rfl

/-- `erase(1, naturalNull)`, "everything from the second item", of an array of three items. -/
example : erase (α := Nat) { mem := [some 1, some 2, some 3], used := 3 } 1 (2 ^ 64 - 1) =
    .error .ub :=
  c24_erase_violated (A := stdAlloc) (l := [1, 2, 3]) ⟨rfl, ⟨0, rfl⟩, Nat.zero_le _⟩ (by decide)
    (by decide) (by decide) (by decide)

theorem pushN_full {n : Nat} {a : Arr α} {v : α} (h1 : a.used ≤ a.mem.length)
    (h2 : a.mem.length < a.used + n) (hu : ∀ i, a.used ≤ i → i < a.mem.length → a.mem[i]? = some none) :
    pushN a (.val v) n = .error .ub := by
  induction n generalizing a with
  | zero => omega
  | succ n ih =>
    rw [pushN]
    rcases Nat.lt_or_ge a.used a.mem.length with hl | hl
    · have : push a (.val v) = .ok { a with mem := a.mem.set a.used (some v), used := a.used + 1 } := by
        simp only [push, Ref.get, construct, hu _ (Nat.le_refl _) hl]
        rfl
      rw [this]
      refine ih (a := { a with mem := a.mem.set a.used (some v), used := a.used + 1 })
        (by simp; omega) (by simp; omega) ?_
      intro i hi1 hi2
      simp only [List.length_set] at hi1 hi2 ⊢
      rw [List.getElem?_set_ne (by omega)]
      exact hu i (by omega) hi2
    · have : a.mem[a.used]? = none := List.getElem?_eq_none hl
      simp only [push, Ref.get, construct, this]
      rfl

/-- C24 is false for `add(item, count)` with a count for which the new size overflows: the block does
not grow and the items are constructed behind its end. -/
theorem c24_add_violated {A : Alloc} {a : Arr α} {l : List α} (h : Holds A a l) {n : Nat} (v : α)
    (hn : n < 2 ^ 64) (hln : 2 ^ 64 ≤ l.length + n) (hm : a.mem.length < 2 ^ 63) :
    addN A a (.val v) n = .error .ub := by
  have hu := h.used
  have hle := h.le
  have hw : w64 (a.used + n) = a.used + n - 2 ^ 64 := by
    unfold w64
    rw [Nat.mod_eq_sub_mod (by omega), Nat.mod_eq_of_lt (by omega)]
  unfold addN addExtra
  rw [hw, if_neg (by omega)]
  show pushN a (.val v) n = _
  refine pushN_full (by omega) (by omega) ?_
  intro i h1 h2
  obtain ⟨k, hk⟩ := h.mem
  rw [hk] at h2 ⊢
  simp at h2
  rw [List.getElem?_append_right (by simp; omega), List.getElem?_replicate, if_pos (by simp; omega)]

/-- C24, an item of the array itself as the argument of `add`: right as long as there is room. -/
theorem c24_addOwn_partial {A : Alloc} {a : Arr α} {l : List α} (h : Holds A a l) {i : Nat} {v : α}
    (hv : l[i]? = some v) {n : Nat} (hn : l.length + n < 2 ^ 64) (hc : l.length + n ≤ a.mem.length) :
    ∃ a', addN A a (.cell a.gen i) n = .ok a' ∧ Holds A a' (l ++ List.replicate n v) := by
  unfold addN
  rw [addExtra_room h hn hc]
  exact pushN_holds h (Or.inr ⟨i, rfl, hv⟩) hc

/-- C24 is false for `arr.add(arr[i])` when the block is full: the item is read after the block, into
which the argument refers, was released. -/
theorem c24_addOwn_violated {A : Alloc} (hA : A.Sound) (hU : A.Unlimited) {a : Arr α} {l : List α}
    (h : Holds A a l) (hf : a.mem.length = l.length) (hs : l.length + 1 < 2 ^ 64) (i : Nat) :
    add A a (.cell a.gen i) = .error .ub := by
  unfold add addExtra
  rw [h.used, w64_eq hs, if_pos (by omega)]
  obtain ⟨max, hmax, hfin⟩ : ∃ max, max = (if l.length + 1 > w64 (l.length * 3) / 2 then l.length + 1
      else w64 (l.length * 3) / 2) ∧ l.length + 1 ≤ max := by
    refine ⟨_, rfl, ?_⟩
    split <;> omega
  simp only [← hmax]
  obtain ⟨⟨m, hb⟩, hv⟩ := hU max (by have := h.least; omega)
  obtain ⟨a', hr, _, _⟩ := realloc_holds hA h (by omega) hb hv
  have hg : a'.gen = a.gen + 1 := by
    unfold realloc at hr
    simp only [hb, hv, if_true] at hr
    cases hx : moveTo a.mem (List.replicate m none) 0 a.used with
    | error e => rw [hx] at hr; cases hr
    | ok q =>
      rw [hx] at hr
      change (release q.1 >>= _) = _ at hr
      cases hy : release q.1 with
      | error e => rw [hy] at hr; cases hr
      | ok u => rw [hy] at hr; cases hr; rfl
  rw [hr]
  show push a' _ = _
  unfold push Ref.get
  simp only [hg]
  rw [if_neg (by omega)]
  rfl

/-- C24 is false for `insert` of an item of the array itself from behind the position: the argument
refers to a cell which was moved away, the copy is made from raw memory or of another item. -/
theorem c24_insertOwn_violated :
    insert stdAlloc { mem := [some 1, some 2, none, none], used := 2 } 0 (.cell 0 0) 1 =
      .error .ub ∧
    (insert stdAlloc { mem := [some 1, some 2, none, none], used := 2 } 0 (.cell 0 1) 1).toOption.map
      (·.mem) = some [some 1, some 1, some 2, none] := by
  constructor
  · rfl
  · decide +kernel

/-- C24 is false for `arr.append(arr)`: the loop follows the growing end until the block is full, then
it reads an item of the released block. -/
theorem c24_appendSelf_violated :
    appendSelf stdAlloc { mem := [some 1], used := 1 } 4 = some (.error .ub) := rfl

/-- C24 is false for `arr = arr`: the content is lost. -/
theorem c24_assignSelf_violated {A : Alloc} {a : Arr α} {l : List α} (h : Holds A a l)
    (hs : l.length < 2 ^ 64) : ∃ a', assignSelf a = .ok a' ∧ Holds A a' [] := by
  obtain ⟨a', e, h1⟩ := c24_clear h hs
  refine ⟨a', ?_, h1⟩
  unfold assignSelf
  rw [e]
  show (if a'.used > 0 then _ else _) = _
  rw [h1.used, if_neg (by simp)]
  rfl

/-- An array in a buffer of fixed size refuses what does not fit and only that. -/
example : addN (staticAlloc 3) { mem := [some 1, none, none], used := 1 } (.val 5) 3 =
    .error .thrown ∧
    (addN (staticAlloc 3) { mem := [some 1, none, none], used := 1 } (.val 5) 2).toOption =
      some { mem := [some 1, some 5, some 5], used := 3 } := by
  constructor
  · rfl
  · decide +kernel

end LS.AutoArray

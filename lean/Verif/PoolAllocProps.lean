import Verif.PoolAlloc
/-!
# C135: the pool of memory blocks

Specification: a block given to the program belongs to it alone until it is given back, is big enough, is freed at
most once, and everything is freed after the last reference.
-/

namespace LS.PoolAlloc

/-! ## What a thread holds -/

/-- The block in the hand of a thread. -/
def hand : PC → Option Nat
  | .aChk _ _ b => some b
  | .aDel _ _ b => some b
  | .dChk b => some b
  | .dDel b => some b
  | .dPush b => some b
  | .fDel b => some b
  | _ => none

/-- The thread has a reference to the pool. -/
def holds : PC → Bool
  | .aPop _ _ => true
  | .aChk _ _ _ => true
  | .aDel _ _ _ => true
  | .aCmp1 _ _ => true
  | .aSet _ _ => true
  | .aCmp2 _ _ => true
  | .aGet _ _ => true
  | .aNew _ _ => true
  | .dChk _ => true
  | .dDel _ => true
  | .dPush _ => true
  | .rDec => true
  | _ => false

/-- The thread empties the list. -/
def freeing : PC → Bool
  | .fPop => true
  | .fDel _ => true
  | _ => false

def small (r : Nat) : Prop := 8 ≤ r ∧ r + 8 < 2 ^ 64

/-- Sizes a thread works with. -/
def PcOk (s : St) : PC → Prop
  | .aInc q => q + 8 < 2 ^ 64
  | .aPop q r => q ≤ r ∧ small r
  | .aChk q r _ => q ≤ r ∧ small r
  | .aDel q r _ => q ≤ r ∧ small r
  | .aCmp1 q r => q ≤ r ∧ small r
  | .aSet q r => q ≤ r ∧ small r
  | .aCmp2 q r => q ≤ r ∧ small r
  | .aGet q r => q ≤ r ∧ small r ∧ 8 ≤ s.largest
  | .aNew _ z => small z
  | _ => True

/-- Places of block `b`. -/
def places (s : St) (b : Nat) : Nat :=
  s.list.count b + (s.live.map Prod.fst).count b + s.thr.countP (fun p => decide (hand p = some b)) + s.freed.count b

structure Inv (s : St) : Prop where
  blk : ∀ b, places s b = if b < s.n then 1 else 0
  refs : s.refs = (if s.owner then 1 else 0) + s.live.length + s.lost + s.thr.countP holds
  lst : s.list ≠ [] → 1 ≤ s.refs ∨ ∃ p ∈ s.thr, freeing p = true
  size : ∀ b, b < s.n → small (s.size b)
  pcs : ∀ p ∈ s.thr, PcOk s p
  largest : s.largest + 8 < 2 ^ 64

theorem countP_set {α : Type} (f : α → Bool) (x : α) : ∀ (l : List α) (i : Nat) (y : α), l[i]? = some y →
    (l.set i x).countP f + (if f y then 1 else 0) = l.countP f + (if f x then 1 else 0)
  | [], i, y, h => by simp at h
  | a :: l, 0, y, h => by
    simp at h
    subst h
    simp only [List.set_cons_zero, List.countP_cons]
    omega
  | a :: l, i + 1, y, h => by
    have := countP_set f x l i y (by simpa using h)
    simp only [List.set_cons_succ, List.countP_cons]
    omega

theorem mem_set_ne {α : Type} {l : List α} {k : Nat} {x y z : α} (hk : l[k]? = some z) (hy : y ∈ l) (hne : y ≠ z) : y ∈ l.set k x := by
  rw [List.mem_iff_getElem?] at hy ⊢
  obtain ⟨m, hm⟩ := hy
  refine ⟨m, ?_⟩
  rw [List.getElem?_set_ne, hm]
  intro e
  subst e
  rw [hk] at hm
  cases hm
  exact hne rfl

theorem mem_set_self {α : Type} {l : List α} {k : Nat} {x z : α} (hk : l[k]? = some z) : x ∈ l.set k x := by
  rw [List.mem_iff_getElem?]
  rw [List.getElem?_eq_some_iff] at hk
  exact ⟨k, by rw [List.getElem?_set, if_pos rfl, if_pos hk.1]⟩

def b2n (b : Bool) : Nat := if b then 1 else 0

theorem b2n_t : b2n true = 1 := rfl
theorem b2n_f : b2n false = 0 := rfl

/-- Effect of a new place of a thread. -/
theorem pcs_set {s s' : St} {i : Nat} {p p' : PC} (_ : s.thr[i]? = some p) (ht : s'.thr = s.thr.set i p')
    (h : ∀ q ∈ s.thr, PcOk s q) (hm : ∀ q, PcOk s q → PcOk s' q) (hp : PcOk s' p') : ∀ q ∈ s'.thr, PcOk s' q := by
  intro q hq
  rw [ht] at hq
  rcases List.mem_or_eq_of_mem_set hq with hq | hq
  · exact hm q (h q hq)
  · rw [hq]; exact hp

theorem freeing_set {s s' : St} {i : Nat} {p p' : PC} (hi : s.thr[i]? = some p) (ht : s'.thr = s.thr.set i p') (hf : freeing p = false)
    (h : ∃ q ∈ s.thr, freeing q = true) : ∃ q ∈ s'.thr, freeing q = true := by
  obtain ⟨q, hq, hq'⟩ := h
  refine ⟨q, ?_, hq'⟩
  rw [ht]
  exact mem_set_ne hi hq (by intro e; subst e; rw [hf] at hq'; cases hq')

theorem hand_count {s : St} {i : Nat} {p : PC} (p' : PC) (hi : s.thr[i]? = some p) (b : Nat) :
    (s.thr.set i p').countP (fun q => decide (hand q = some b)) + (if hand p = some b then 1 else 0) =
      s.thr.countP (fun q => decide (hand q = some b)) + (if hand p' = some b then 1 else 0) := by
  have := countP_set (fun q => decide (hand q = some b)) p' s.thr i p hi
  simpa using this

theorem holds_count {s : St} {i : Nat} {p : PC} (p' : PC) (hi : s.thr[i]? = some p) :
    (s.thr.set i p').countP holds + (if holds p then 1 else 0) = s.thr.countP holds + (if holds p' then 1 else 0) :=
  countP_set holds p' s.thr i p hi

theorem PcOk.mono {s s' : St} (h : s.largest = s'.largest ∨ 8 ≤ s'.largest) : ∀ q, PcOk s q → PcOk s' q := by
  intro q hq
  cases q <;> try exact hq
  rename_i q r
  obtain ⟨h1, h2, h3⟩ := hq
  refine ⟨h1, h2, ?_⟩
  rcases h with h | h
  · rw [← h]; exact h3
  · exact h

theorem fst_count_erase (l : List (Nat × Nat)) (x : Nat × Nat) (hx : x ∈ l) (b : Nat) :
    ((l.erase x).map Prod.fst).count b + (if x.1 = b then 1 else 0) = (l.map Prod.fst).count b := by
  induction l with
  | nil => cases hx
  | cons y l ih =>
    by_cases e : y = x
    · subst e
      simp [List.count_cons]
    · have hx' : x ∈ l := by
        rcases List.mem_cons.mp hx with h | h
        · exact absurd h.symm e
        · exact h
      have := ih hx'
      rw [List.erase_cons_tail (by simpa using e)]
      simp only [List.map_cons, List.count_cons]
      omega

/-- 1 when the thread at `p` has block `b` in its hand. -/
def inHand (p : PC) (b : Nat) : Nat := if hand p = some b then 1 else 0

theorem blk_of {s s' : St} {i : Nat} {p p' : PC} (h : Inv s) (hi : s.thr[i]? = some p) (ht : s'.thr = s.thr.set i p') (e1 : s'.n = s.n)
    (hc : ∀ b, s'.list.count b + (s'.live.map Prod.fst).count b + inHand p' b + s'.freed.count b =
      s.list.count b + (s.live.map Prod.fst).count b + inHand p b + s.freed.count b) :
    ∀ b, places s' b = if b < s'.n then 1 else 0 := by
  intro b
  rw [e1, ← h.blk b, places, places, ht]
  have h2 := hand_count p' hi b
  have h3 := hc b
  simp only [inHand] at h3
  omega

theorem refs_of {s s' : St} {i : Nat} {p p' : PC} (h : Inv s) (hi : s.thr[i]? = some p) (ht : s'.thr = s.thr.set i p')
    (hc : s'.refs + b2n s.owner + s.live.length + s.lost + b2n (holds p) = s.refs + b2n s'.owner + s'.live.length + s'.lost + b2n (holds p')) :
    s'.refs = (if s'.owner then 1 else 0) + s'.live.length + s'.lost + s'.thr.countP holds := by
  rw [ht]
  have h1 := h.refs
  have h2 := holds_count p' hi
  simp only [b2n] at hc
  omega

/-- Counting of places. -/
macro "blk" : tactic => `(tactic| (simp only [St.pc, inHand, hand, reduceCtorEq, if_false, Option.some.injEq, List.map_cons, List.count_cons, beq_iff_eq] <;> omega))

/-- Counting of references. -/
macro "rfs" : tactic => `(tactic| (simp only [St.pc, holds, b2n_t, b2n_f, List.length_cons] <;> omega))

/-- The start of a call. -/
theorem start_inv {s s' : St} {i : Nat} {a : Act} (h : Inv s) (hs : step s i a = .ok s') (ha : ∀ q, a = .alloc q → q + 8 < 2 ^ 64)
    (hg : ∀ ok, a ≠ .go ok) : Inv s' := by
  rw [step] at hs
  split at hs
  · cases hs
  · rename_i p hi
    cases a with
    | go ok => exact absurd rfl (hg ok)
    | alloc q =>
      simp only at hs
      split at hs
      · rename_i hp
        subst hp
        cases hs
        refine ⟨?_, ?_, ?_, h.size, pcs_set hi rfl h.pcs (PcOk.mono (Or.inl rfl)) (ha q rfl), h.largest⟩
        · refine blk_of h hi rfl rfl ?_
          intro b
          blk
        · refine refs_of h hi rfl ?_
          rfs
        · intro hl
          rcases h.lst hl with h1 | h1
          · exact Or.inl h1
          · exact Or.inr (freeing_set hi rfl rfl h1)
      · cases hs
    | dealloc b =>
      simp only at hs
      split at hs
      · cases hs
      · rename_i x hx
        have hmem : x ∈ s.live := List.mem_of_find?_eq_some hx
        have hxb : x.1 = b := by have := List.find?_some hx; simpa using this
        split at hs
        · rename_i hp
          subst hp
          cases hs
          refine ⟨?_, ?_, ?_, h.size, pcs_set hi rfl h.pcs (PcOk.mono (Or.inl rfl)) trivial, h.largest⟩
          · refine blk_of h hi rfl rfl ?_
            intro y
            have h3 := fst_count_erase s.live x hmem y
            rw [hxb] at h3
            blk
          · refine refs_of h hi rfl ?_
            have h3 := List.length_erase_of_mem hmem
            have h4 : 0 < s.live.length := List.length_pos_of_mem hmem
            rfs
          · intro hl
            rcases h.lst hl with h1 | h1
            · exact Or.inl h1
            · exact Or.inr (freeing_set hi rfl rfl h1)
        · cases hs
    | release =>
      simp only at hs
      split at hs
      · rename_i hp
        obtain ⟨hp, ho⟩ := hp
        subst hp
        cases hs
        refine ⟨?_, ?_, ?_, h.size, pcs_set hi rfl h.pcs (PcOk.mono (Or.inl rfl)) trivial, h.largest⟩
        · refine blk_of h hi rfl rfl ?_
          intro b
          blk
        · refine refs_of h hi rfl ?_
          rw [ho]
          rfs
        · intro hl
          rcases h.lst hl with h1 | h1
          · exact Or.inl h1
          · exact Or.inr (freeing_set hi rfl rfl h1)
      · cases hs

theorem holder_refs {s : St} {i : Nat} {p : PC} (h : Inv s) (hi : s.thr[i]? = some p) (hp : holds p = true) : 1 ≤ s.refs := by
  have : 0 < s.thr.countP holds := List.countP_pos_iff.mpr ⟨p, List.mem_iff_getElem?.mpr ⟨i, hi⟩, hp⟩
  have := h.refs
  omega

theorem hand_lt {s : St} {i b : Nat} {p : PC} (h : Inv s) (hi : s.thr[i]? = some p) (hp : hand p = some b) : b < s.n := by
  have h0 : 0 < s.thr.countP (fun p => decide (hand p = some b)) :=
    List.countP_pos_iff.mpr ⟨p, List.mem_iff_getElem?.mpr ⟨i, hi⟩, by simp [hp]⟩
  have := h.blk b
  rw [places] at this
  split at this
  · assumption
  · omega

/-- A step that changes only the place of the thread (and `largest`, `destroyed`). -/
theorem quiet {s s' : St} {i : Nat} {p p' : PC} (h : Inv s) (hi : s.thr[i]? = some p) (ht : s'.thr = s.thr.set i p')
    (e1 : s'.n = s.n) (e2 : s'.size = s.size) (e3 : s'.list = s.list) (e4 : s'.live = s.live) (e5 : s'.freed = s.freed) (e6 : s'.refs = s.refs)
    (e7 : s'.owner = s.owner) (e8 : s'.lost = s.lost) (hh : hand p' = hand p) (hd : holds p' = holds p)
    (hf : freeing p = false ∨ s.list = []) (hl : s'.largest = s.largest ∨ small s'.largest) (hp : PcOk s' p') : Inv s' := by
  refine ⟨?_, ?_, ?_, by rw [e1, e2]; exact h.size, pcs_set hi ht h.pcs (PcOk.mono (by
    rcases hl with hl | hl
    · exact Or.inl hl.symm
    · exact Or.inr hl.1)) hp, ?_⟩
  · intro b
    have h1 := h.blk b
    have h2 := hand_count p' hi b
    rw [hh] at h2
    rw [e1, ← h1, places, places, e3, e4, e5, ht]
    omega
  · have h1 := h.refs
    have h2 := holds_count p' hi
    rw [hd] at h2
    rw [e6, e7, e8, e4, ht]
    omega
  · intro hne
    rw [e3] at hne
    rcases hf with hf | hf
    · rcases h.lst hne with h1 | h1
      · exact Or.inl (by rw [e6]; exact h1)
      · exact Or.inr (freeing_set hi ht hf h1)
    · exact absurd hf hne
  · rcases hl with hl | hl
    · rw [hl]; exact h.largest
    · exact hl.2

theorem go_inv {s s' : St} {i : Nat} {ok : Bool} {p : PC} (h : Inv s) (hi : s.thr[i]? = some p) (hs : go s i ok p = .ok s') : Inv s' := by
  have hpc : PcOk s p := h.pcs p (List.mem_iff_getElem?.mpr ⟨i, hi⟩)
  cases p with
  | idle => cases hs
  | aInc q =>
    cases hs
    refine ⟨?_, ?_, ?_, h.size, pcs_set hi rfl h.pcs (PcOk.mono (Or.inl rfl)) ?_, h.largest⟩
    · refine blk_of h hi rfl rfl ?_
      intro b
      blk
    · refine refs_of h hi rfl ?_
      rfs
    · intro _
      exact Or.inl (by simp)
    · simp only [PcOk, small, adjust] at *
      split <;> omega
  | aPop q r =>
    simp only [go] at hs
    split at hs
    · cases hs
      exact quiet h hi rfl rfl rfl rfl rfl rfl rfl rfl rfl rfl rfl (Or.inl rfl) (Or.inl rfl) hpc
    · rename_i b l hl
      cases hs
      refine ⟨?_, ?_, ?_, h.size, pcs_set hi rfl h.pcs (PcOk.mono (Or.inl rfl)) hpc, h.largest⟩
      · refine blk_of h hi rfl rfl ?_
        intro y
        rw [hl]
        blk
      · refine refs_of h hi rfl ?_
        rfs
      · intro _
        exact Or.inl (by have := holder_refs h hi rfl; simpa [St.pc] using this)
  | aChk q r b =>
    simp only [go] at hs
    split at hs
    · cases hs
      exact quiet h hi rfl rfl rfl rfl rfl rfl rfl rfl rfl rfl rfl (Or.inl rfl) (Or.inl rfl) hpc
    · cases hs
      refine ⟨?_, ?_, ?_, h.size, pcs_set hi rfl h.pcs (PcOk.mono (Or.inl rfl)) trivial, h.largest⟩
      · refine blk_of h hi rfl rfl ?_
        intro y
        blk
      · refine refs_of h hi rfl ?_
        rfs
      · intro _
        exact Or.inl (by have := holder_refs h hi rfl; simpa [St.pc] using this)
  | aDel q r b =>
    cases hs
    refine ⟨?_, ?_, ?_, h.size, pcs_set hi rfl h.pcs (PcOk.mono (Or.inl rfl)) hpc, h.largest⟩
    · refine blk_of h hi rfl rfl ?_
      intro y
      blk
    · refine refs_of h hi rfl ?_
      rfs
    · intro _
      exact Or.inl (by have := holder_refs h hi rfl; simpa [St.pc] using this)
  | aCmp1 q r =>
    simp only [go] at hs
    cases hs
    split
    · exact quiet h hi rfl rfl rfl rfl rfl rfl rfl rfl rfl rfl rfl (Or.inl rfl) (Or.inl rfl) hpc
    · exact quiet h hi rfl rfl rfl rfl rfl rfl rfl rfl rfl rfl rfl (Or.inl rfl) (Or.inl rfl) hpc
  | aSet q r =>
    cases hs
    exact quiet h hi rfl rfl rfl rfl rfl rfl rfl rfl rfl rfl rfl (Or.inl rfl) (Or.inr hpc.2) hpc.2
  | aCmp2 q r =>
    simp only [go] at hs
    cases hs
    split
    · rename_i hl
      refine quiet h hi rfl rfl rfl rfl rfl rfl rfl rfl rfl rfl rfl (Or.inl rfl) (Or.inl rfl) ⟨hpc.1, hpc.2, ?_⟩
      have := hpc.2.1
      show 8 ≤ s.largest
      omega
    · exact quiet h hi rfl rfl rfl rfl rfl rfl rfl rfl rfl rfl rfl (Or.inl rfl) (Or.inl rfl) hpc.2
  | aGet q r =>
    cases hs
    exact quiet h hi rfl rfl rfl rfl rfl rfl rfl rfl rfl rfl rfl (Or.inl rfl) (Or.inl rfl) ⟨hpc.2.2, h.largest⟩
  | aNew q z =>
    simp only [go, opNew] at hs
    split at hs
    · cases hs
      refine ⟨?_, ?_, ?_, h.size, pcs_set hi rfl h.pcs (PcOk.mono (Or.inl rfl)) trivial, h.largest⟩
      · refine blk_of h hi rfl rfl ?_
        intro y
        blk
      · refine refs_of h hi rfl ?_
        rfs
      · intro hl
        exact Or.inl (by have := holder_refs h hi rfl; simpa [St.pc] using this)
    · split at hs
      · cases hs
      · cases hs
        refine ⟨?_, ?_, ?_, ?_, pcs_set hi rfl h.pcs (PcOk.mono (Or.inl rfl)) trivial, h.largest⟩
        · intro y
          have h1 := h.blk y
          have h2 := hand_count .idle hi y
          have e1 : ¬ (hand .idle = some y) := by simp [hand]
          have e2 : ¬ (hand (.aNew q z) = some y) := by simp [hand]
          rw [if_neg e1, if_neg e2] at h2
          rw [places] at h1 ⊢
          show s.list.count y + (((s.n, q) :: s.live).map Prod.fst).count y +
            (s.thr.set i .idle).countP (fun p => decide (hand p = some y)) + s.freed.count y = if y < s.n + 1 then 1 else 0
          rw [List.map_cons, List.count_cons]
          by_cases e : s.n = y
          · subst e
            rw [if_neg (Nat.lt_irrefl _)] at h1
            rw [if_pos (by simp), if_pos (by omega)]
            omega
          · rw [if_neg (by simpa using e)]
            by_cases e2 : y < s.n
            · rw [if_pos (by omega)]; rw [if_pos e2] at h1; omega
            · rw [if_neg (by omega)]; rw [if_neg e2] at h1; omega
        · refine refs_of h hi rfl ?_
          rfs
        · intro hl
          exact Or.inl (by have := holder_refs h hi rfl; simpa [St.pc] using this)
        · intro b hb
          show small (if b = s.n then z else s.size b)
          split
          · exact hpc
          · refine h.size b ?_
            have : b < s.n + 1 := hb
            omega
  | dChk b =>
    simp only [go] at hs
    cases hs
    split
    · exact quiet h hi rfl rfl rfl rfl rfl rfl rfl rfl rfl rfl rfl (Or.inl rfl) (Or.inl rfl) trivial
    · exact quiet h hi rfl rfl rfl rfl rfl rfl rfl rfl rfl rfl rfl (Or.inl rfl) (Or.inl rfl) trivial
  | dDel b =>
    cases hs
    refine ⟨?_, ?_, ?_, h.size, pcs_set hi rfl h.pcs (PcOk.mono (Or.inl rfl)) trivial, h.largest⟩
    · refine blk_of h hi rfl rfl ?_
      intro y
      blk
    · refine refs_of h hi rfl ?_
      rfs
    · intro _
      exact Or.inl (by have := holder_refs h hi rfl; simpa [St.pc] using this)
  | dPush b =>
    cases hs
    refine ⟨?_, ?_, ?_, h.size, pcs_set hi rfl h.pcs (PcOk.mono (Or.inl rfl)) trivial, h.largest⟩
    · refine blk_of h hi rfl rfl ?_
      intro y
      blk
    · refine refs_of h hi rfl ?_
      rfs
    · intro _
      exact Or.inl (by have := holder_refs h hi rfl; simpa [St.pc] using this)
  | rDec =>
    have hr := holder_refs h hi rfl
    simp only [go] at hs
    cases hs
    by_cases e : s.refs = 1
    · simp only [if_pos e]
      refine ⟨?_, ?_, ?_, h.size, pcs_set hi rfl h.pcs (PcOk.mono (Or.inl rfl)) trivial, h.largest⟩
      · refine blk_of h hi rfl rfl ?_
        intro y
        blk
      · refine refs_of h hi rfl ?_
        rfs
      · intro _
        exact Or.inr ⟨.fPop, mem_set_self hi, rfl⟩
    · simp only [if_neg e]
      refine ⟨?_, ?_, ?_, h.size, pcs_set hi rfl h.pcs (PcOk.mono (Or.inl rfl)) trivial, h.largest⟩
      · refine blk_of h hi rfl rfl ?_
        intro y
        blk
      · refine refs_of h hi rfl ?_
        rfs
      · intro _
        refine Or.inl ?_
        show 1 ≤ s.refs - 1
        omega
  | fPop =>
    simp only [go] at hs
    split at hs
    · rename_i hl
      cases hs
      exact quiet h hi rfl rfl rfl rfl rfl rfl rfl rfl rfl rfl rfl (Or.inr hl) (Or.inl rfl) trivial
    · rename_i b l hl
      cases hs
      refine ⟨?_, ?_, ?_, h.size, pcs_set hi rfl h.pcs (PcOk.mono (Or.inl rfl)) trivial, h.largest⟩
      · refine blk_of h hi rfl rfl ?_
        intro y
        rw [hl]
        blk
      · refine refs_of h hi rfl ?_
        rfs
      · intro _
        exact Or.inr ⟨.fDel b, mem_set_self hi, rfl⟩
  | fDel b =>
    cases hs
    refine ⟨?_, ?_, ?_, h.size, pcs_set hi rfl h.pcs (PcOk.mono (Or.inl rfl)) trivial, h.largest⟩
    · refine blk_of h hi rfl rfl ?_
      intro y
      blk
    · refine refs_of h hi rfl ?_
      rfs
    · intro _
      exact Or.inr ⟨.fPop, mem_set_self hi, rfl⟩
  | fSet =>
    cases hs
    exact quiet h hi rfl rfl rfl rfl rfl rfl rfl rfl rfl rfl rfl (Or.inl rfl) (Or.inl rfl) trivial

theorem go_no_ub {s : St} {i : Nat} {ok : Bool} {p : PC} (h : Inv s) (hi : s.thr[i]? = some p) : go s i ok p ≠ .ub := by
  have hpc : PcOk s p := h.pcs p (List.mem_iff_getElem?.mpr ⟨i, hi⟩)
  cases p <;> simp only [go] <;> try (intro e; cases e; done)
  all_goals try (split <;> (intro e; cases e))
  rename_i q z
  have hz : (8 + z) % 2 ^ 64 = 8 + z := Nat.mod_eq_of_lt (by have : z + 8 < 2 ^ 64 := hpc.2; omega)
  rw [opNew]
  split
  · intro e; cases e
  · rw [hz, if_neg (Nat.lt_irrefl _)]
    intro e; cases e

/-- Every call asks for a size that fits to 64 bits with the header. -/
def sane : List (Nat × Act) → Bool
  | [] => true
  | (_, .alloc q) :: l => decide (q + 8 < 2 ^ 64) && sane l
  | _ :: l => sane l

theorem step_inv {s s' : St} {i : Nat} {a : Act} (h : Inv s) (hs : step s i a = .ok s') (ha : ∀ q, a = .alloc q → q + 8 < 2 ^ 64) : Inv s' := by
  cases a with
  | go ok =>
    simp only [step] at hs
    split at hs
    · cases hs
    · rename_i p hi
      exact go_inv h hi hs
  | alloc q => exact start_inv h hs ha (by intro ok e; cases e)
  | dealloc b => exact start_inv h hs ha (by intro ok e; cases e)
  | release => exact start_inv h hs ha (by intro ok e; cases e)

theorem step_no_ub {s : St} {i : Nat} {a : Act} (h : Inv s) : step s i a ≠ .ub := by
  simp only [step]
  split
  · intro e; cases e
  · rename_i p hi
    cases a with
    | go ok => exact go_no_ub h hi
    | alloc q => simp only; split <;> (intro e; cases e)
    | dealloc b =>
      simp only
      split
      · intro e; cases e
      · split <;> (intro e; cases e)
    | release => simp only; split <;> (intro e; cases e)

theorem sane_cons {i : Nat} {a : Act} {l : List (Nat × Act)} (h : sane ((i, a) :: l) = true) :
    (∀ q, a = .alloc q → q + 8 < 2 ^ 64) ∧ sane l = true := by
  cases a with
  | alloc q =>
    simp only [sane, Bool.and_eq_true, decide_eq_true_eq] at h
    refine ⟨?_, h.2⟩
    intro q' e
    cases e
    exact h.1
  | _ => exact ⟨(by intro q e; cases e), h⟩

theorem run_inv : ∀ (l : List (Nat × Act)) {s s' : St} (_ : Inv s) (_ : sane l = true) (_ : run s l = .ok s'), Inv s'
  | [], s, s', h, _, hr => by cases hr; exact h
  | (i, a) :: l, s, s', h, hl, hr => by
    obtain ⟨h1, h2⟩ := sane_cons hl
    simp only [run] at hr
    split at hr
    · rename_i s1 hs
      exact run_inv l (step_inv h hs h1) h2 hr
    · cases hr
    · cases hr

theorem run_no_ub : ∀ (l : List (Nat × Act)) {s : St} (_ : Inv s) (_ : sane l = true), run s l ≠ .ub
  | [], s, h, _ => by intro e; cases e
  | (i, a) :: l, s, h, hl => by
    obtain ⟨h1, h2⟩ := sane_cons hl
    simp only [run]
    split
    · rename_i s1 hs
      exact run_no_ub l (step_inv h hs h1) h2
    · intro e; cases e
    · rename_i hs
      exact absurd hs (step_no_ub h)

theorem new_inv (k : Nat) : Inv (new k) := by
  refine ⟨?_, ?_, ?_, ?_, ?_, by simp [new]⟩
  · intro b
    simp [places, new, List.countP_replicate, hand]
  · simp [new, List.countP_replicate, holds]
  · intro h; exact absurd rfl h
  · intro b hb; simp [new] at hb
  · intro p hp
    have := List.eq_of_mem_replicate hp
    subst this
    trivial

/-! ## Results -/

/-- **C135 (blocks).** For every history of any number of threads: no undefined behaviour; the blocks the program has
are different from each other, none of them waits in the list of the pool or has been freed, and no block is freed
twice. -/
theorem C135_blocks_partial (k : Nat) (l : List (Nat × Act)) (hl : sane l = true) :
    run (new k) l ≠ .ub ∧ ∀ s, run (new k) l = .ok s →
      (s.live.map Prod.fst).Nodup ∧ s.freed.Nodup ∧ s.list.Nodup ∧
      ∀ b q, (b, q) ∈ s.live → b ∉ s.list ∧ b ∉ s.freed := by
  refine ⟨run_no_ub l (new_inv k) hl, ?_⟩
  intro s hs
  have h := run_inv l (new_inv k) hl hs
  have le1 : ∀ b, places s b ≤ 1 := by intro b; rw [h.blk b]; split <;> omega
  refine ⟨?_, ?_, ?_, ?_⟩
  · rw [List.nodup_iff_count]
    intro b
    have := le1 b
    rw [places] at this
    omega
  · rw [List.nodup_iff_count]
    intro b
    have := le1 b
    rw [places] at this
    omega
  · rw [List.nodup_iff_count]
    intro b
    have := le1 b
    rw [places] at this
    omega
  · intro b q hb
    have h1 := le1 b
    have h2 : 0 < (s.live.map Prod.fst).count b := List.count_pos_iff.mpr (List.mem_map.mpr ⟨_, hb, rfl⟩)
    rw [places] at h1
    constructor
    · intro hm
      have := List.count_pos_iff.mpr hm
      omega
    · intro hm
      have := List.count_pos_iff.mpr hm
      omega

/-- **C135 (everything is freed).** When no thread is inside, the owner has released the pool, the program has no block
and no allocation has failed, every block ever allocated has been freed exactly once. -/
theorem C135_no_leak_partial (k : Nat) (l : List (Nat × Act)) (hl : sane l = true) (s : St) (hs : run (new k) l = .ok s)
    (hi : ∀ p ∈ s.thr, p = .idle) (ho : s.owner = false) (hv : s.live = []) (hf : s.lost = 0) :
    s.refs = 0 ∧ s.list = [] ∧ ∀ b, b < s.n → s.freed.count b = 1 := by
  have h := run_inv l (new_inv k) hl hs
  have h0 : s.thr.countP holds = 0 := by
    rw [List.countP_eq_zero]
    intro p hp
    rw [hi p hp]
    simp [holds]
  have hr : s.refs = 0 := by
    have := h.refs
    rw [ho, hv, hf, h0] at this
    simpa using this
  have hlist : s.list = [] := by
    apply Classical.byContradiction
    intro hne
    rcases h.lst hne with h1 | ⟨p, hp, hp'⟩
    · omega
    · rw [hi p hp] at hp'; cases hp'
  refine ⟨hr, hlist, ?_⟩
  intro b hb
  have h1 := h.blk b
  have h2 : s.thr.countP (fun p => decide (hand p = some b)) = 0 := by
    rw [List.countP_eq_zero]
    intro p hp
    rw [hi p hp]
    simp [hand]
  rw [places, hlist, hv, h2, if_pos hb] at h1
  simpa using h1

/-! ## Sizes -/

/-- Nobody overwrites `largestAlloc` by a smaller value: the writes of `largestAlloc` do not race. -/
def steady (s : St) : List (Nat × Act) → Bool
  | [] => true
  | (i, a) :: l =>
    (match s.thr[i]?, a with
      | some (.aSet _ r), .go _ => decide (s.largest ≤ r)
      | _, _ => true) &&
    (match step s i a with
      | .ok s' => steady s' l
      | _ => true)

/-- Sizes wanted and given. -/
def SzPc (s : St) : PC → Prop
  | .aGet q r => q ≤ s.largest ∧ r ≤ s.largest
  | .aNew q z => q ≤ z
  | _ => True

structure Sz (s : St) : Prop where
  live : ∀ b q, (b, q) ∈ s.live → q ≤ s.size b
  pcs : ∀ p ∈ s.thr, SzPc s p

theorem SzPc.mono {s s' : St} (h : s.largest ≤ s'.largest) : ∀ p, SzPc s p → SzPc s' p := by
  intro p hp
  cases p <;> try exact hp
  exact ⟨Nat.le_trans hp.1 h, Nat.le_trans hp.2 h⟩

theorem sz_set {s s' : St} {i : Nat} {p' : PC} (ht : s'.thr = s.thr.set i p') (h : ∀ p ∈ s.thr, SzPc s p) (hm : s.largest ≤ s'.largest)
    (hp : SzPc s' p') : ∀ p ∈ s'.thr, SzPc s' p := by
  intro q hq
  rw [ht] at hq
  rcases List.mem_or_eq_of_mem_set hq with hq | hq
  · exact SzPc.mono hm q (h q hq)
  · rw [hq]; exact hp

theorem go_sz {s s' : St} {i : Nat} {ok : Bool} {p : PC} (h : Inv s) (z : Sz s) (hi : s.thr[i]? = some p) (hs : go s i ok p = .ok s')
    (hst : ∀ q r, p = .aSet q r → s.largest ≤ r) : Sz s' := by
  have hpc : PcOk s p := h.pcs p (List.mem_iff_getElem?.mpr ⟨i, hi⟩)
  have hsz : SzPc s p := z.pcs p (List.mem_iff_getElem?.mpr ⟨i, hi⟩)
  cases p with
  | idle => cases hs
  | aInc q => cases hs; exact ⟨z.live, sz_set rfl z.pcs (Nat.le_refl _) trivial⟩
  | aPop q r =>
    simp only [go] at hs
    split at hs <;> cases hs <;> exact ⟨z.live, sz_set rfl z.pcs (Nat.le_refl _) trivial⟩
  | aChk q r b =>
    simp only [go] at hs
    split at hs
    · cases hs; exact ⟨z.live, sz_set rfl z.pcs (Nat.le_refl _) trivial⟩
    · rename_i hlt
      cases hs
      refine ⟨?_, sz_set rfl z.pcs (Nat.le_refl _) trivial⟩
      intro b' q' hb
      rcases List.mem_cons.mp hb with hb | hb
      · cases hb
        have := hpc.1
        show q ≤ s.size b
        omega
      · exact z.live b' q' hb
  | aDel q r b => cases hs; exact ⟨z.live, sz_set rfl z.pcs (Nat.le_refl _) trivial⟩
  | aCmp1 q r =>
    simp only [go] at hs
    cases hs
    split <;> exact ⟨z.live, sz_set rfl z.pcs (Nat.le_refl _) trivial⟩
  | aSet q r => cases hs; exact ⟨z.live, sz_set rfl z.pcs (hst q r rfl) hpc.1⟩
  | aCmp2 q r =>
    simp only [go] at hs
    cases hs
    split
    · rename_i hl
      refine ⟨z.live, sz_set rfl z.pcs (Nat.le_refl _) ?_⟩
      have := hpc.1
      show q ≤ s.largest ∧ r ≤ s.largest
      omega
    · exact ⟨z.live, sz_set rfl z.pcs (Nat.le_refl _) hpc.1⟩
  | aGet q r => cases hs; exact ⟨z.live, sz_set rfl z.pcs (Nat.le_refl _) hsz.1⟩
  | aNew q y =>
    simp only [go, opNew] at hs
    split at hs
    · cases hs; exact ⟨z.live, sz_set rfl z.pcs (Nat.le_refl _) trivial⟩
    · split at hs
      · cases hs
      · cases hs
        refine ⟨?_, sz_set rfl z.pcs (Nat.le_refl _) trivial⟩
        intro b' q' hb
        show q' ≤ if b' = s.n then y else s.size b'
        rcases List.mem_cons.mp hb with hb | hb
        · cases hb
          rw [if_pos rfl]
          exact hsz
        · have hlt : b' < s.n := by
            have h1 := h.blk b'
            have h2 : 0 < (s.live.map Prod.fst).count b' := List.count_pos_iff.mpr (List.mem_map.mpr ⟨_, hb, rfl⟩)
            rw [places] at h1
            split at h1
            · assumption
            · omega
          rw [if_neg (by omega)]
          exact z.live b' q' hb
  | dChk b => simp only [go] at hs; cases hs; split <;> exact ⟨z.live, sz_set rfl z.pcs (Nat.le_refl _) trivial⟩
  | dDel b => cases hs; exact ⟨z.live, sz_set rfl z.pcs (Nat.le_refl _) trivial⟩
  | dPush b => cases hs; exact ⟨z.live, sz_set rfl z.pcs (Nat.le_refl _) trivial⟩
  | rDec =>
    simp only [go] at hs
    cases hs
    by_cases e : s.refs = 1
    · simp only [if_pos e]; exact ⟨z.live, sz_set rfl z.pcs (Nat.le_refl _) trivial⟩
    · simp only [if_neg e]; exact ⟨z.live, sz_set rfl z.pcs (Nat.le_refl _) trivial⟩
  | fPop =>
    simp only [go] at hs
    split at hs <;> cases hs <;> exact ⟨z.live, sz_set rfl z.pcs (Nat.le_refl _) trivial⟩
  | fDel b => cases hs; exact ⟨z.live, sz_set rfl z.pcs (Nat.le_refl _) trivial⟩
  | fSet => cases hs; exact ⟨z.live, sz_set rfl z.pcs (Nat.le_refl _) trivial⟩

theorem step_sz {s s' : St} {i : Nat} {a : Act} (h : Inv s) (z : Sz s) (hs : step s i a = .ok s')
    (hst : ∀ q r ok, s.thr[i]? = some (.aSet q r) → a = .go ok → s.largest ≤ r) : Sz s' := by
  simp only [step] at hs
  split at hs
  · cases hs
  · rename_i p hi
    cases a with
    | go ok =>
      refine go_sz h z hi hs ?_
      intro q r e
      subst e
      exact hst q r ok hi rfl
    | alloc q =>
      simp only at hs
      split at hs
      · cases hs; exact ⟨z.live, sz_set rfl z.pcs (Nat.le_refl _) trivial⟩
      · cases hs
    | dealloc b =>
      simp only at hs
      split at hs
      · cases hs
      · split at hs
        · cases hs
          exact ⟨fun b' q' hb => z.live b' q' (List.mem_of_mem_erase hb), sz_set rfl z.pcs (Nat.le_refl _) trivial⟩
        · cases hs
    | release =>
      simp only at hs
      split at hs
      · cases hs; exact ⟨z.live, sz_set rfl z.pcs (Nat.le_refl _) trivial⟩
      · cases hs

theorem run_sz : ∀ (l : List (Nat × Act)) {s s' : St} (_ : Inv s) (_ : Sz s) (_ : sane l = true) (_ : steady s l = true) (_ : run s l = .ok s'),
    Sz s'
  | [], s, s', h, z, _, _, hr => by cases hr; exact z
  | (i, a) :: l, s, s', h, z, hl, hst, hr => by
    obtain ⟨h1, h2⟩ := sane_cons hl
    simp only [run] at hr
    simp only [steady, Bool.and_eq_true] at hst
    split at hr
    · rename_i s1 hs
      rw [hs] at hst
      refine run_sz l (step_inv h hs h1) (step_sz h z hs ?_) h2 hst.2 hr
      intro q r ok e1 e2
      have := hst.1
      rw [e1, e2] at this
      simpa using this
    · cases hr
    · cases hr

theorem new_sz (k : Nat) : Sz (new k) := by
  refine ⟨?_, ?_⟩
  · intro b q hb; cases hb
  · intro p hp
    have := List.eq_of_mem_replicate hp
    subst this
    trivial

/-- **C135 (size).** When the writes of `largestAlloc` do not race, every block the program has is at least as big as
it asked for. -/
theorem C135_size_partial (k : Nat) (l : List (Nat × Act)) (hl : sane l = true) (hst : steady (new k) l = true) (s : St)
    (hs : run (new k) l = .ok s) (b q : Nat) (hb : (b, q) ∈ s.live) : q ≤ s.size b :=
  (run_sz l (new_inv k) (new_sz k) hl hst hs).live b q hb

/-- One thread: what it is going to write is larger. -/
def One (s : St) : Prop := ∃ p, s.thr = [p] ∧ ∀ q r, p = .aSet q r → s.largest ≤ r

theorem one_step {s s' : St} {i : Nat} {a : Act} (h : One s) (hs : step s i a = .ok s') : One s' := by
  obtain ⟨p, hp, h1⟩ := h
  have hi : i = 0 ∧ s.thr[i]? = some p := by
    rw [step, hp] at hs
    cases i with
    | zero => exact ⟨rfl, by rw [hp]; rfl⟩
    | succ i => simp at hs
  obtain ⟨hi0, hi⟩ := hi
  subst hi0
  have hset : ∀ x, s.thr.set 0 x = [x] := by intro x; rw [hp]; rfl
  rw [step, hi] at hs
  cases a with
  | go ok =>
    simp only at hs
    cases p with
    | idle => cases hs
    | aCmp1 q r =>
      simp only [go] at hs
      cases hs
      by_cases e : r > s.largest
      · simp only [if_pos e]
        refine ⟨_, hset _, ?_⟩
        intro q' r' e'
        cases e'
        show s.largest ≤ r
        omega
      · simp only [if_neg e]
        exact ⟨_, hset _, fun q r e => by cases e⟩
    | aNew q z =>
      simp only [go, opNew] at hs
      split at hs
      · cases hs; exact ⟨_, hset _, fun q r e => by cases e⟩
      · split at hs
        · cases hs
        · cases hs; exact ⟨_, hset _, fun q r e => by cases e⟩
    | aPop q r => simp only [go] at hs; split at hs <;> cases hs <;> exact ⟨_, hset _, fun q r e => by cases e⟩
    | aChk q r b => simp only [go] at hs; split at hs <;> cases hs <;> exact ⟨_, hset _, fun q r e => by cases e⟩
    | fPop => simp only [go] at hs; split at hs <;> cases hs <;> exact ⟨_, hset _, fun q r e => by cases e⟩
    | aCmp2 q r => simp only [go] at hs; cases hs; split <;> exact ⟨_, hset _, fun q r e => by cases e⟩
    | dChk b => simp only [go] at hs; cases hs; split <;> exact ⟨_, hset _, fun q r e => by cases e⟩
    | rDec =>
      simp only [go] at hs
      cases hs
      refine ⟨_, hset _, fun q r e => ?_⟩
      split at e <;> cases e
    | _ => simp only [go] at hs; cases hs; exact ⟨_, hset _, fun q r e => by cases e⟩
  | alloc q =>
    simp only at hs
    split at hs
    · cases hs; exact ⟨_, hset _, fun q r e => by cases e⟩
    · cases hs
  | dealloc b =>
    simp only at hs
    split at hs
    · cases hs
    · split at hs
      · cases hs; exact ⟨_, hset _, fun q r e => by cases e⟩
      · cases hs
  | release =>
    simp only at hs
    split at hs
    · cases hs; exact ⟨_, hset _, fun q r e => by cases e⟩
    · cases hs

theorem one_steady : ∀ (l : List (Nat × Act)) {s : St} (_ : One s), steady s l = true
  | [], s, _ => rfl
  | (i, a) :: l, s, h => by
    simp only [steady, Bool.and_eq_true]
    constructor
    · split
      · rename_i q r ok hi
        obtain ⟨p, hp, h1⟩ := h
        rw [hp] at hi
        cases i with
        | zero =>
          simp at hi
          simpa using h1 q r hi
        | succ i => simp at hi
      · rfl
    · split
      · rename_i s' hs
        exact one_steady l (one_step h hs)
      · rfl

/-- **C135 (size, one thread).** -/
theorem C135_size_one_thread (l : List (Nat × Act)) (hl : sane l = true) (s : St) (hs : run (new 1) l = .ok s) (b q : Nat)
    (hb : (b, q) ∈ s.live) : q ≤ s.size b :=
  C135_size_partial 1 l hl (one_steady l ⟨.idle, rfl, fun q r e => by cases e⟩) s hs b q hb

/-- Every block has room for the pointer the list keeps in it. -/
theorem C135_block_room (k : Nat) (l : List (Nat × Act)) (hl : sane l = true) (s : St) (hs : run (new k) l = .ok s) (b : Nat)
    (hb : b ∈ s.list) : 8 ≤ s.size b := by
  have h := run_inv l (new_inv k) hl hs
  have h1 := h.blk b
  have h2 : 0 < s.list.count b := List.count_pos_iff.mpr hb
  rw [places] at h1
  split at h1
  · rename_i hlt
    exact (h.size b hlt).1
  · omega

/-! ## Reuse and the end of the pool -/

/-- **C135 (reuse).** A large enough block at the front of the list is given to the caller without asking for a new one. -/
theorem C135_reuse (s : St) (i q b : Nat) (l : List Nat) (hi : s.thr[i]? = some .idle) (hl : s.list = b :: l) (hz : q ≤ s.size b) (h8 : 8 ≤ s.size b) :
    ∃ s', run s [(i, .alloc q), (i, .go true), (i, .go true), (i, .go true)] = .ok s' ∧ s'.n = s.n ∧ s'.list = l ∧ s'.live = (b, q) :: s.live ∧
      s'.thr = s.thr.set i .idle := by
  have hlt : i < s.thr.length := by rw [List.getElem?_eq_some_iff] at hi; exact hi.1
  have ha : ¬ s.size b < adjust q := by rw [adjust]; split <;> omega
  refine ⟨{ s with thr := s.thr.set i .idle, refs := s.refs + 1, list := l, live := (b, q) :: s.live }, ?_, ?_⟩
  · simp only [run, step, hi, if_true, St.pc, List.getElem?_set, hlt, go, hl, if_neg ha, List.set_set]
  · exact ⟨rfl, rfl, rfl, rfl⟩

/-- **C135 (giving back).** A block given back waits in the list of the pool, or is freed when the pool has ended. -/
theorem C135_give_back (s : St) (i b : Nat) (hi : s.thr[i]? = some .idle) (x : Nat × Nat) (hx : s.live.find? (fun x => x.1 = b) = some x) :
    ∃ s', run s [(i, .dealloc b), (i, .go true), (i, .go true)] = .ok s' ∧ s'.live = s.live.erase x ∧
      s'.list = (if s.destroyed then s.list else b :: s.list) ∧ s'.freed = (if s.destroyed then b :: s.freed else s.freed) := by
  have hlt : i < s.thr.length := by rw [List.getElem?_eq_some_iff] at hi; exact hi.1
  cases hd : s.destroyed
  · refine ⟨{ s with thr := s.thr.set i .rDec, live := s.live.erase x, list := b :: s.list }, ?_, ?_⟩
    · simp only [run, step, hi, hx, if_true, St.pc, List.getElem?_set, hlt, go, hd, List.set_set, Bool.false_eq_true, if_false]
    · exact ⟨rfl, rfl, rfl⟩
  · refine ⟨{ s with thr := s.thr.set i .rDec, live := s.live.erase x, freed := b :: s.freed }, ?_, ?_⟩
    · simp only [run, step, hi, hx, if_true, St.pc, List.getElem?_set, hlt, go, hd, List.set_set]
    · exact ⟨rfl, rfl, rfl⟩

/-- The thread ends the pool. -/
def ending (p : PC) : Bool := freeing p || decide (p = .fSet)

/-- Without references the pool has ended or is just ending. -/
def Des (s : St) : Prop := 1 ≤ s.refs ∨ s.destroyed = true ∨ ∃ p ∈ s.thr, ending p = true

theorem des_keep {s s' : St} {i : Nat} {p p' : PC} (h : Des s) (hi : s.thr[i]? = some p) (ht : s'.thr = s.thr.set i p') (hr : s.refs ≤ s'.refs)
    (hd : s'.destroyed = s.destroyed ∨ s'.destroyed = true) (he : ending p = true → ending p' = true ∨ s'.destroyed = true) : Des s' := by
  rcases h with h | h | ⟨q, hq, hq'⟩
  · exact Or.inl (Nat.le_trans h hr)
  · refine Or.inr (Or.inl ?_)
    rcases hd with hd | hd
    · rw [hd]; exact h
    · exact hd
  · by_cases e : q = p
    · subst e
      rcases he hq' with h1 | h1
      · exact Or.inr (Or.inr ⟨p', by rw [ht]; exact mem_set_self hi, h1⟩)
      · exact Or.inr (Or.inl h1)
    · exact Or.inr (Or.inr ⟨q, by rw [ht]; exact mem_set_ne hi hq e, hq'⟩)

theorem des_go {s s' : St} {i : Nat} {ok : Bool} {p : PC} (h : Des s) (hi : s.thr[i]? = some p) (hs : go s i ok p = .ok s') : Des s' := by
  cases p with
  | idle => cases hs
  | rDec =>
    simp only [go] at hs
    cases hs
    by_cases e : s.refs = 1
    · simp only [if_pos e]
      exact Or.inr (Or.inr ⟨.fPop, mem_set_self hi, rfl⟩)
    · simp only [if_neg e]
      rcases h with h | h | ⟨q, hq, hq'⟩
      · refine Or.inl ?_
        show 1 ≤ s.refs - 1
        omega
      · exact Or.inr (Or.inl h)
      · exact Or.inr (Or.inr ⟨q, mem_set_ne hi hq (by intro e; subst e; cases hq'), hq'⟩)
  | aInc q => cases hs; exact des_keep h hi rfl (Nat.le_succ _) (Or.inl rfl) (fun e => by cases e)
  | aNew q z =>
    simp only [go, opNew] at hs
    split at hs
    · cases hs; exact des_keep h hi rfl (Nat.le_refl _) (Or.inl rfl) (fun e => by cases e)
    · split at hs
      · cases hs
      · cases hs; exact des_keep h hi rfl (Nat.le_refl _) (Or.inl rfl) (fun e => by cases e)
  | aPop q r => simp only [go] at hs; split at hs <;> cases hs <;> exact des_keep h hi rfl (Nat.le_refl _) (Or.inl rfl) (fun e => by cases e)
  | aChk q r b => simp only [go] at hs; split at hs <;> cases hs <;> exact des_keep h hi rfl (Nat.le_refl _) (Or.inl rfl) (fun e => by cases e)
  | fPop => simp only [go] at hs; split at hs <;> cases hs <;> exact des_keep h hi rfl (Nat.le_refl _) (Or.inl rfl) (fun _ => Or.inl rfl)
  | fDel b => cases hs; exact des_keep h hi rfl (Nat.le_refl _) (Or.inl rfl) (fun _ => Or.inl rfl)
  | fSet => cases hs; exact des_keep h hi rfl (Nat.le_refl _) (Or.inr rfl) (fun _ => Or.inr rfl)
  | _ => simp only [go] at hs; cases hs; exact des_keep h hi rfl (Nat.le_refl _) (Or.inl rfl) (fun e => by cases e)

theorem des_step {s s' : St} {i : Nat} {a : Act} (h : Des s) (hs : step s i a = .ok s') : Des s' := by
  simp only [step] at hs
  split at hs
  · cases hs
  · rename_i p hi
    cases a with
    | go ok => exact des_go h hi hs
    | alloc q =>
      simp only at hs
      split at hs
      · rename_i hp; subst hp; cases hs; exact des_keep h hi rfl (Nat.le_refl _) (Or.inl rfl) (fun e => by cases e)
      · cases hs
    | dealloc b =>
      simp only at hs
      split at hs
      · cases hs
      · split at hs
        · rename_i hp; subst hp; cases hs; exact des_keep h hi rfl (Nat.le_refl _) (Or.inl rfl) (fun e => by cases e)
        · cases hs
    | release =>
      simp only at hs
      split at hs
      · rename_i hp; obtain ⟨hp, _⟩ := hp; subst hp; cases hs; exact des_keep h hi rfl (Nat.le_refl _) (Or.inl rfl) (fun e => by cases e)
      · cases hs

theorem des_run : ∀ (l : List (Nat × Act)) {s s' : St} (_ : Des s) (_ : run s l = .ok s'), Des s'
  | [], s, s', h, hr => by cases hr; exact h
  | (i, a) :: l, s, s', h, hr => by
    simp only [run] at hr
    split at hr
    · rename_i s1 hs
      exact des_run l (des_step h hs) hr
    · cases hr
    · cases hr

/-- **C135 (the end).** When the last reference is gone and no thread is inside, the pool has ended, so a block that would
be given back later is freed at once (`C135_give_back`). -/
theorem C135_end (k : Nat) (l : List (Nat × Act)) (s : St) (hs : run (new k) l = .ok s) (hi : ∀ p ∈ s.thr, p = .idle) (hr : s.refs = 0) :
    s.destroyed = true := by
  rcases des_run l (s := new k) (Or.inl (Nat.le_refl _)) hs with h | h | ⟨p, hp, hp'⟩
  · omega
  · exact h
  · rw [hi p hp] at hp'; cases hp'

/-- While the owner has its reference the pool does not end. -/
def Own (s : St) : Prop := s.owner = true → s.destroyed = false ∧ ∀ p ∈ s.thr, ending p = false

theorem own_keep {s s' : St} {i : Nat} {p p' : PC} (h : Own s) (hi : s.thr[i]? = some p) (ht : s'.thr = s.thr.set i p') (ho : s'.owner = true → s.owner = true)
    (hd : s'.destroyed = s.destroyed) (he : ending p = false → ending p' = false) : Own s' := by
  intro h'
  obtain ⟨h1, h2⟩ := h (ho h')
  refine ⟨by rw [hd]; exact h1, ?_⟩
  intro q hq
  rw [ht] at hq
  rcases List.mem_or_eq_of_mem_set hq with hq | hq
  · exact h2 q hq
  · rw [hq]; exact he (h2 p (List.mem_iff_getElem?.mpr ⟨i, hi⟩))

theorem own_go {s s' : St} {i : Nat} {ok : Bool} {p : PC} (iv : Inv s) (h : Own s) (hi : s.thr[i]? = some p) (hs : go s i ok p = .ok s') : Own s' := by
  cases p with
  | idle => cases hs
  | rDec =>
    simp only [go] at hs
    cases hs
    by_cases e : s.refs = 1
    · intro ho
      have h1 := iv.refs
      have h2 : 0 < s.thr.countP holds := List.countP_pos_iff.mpr ⟨_, List.mem_iff_getElem?.mpr ⟨i, hi⟩, rfl⟩
      rw [if_pos (show s.owner = true from ho)] at h1
      omega
    · simp only [if_neg e]
      exact own_keep h hi rfl id rfl (fun _ => rfl)
  | aNew q z =>
    simp only [go, opNew] at hs
    split at hs
    · cases hs; exact own_keep h hi rfl id rfl (fun _ => rfl)
    · split at hs
      · cases hs
      · cases hs; exact own_keep h hi rfl id rfl (fun _ => rfl)
  | aPop q r => simp only [go] at hs; split at hs <;> cases hs <;> exact own_keep h hi rfl id rfl (fun _ => rfl)
  | aChk q r b => simp only [go] at hs; split at hs <;> cases hs <;> exact own_keep h hi rfl id rfl (fun _ => rfl)
  | aCmp1 q r => simp only [go] at hs; cases hs; split <;> exact own_keep h hi rfl id rfl (fun _ => rfl)
  | aCmp2 q r => simp only [go] at hs; cases hs; split <;> exact own_keep h hi rfl id rfl (fun _ => rfl)
  | dChk b => simp only [go] at hs; cases hs; split <;> exact own_keep h hi rfl id rfl (fun _ => rfl)
  | fPop => simp only [go] at hs; split at hs <;> cases hs <;> exact own_keep h hi rfl id rfl (fun e => by cases e)
  | fDel b => cases hs; exact own_keep h hi rfl id rfl (fun e => by cases e)
  | fSet => cases hs; intro ho; have := (h ho).2 _ (List.mem_iff_getElem?.mpr ⟨i, hi⟩); cases this
  | _ => simp only [go] at hs; cases hs; exact own_keep h hi rfl id rfl (fun _ => rfl)

theorem own_step {s s' : St} {i : Nat} {a : Act} (iv : Inv s) (h : Own s) (hs : step s i a = .ok s') : Own s' := by
  simp only [step] at hs
  split at hs
  · cases hs
  · rename_i p hi
    cases a with
    | go ok => exact own_go iv h hi hs
    | alloc q =>
      simp only at hs
      split at hs
      · cases hs; exact own_keep h hi rfl id rfl (fun _ => rfl)
      · cases hs
    | dealloc b =>
      simp only at hs
      split at hs
      · cases hs
      · split at hs
        · cases hs; exact own_keep h hi rfl id rfl (fun _ => rfl)
        · cases hs
    | release =>
      simp only at hs
      split at hs
      · cases hs; exact own_keep h hi rfl (fun e => by cases e) rfl (fun _ => rfl)
      · cases hs

theorem own_run : ∀ (l : List (Nat × Act)) {s s' : St} (_ : Inv s) (_ : Own s) (_ : sane l = true) (_ : run s l = .ok s'), Own s'
  | [], s, s', _, h, _, hr => by cases hr; exact h
  | (i, a) :: l, s, s', iv, h, hl, hr => by
    obtain ⟨h1, h2⟩ := sane_cons hl
    simp only [run] at hr
    split at hr
    · rename_i s1 hs
      exact own_run l (step_inv iv hs h1) (own_step iv h hs) h2 hr
    · cases hr
    · cases hr

/-- **C135 (not before the end).** Until the owner releases the pool it has not ended, so blocks given back wait for
reuse (`C135_give_back`, `C135_reuse`). -/
theorem C135_not_ended (k : Nat) (l : List (Nat × Act)) (hl : sane l = true) (s : St) (hs : run (new k) l = .ok s) (ho : s.owner = true) :
    s.destroyed = false := by
  refine (own_run l (new_inv k) ?_ hl hs ho).1
  intro _
  refine ⟨rfl, ?_⟩
  intro p hp
  have := List.eq_of_mem_replicate hp
  subst this
  rfl

/-! ## Examples -/

/-- The state reached is as told: sizes of the blocks, the list, blocks of the program, freed blocks, references. -/
def sees (o : Out) (sz list : List Nat) (live : List (Nat × Nat)) (freed : List Nat) (refs : Nat) : Bool :=
  match o with
  | .ok s => decide ((List.range s.n).map s.size = sz) && decide (s.list = list) && decide (s.live = live) && decide (s.freed = freed) && decide (s.refs = refs)
  | _ => false

/-- The state reached satisfies `f`. -/
def ends (o : Out) (f : St → Bool) : Bool :=
  match o with
  | .ok s => f s
  | _ => false

/-- The thread `i` goes `k` steps. -/
def goes (i k : Nat) : List (Nat × Act) := List.replicate k (i, .go true)

/-- Two threads; a block returned by one is used by the other one; a small block is freed and replaced by a larger one;
the owner releases the pool before the last block is returned. -/
def exHist : List (Nat × Act) :=
  (0, .alloc 16) :: goes 0 5 ++ (1, .alloc 20) :: goes 1 5 ++ (0, .dealloc 0) :: goes 0 3 ++ (1, .alloc 12) :: goes 1 3 ++
  (1, .dealloc 0) :: goes 1 3 ++ (0, .alloc 40) :: goes 0 8 ++ (0, .release) :: goes 0 1 ++ (1, .dealloc 1) :: goes 1 3 ++
  (1, .dealloc 2) :: goes 1 3 ++ goes 1 6

example : sane exHist = true ∧ steady (new 2) exHist = true ∧
    sees (run (new 2) exHist) [16, 20, 40] [] [] [1, 2, 0] 0 = true := by decide

example : sees (run (new 2) (exHist.take 24)) [16, 20] [0] [(1, 20)] [] 2 = true := by decide

/-! ## Violations -/

/-- **C135, violated.** poolalloc.h:32-57: when `operator new` throws, the reference taken at the start stays, so the
blocks in the list are never freed although the owner has released the pool and the program has given all back. -/
theorem C135_failed_alloc_leaks_violated : ∃ l, sane l = true ∧
    ends (run (new 1) l) (fun s => decide (s.thr = [.idle]) && !s.owner && s.live.isEmpty && decide (s.list = [0]) && s.freed.isEmpty && decide (s.refs = 1)) = true :=
  ⟨(0, .alloc 16) :: goes 0 5 ++ (0, .alloc 32) :: goes 0 4 ++ [(0, .go false), (0, .dealloc 0)] ++ goes 0 3 ++ (0, .release) :: goes 0 1,
    by decide⟩

/-- **C135, violated.** poolalloc.h:53-54: an allocation that failed leaves its size in `largestAlloc`; from now on each
new block, however small the request, is asked from `operator new` with that size. -/
theorem C135_failed_size_stays_violated : ∃ l, sane l = true ∧
    ends (run (new 1) l) (fun s => decide (s.n = 0) && decide (s.lost = 1) && decide (s.thr = [.aNew 16 (2 ^ 40)])) = true :=
  ⟨(0, .alloc (2 ^ 40)) :: goes 0 4 ++ [(0, .go false), (0, .alloc 16)] ++ goes 0 5, by decide⟩

/-- The history of three threads that race on `largestAlloc`. -/
def raceHist : List (Nat × Act) :=
  (1, .alloc 50) :: goes 1 3 ++ (0, .alloc 100) :: goes 0 4 ++ (2, .alloc 60) :: goes 2 4 ++ goes 1 1 ++ goes 2 2

/-- **C135, violated.** poolalloc.h:53-54: `largestAlloc` is compared and read again without a lock, and another thread
can make it smaller in between, so the block given is smaller than asked for: 50 bytes for a request of 60. -/
theorem C135_race_small_block_violated : sane raceHist = true ∧
    ends (run (new 3) raceHist) (fun s => decide (s.live = [(0, 60)]) && decide (s.size 0 = 50)) = true := by decide

/-- **C135, violated.** poolalloc.h:57: the size with the header is computed in 64 bits, so a request near the largest
number gets a block of a few bytes. -/
theorem C135_size_overflow_violated : run (new 1) ((0, .alloc (2 ^ 64 - 8)) :: goes 0 5) = .ub := by
  rfl

end LS.PoolAlloc

import Verif.RingList
/-!
# Properties of `List` (C129)
-/

namespace LS.RingList

variable {α : Type}

/-! ## Chains of items -/

/-- From `x` through the items of the list to `y`, and back. -/
def Chain (nx pv : Nat → Nat) : Nat → List Nat → Nat → Prop
  | x, [], y => nx x = y ∧ pv y = x
  | x, c :: l, y => nx x = c ∧ pv c = x ∧ Chain nx pv c l y

/-- The last item of `x :: l`. -/
def lst : Nat → List Nat → Nat
  | x, [] => x
  | _, c :: l => lst c l

/-- The first item of `r ++ [y]`. -/
def hd : List Nat → Nat → Nat
  | [], y => y
  | c :: _, _ => c

theorem lst_mem : ∀ (l : List Nat) (x : Nat), lst x l ∈ x :: l
  | [], _ => List.mem_cons_self
  | c :: l, x => List.mem_cons_of_mem x (lst_mem l c)

theorem hd_mem (r : List Nat) (y : Nat) : hd r y ∈ r ++ [y] := by
  cases r <;> simp [hd]

theorem lst_snoc : ∀ (l : List Nat) (x d : Nat), lst x (l ++ [d]) = d
  | [], _, _ => rfl
  | c :: l, _, d => lst_snoc l c d

theorem chain_edge {nx pv : Nat → Nat} : ∀ (l r : List Nat) (x y : Nat), Chain nx pv x (l ++ r) y → nx (lst x l) = hd r y ∧ pv (hd r y) = lst x l := by
  intro l
  induction l with
  | nil =>
    intro r x y h
    cases r with
    | nil => exact h
    | cons c r => exact ⟨h.1, h.2.1⟩
  | cons c l ih =>
    intro r x y h
    exact ih r c y h.2.2

theorem chain_frame {nx pv nx' pv' : Nat → Nat} : ∀ (l : List Nat) (x y : Nat), (∀ n, n ∈ x :: l → nx' n = nx n) → (∀ n, n ∈ l ++ [y] → pv' n = pv n) → Chain nx pv x l y → Chain nx' pv' x l y := by
  intro l
  induction l with
  | nil =>
    intro x y h1 h2 h
    exact ⟨by rw [h1 x List.mem_cons_self]; exact h.1, by rw [h2 y (by simp)]; exact h.2⟩
  | cons c l ih =>
    intro x y h1 h2 h
    refine ⟨by rw [h1 x List.mem_cons_self]; exact h.1, by rw [h2 c (by simp)]; exact h.2.1, ih c y (fun n hn => h1 n (List.mem_cons_of_mem _ hn)) (fun n hn => h2 n ?_) h.2.2⟩
    exact List.mem_cons_of_mem _ hn

theorem chain_ins {nx pv nx' pv' : Nat → Nat} {new : Nat} : ∀ (l r : List Nat) (x y : Nat), Chain nx pv x (l ++ r) y → (x :: (l ++ r)).Nodup → (l ++ r ++ [y]).Nodup → new ∉ x :: (l ++ r) → new ∉ l ++ r ++ [y] →
    (∀ n, nx' n = if n = lst x l then new else if n = new then hd r y else nx n) → (∀ n, pv' n = if n = hd r y then new else if n = new then lst x l else pv n) → Chain nx' pv' x (l ++ new :: r) y := by
  intro l
  induction l with
  | nil =>
    intro r x y h hn1 hn2 hx hy h1 h2
    have hnx : new ≠ x := fun e => hx (by rw [e]; exact List.mem_cons_self)
    cases r with
    | nil =>
      have hny : new ≠ y := fun e => hy (by rw [e]; simp)
      refine ⟨?_, ?_, ?_, ?_⟩
      · rw [h1]; simp [lst]
      · rw [h2]; simp [hd, lst, hny]
      · rw [h1]; simp [hd, lst, hnx]
      · rw [h2]; simp [hd]
    | cons c r =>
      have hnc : new ≠ c := fun e => hy (by rw [e]; simp)
      refine ⟨?_, ?_, ?_, ?_, ?_⟩
      · rw [h1]; simp [lst]
      · rw [h2]; simp [hd, lst, hnc]
      · rw [h1]; simp [hd, lst, hnx]
      · rw [h2]; simp [hd]
      · refine chain_frame r c y (fun n hn => ?_) (fun n hn => ?_) h.2.2
        · have e1 : n ≠ x := fun e => (List.nodup_cons.mp hn1).1 (by rw [← e]; exact hn)
          have e2 : n ≠ new := fun e => hx (List.mem_cons_of_mem _ (by rw [← e]; exact hn))
          rw [h1]; simp [lst, e1, e2]
        · have e1 : n ≠ c := fun e => (List.nodup_cons.mp hn2).1 (by rw [← e]; exact hn)
          have e2 : n ≠ new := fun e => hy (List.mem_cons_of_mem _ (by rw [← e]; exact hn))
          rw [h2]; simp [hd, e1, e2]
  | cons c l ih =>
    intro r x y h hn1 hn2 hx hy h1 h2
    have hnx : x ≠ new := fun e => hx (by rw [e]; exact List.mem_cons_self)
    have hnc : c ≠ new := fun e => hy (by rw [e]; simp)
    have e1 : x ≠ lst c l := fun e => (List.nodup_cons.mp hn1).1 (by rw [e]; have := lst_mem l c; simp at this ⊢; rcases this with h | h <;> simp [h])
    have e2 : c ≠ hd r y := fun e => (List.nodup_cons.mp hn2).1 (by rw [e]; have := hd_mem r y; simp at this ⊢; exact Or.inr this)
    refine ⟨?_, ?_, ih r c y h.2.2 (List.nodup_cons.mp hn1).2 (List.nodup_cons.mp hn2).2 (fun e => hx (List.mem_cons_of_mem _ e)) (fun e => hy (List.mem_cons_of_mem _ e)) h1 h2⟩
    · rw [h1, if_neg (show ¬ x = lst x (c :: l) from e1), if_neg hnx]
      exact h.1
    · rw [h2, if_neg e2, if_neg hnc]
      exact h.2.1

theorem chain_del {nx pv nx' pv' : Nat → Nat} {d : Nat} : ∀ (l r : List Nat) (x y : Nat), Chain nx pv x (l ++ d :: r) y → (x :: (l ++ d :: r)).Nodup → (l ++ d :: r ++ [y]).Nodup →
    (∀ n, nx' n = if n = d then d else if n = lst x l then hd r y else nx n) → (∀ n, pv' n = if n = d then d else if n = hd r y then lst x l else pv n) → Chain nx' pv' x (l ++ r) y := by
  intro l
  induction l with
  | nil =>
    intro r x y h hn1 hn2 h1 h2
    have hdx : x ≠ d := fun e => (List.nodup_cons.mp hn1).1 (by rw [e]; exact List.mem_cons_self)
    cases r with
    | nil =>
      have hdy : y ≠ d := fun e => (List.nodup_cons.mp hn2).1 (by rw [← e]; simp)
      refine ⟨?_, ?_⟩
      · rw [h1]; simp [hd, lst, hdx]
      · rw [h2]; simp [hd, lst, hdy]
    | cons c r =>
      have hdc : c ≠ d := fun e => (List.nodup_cons.mp hn2).1 (by rw [← e]; simp)
      refine ⟨?_, ?_, ?_⟩
      · rw [h1]; simp [hd, lst, hdx]
      · rw [h2]; simp [hd, lst, hdc]
      · refine chain_frame r c y (fun n hn => ?_) (fun n hn => ?_) h.2.2.2.2
        · have e1 : n ≠ x := fun e => (List.nodup_cons.mp hn1).1 (by rw [← e]; exact List.mem_cons_of_mem _ hn)
          have e2 : n ≠ d := fun e => (List.nodup_cons.mp (List.nodup_cons.mp hn1).2).1 (by rw [← e]; exact hn)
          rw [h1]; simp [lst, e1, e2]
        · have e1 : n ≠ c := fun e => (List.nodup_cons.mp (List.nodup_cons.mp hn2).2).1 (by rw [← e]; exact hn)
          have e2 : n ≠ d := fun e => (List.nodup_cons.mp hn2).1 (by rw [← e]; exact List.mem_cons_of_mem _ hn)
          rw [h2]; simp [hd, e1, e2]
  | cons c l ih =>
    intro r x y h hn1 hn2 h1 h2
    have hdx : x ≠ d := fun e => (List.nodup_cons.mp hn1).1 (by rw [e]; simp)
    have hdc : c ≠ d := fun e => (List.nodup_cons.mp hn2).1 (by rw [e]; simp)
    have e1 : x ≠ lst c l := fun e => (List.nodup_cons.mp hn1).1 (by rw [e]; have := lst_mem l c; simp at this ⊢; rcases this with h | h <;> simp [h])
    have e2 : c ≠ hd r y := fun e => (List.nodup_cons.mp hn2).1 (by rw [e]; have := hd_mem r y; simp at this ⊢; exact Or.inr (Or.inr this))
    refine ⟨?_, ?_, ih r c y h.2.2 (List.nodup_cons.mp hn1).2 (List.nodup_cons.mp hn2).2 h1 h2⟩
    · rw [h1, if_neg hdx, if_neg (show ¬ x = lst x (c :: l) from e1)]
      exact h.1
    · rw [h2, if_neg hdc, if_neg e2]
      exact h.2.1

/-! ## The invariant -/

/-- Iterators on an item. -/
def cnt (its : List It) (n : Nat) : Nat := (its.map It.pos).count n

/-- The items of the list are `ids`, in order; references are those of the list and of iterators. -/
structure Inv (s : St α) (ids : List Nat) : Prop where
  chain : Chain s.nx s.pv 0 ids 0
  nodup : (0 :: ids).Nodup
  refs : ∀ n, s.refs n = (if n ∈ 0 :: ids then 1 else 0) + (cnt s.its n : Int)
  live : ∀ n, s.live n = true ↔ 0 < s.refs n
  fresh : ∀ n, s.live n = true → n < s.fresh
  det : ∀ n, s.live n = true → n ∉ 0 :: ids → s.nx n = n ∧ s.pv n = n
  dat : ∀ n, s.live n = true → n ≠ 0 → ∃ x, s.data n = some x
  count : s.count = ids.length % 2 ^ 64

theorem Inv.ring_live {s : St α} {ids : List Nat} (h : Inv s ids) {n : Nat} (hn : n ∈ 0 :: ids) : s.live n = true := by
  rw [h.live, h.refs, if_pos hn]
  omega

theorem cnt_pos {its : List It} {i : Nat} {it : It} (h : its[i]? = some it) : 0 < cnt its it.pos := by
  unfold cnt
  rw [List.count_pos_iff]
  exact List.mem_map.mpr ⟨it, List.mem_of_getElem? h, rfl⟩

theorem Inv.it_live {s : St α} {ids : List Nat} (h : Inv s ids) {i : Nat} {it : It} (hi : s.its[i]? = some it) : s.live it.pos = true := by
  rw [h.live, h.refs]
  have := cnt_pos hi
  split <;> omega

theorem Inv.step_live {s : St α} {ids : List Nat} (h : Inv s ids) {n : Nat} (hn : s.live n = true) (fwd : Bool) : s.live (step s fwd n) = true := by
  by_cases hm : n ∈ 0 :: ids
  · have key : step s fwd n ∈ 0 :: ids := by
      cases fwd with
      | true =>
        show s.nx n ∈ 0 :: ids
        rcases List.mem_cons.mp hm with rfl | hm
        · have := (chain_edge [] ids 0 0 h.chain).1
          rw [show s.nx 0 = hd ids 0 from this]
          cases ids <;> simp [hd]
        · obtain ⟨l, r, rfl⟩ := List.append_of_mem hm
          have := (chain_edge (l ++ [n]) r 0 0 (by rw [List.append_assoc]; exact h.chain)).1
          rw [lst_snoc] at this
          rw [this]
          have := hd_mem r 0
          simp at this ⊢
          rcases this with h | h <;> simp [h]
      | false =>
        show s.pv n ∈ 0 :: ids
        rcases List.mem_cons.mp hm with rfl | hm
        · have := (chain_edge ids [] 0 0 (by rw [List.append_nil]; exact h.chain)).2
          rw [show s.pv 0 = lst 0 ids from this]
          exact lst_mem ids 0
        · obtain ⟨l, r, rfl⟩ := List.append_of_mem hm
          have := (chain_edge l (n :: r) 0 0 h.chain).2
          rw [show s.pv n = lst 0 l from this]
          have := lst_mem l 0
          simp at this ⊢
          rcases this with h | h <;> simp [h]
    exact h.ring_live key
  · obtain ⟨h1, h2⟩ := h.det n hn hm
    cases fwd
    · show s.live (s.pv n) = true
      rw [h2]; exact hn
    · show s.live (s.nx n) = true
      rw [h1]; exact hn

/-- Changes of references. -/
theorem inv_refs {s s' : St α} {ids : List Nat} (h : Inv s ids) (hnx : s'.nx = s.nx) (hpv : s'.pv = s.pv) (hd : s'.data = s.data) (hf : s'.fresh = s.fresh) (hc : s'.count = s.count)
    (hr : ∀ n, s'.refs n = s.refs n + (cnt s'.its n : Int) - (cnt s.its n : Int)) (hl : ∀ n, s'.live n = true ↔ 0 < s'.refs n) (hll : ∀ n, s'.live n = true → s.live n = true) : Inv s' ids where
  chain := by rw [hnx, hpv]; exact h.chain
  nodup := h.nodup
  refs := fun n => by rw [hr, h.refs]; omega
  live := hl
  fresh := fun n hn => by rw [hf]; exact h.fresh n (hll n hn)
  det := fun n hn hm => by rw [hnx, hpv]; exact h.det n (hll n hn) hm
  dat := fun n hn h0 => by rw [hd]; exact h.dat n (hll n hn) h0
  count := by rw [hc]; exact h.count

theorem empty_inv : Inv (empty : St α) [] where
  chain := ⟨rfl, rfl⟩
  nodup := by simp
  refs := fun n => by
    show (if n = 0 then (1 : Int) else 0) = _
    simp [empty, cnt]
  live := fun n => by
    show (if n = 0 then true else false) = true ↔ 0 < (if n = 0 then (1 : Int) else 0)
    by_cases h : n = 0 <;> simp [h]
  fresh := fun n h => by
    have h : (if n = 0 then true else false) = true := h
    by_cases h0 : n = 0
    · subst h0; exact Nat.one_pos
    · rw [if_neg h0] at h; cases h
  det := fun n h hm => by
    exact ⟨rfl, rfl⟩
  dat := fun n h h0 => by
    have h : (if n = 0 then true else false) = true := h
    rw [if_neg h0] at h
    cases h
  count := rfl

theorem cnt_snoc (its : List It) (it : It) (n : Nat) : cnt (its ++ [it]) n = cnt its n + if it.pos = n then 1 else 0 := by
  unfold cnt
  rw [List.map_append, List.count_append]
  simp [List.count_cons]

theorem cnt_set : ∀ (its : List It) (i : Nat) (it it' : It) (n : Nat), its[i]? = some it → (cnt (its.set i it') n : Int) = cnt its n - (if it.pos = n then 1 else 0) + if it'.pos = n then 1 else 0 := by
  intro its
  induction its with
  | nil => intro i it it' n h; cases h
  | cons a its ih =>
    intro i it it' n h
    cases i with
    | zero =>
      injection h with h
      subst h
      simp only [cnt, List.set, List.map_cons, List.count_cons, beq_iff_eq]
      split <;> split <;> omega
    | succ i =>
      have := ih i it it' n h
      simp only [cnt, List.set, List.map_cons, List.count_cons, beq_iff_eq] at this ⊢
      omega

theorem cnt_erase : ∀ (its : List It) (i : Nat) (it : It) (n : Nat), its[i]? = some it → (cnt (its.eraseIdx i) n : Int) = cnt its n - (if it.pos = n then 1 else 0) := by
  intro its
  induction its with
  | nil => intro i it n h; cases h
  | cons a its ih =>
    intro i it n h
    cases i with
    | zero =>
      injection h with h
      subst h
      simp only [cnt, List.eraseIdx, List.map_cons, List.count_cons, beq_iff_eq]
      split <;> omega
    | succ i =>
      have := ih i it n h
      simp only [cnt, List.eraseIdx, List.map_cons, List.count_cons, beq_iff_eq] at this ⊢
      omega

theorem release_live {s : St α} {n : Nat} (hl : ∀ n, s.live n = true ↔ 0 < s.refs n) (m : Nat) :
    ((if s.refs n - 1 = 0 then upd s.live n false else s.live) m = true ↔ 0 < upd s.refs n (s.refs n - 1) m) ∧ ((if s.refs n - 1 = 0 then upd s.live n false else s.live) m = true → s.live m = true) := by
  by_cases hm : m = n
  · subst hm
    have h := hl m
    by_cases h1 : s.refs m - 1 = 0
    · rw [if_pos h1]
      simp [upd, h1]
    · rw [if_neg h1]
      simp only [upd, if_true]
      refine ⟨?_, fun h => h⟩
      rw [h]
      omega
  · have e : (if s.refs n - 1 = 0 then upd s.live n false else s.live) m = s.live m := by
      split
      · simp [upd, hm]
      · rfl
    rw [e]
    simp only [upd, if_neg hm]
    exact ⟨hl m, fun h => h⟩

/-! ## Operations -/

theorem newIter_ok {s : St α} {ids : List Nat} (h : Inv s ids) (it : It) (hl : s.live it.pos = true) :
    ∃ s', newIter s it = .ok s' ∧ Inv s' ids ∧ s'.its = s.its ++ [it] ∧ s'.nx = s.nx ∧ s'.pv = s.pv ∧ s'.data = s.data := by
  refine ⟨{ s with refs := upd s.refs it.pos (s.refs it.pos + 1), its := s.its ++ [it] }, by simp [newIter, addRef, hl], ?_, rfl, rfl, rfl, rfl⟩
  refine inv_refs h rfl rfl rfl rfl rfl (fun n => ?_) (fun n => ?_) (fun n hn => hn)
  · show upd s.refs it.pos (s.refs it.pos + 1) n = s.refs n + (cnt (s.its ++ [it]) n : Int) - _
    rw [cnt_snoc]
    unfold upd
    by_cases hn : n = it.pos
    · subst hn
      simp
      omega
    · rw [if_neg hn, if_neg (Ne.symm hn)]
      omega
  · show s.live n = true ↔ 0 < upd s.refs it.pos (s.refs it.pos + 1) n
    have := h.live n
    unfold upd
    split
    · next e =>
      subst e
      rw [hl] at this ⊢
      have : 0 < s.refs it.pos := this.mp rfl
      simp
      omega
    · exact this

theorem dropIter_ok {s : St α} {ids : List Nat} (h : Inv s ids) {i : Nat} {it : It} (hi : s.its[i]? = some it) :
    ∃ s', dropIter s i = .ok s' ∧ Inv s' ids ∧ s'.its = s.its.eraseIdx i ∧ s'.data = s.data := by
  have hl := h.it_live hi
  refine ⟨{ s with refs := upd s.refs it.pos (s.refs it.pos - 1), live := if s.refs it.pos - 1 = 0 then upd s.live it.pos false else s.live, its := s.its.eraseIdx i }, by simp only [dropIter, hi, release, hl, if_true], ?_, rfl, rfl⟩
  refine inv_refs h rfl rfl rfl rfl rfl (fun n => ?_) (fun n => (release_live h.live n).1) (fun n => (release_live h.live n).2)
  show upd s.refs it.pos (s.refs it.pos - 1) n = s.refs n + (cnt (s.its.eraseIdx i) n : Int) - _
  rw [cnt_erase s.its i it n hi]
  unfold upd
  by_cases hn : n = it.pos
  · subst hn
    simp
    omega
  · rw [if_neg hn, if_neg (Ne.symm hn)]
    omega

theorem moveTo_ok {s : St α} {ids : List Nat} (h : Inv s ids) {i n : Nat} {it it' : It} (hi : s.its[i]? = some it) (hn : s.live n = true) (hp : it'.pos = n) :
    ∃ s', moveTo s i n it it' = .ok s' ∧ Inv s' ids ∧ s'.its = s.its.set i it' ∧ s'.nx = s.nx ∧ s'.pv = s.pv ∧ s'.data = s.data := by
  have hl := h.it_live hi
  have hl1 : ∀ m, s.live m = true ↔ 0 < upd s.refs n (s.refs n + 1) m := by
    intro m
    have := h.live m
    unfold upd
    split
    · next e =>
      subst e
      rw [hn] at this ⊢
      have : 0 < s.refs m := this.mp rfl
      simp
      omega
    · exact this
  refine ⟨{ s with refs := upd (upd s.refs n (s.refs n + 1)) it.pos (upd s.refs n (s.refs n + 1) it.pos - 1), live := if upd s.refs n (s.refs n + 1) it.pos - 1 = 0 then upd s.live it.pos false else s.live, its := s.its.set i it' }, by simp only [moveTo, addRef, hn, if_true, release, hl], ?_, rfl, rfl, rfl, rfl⟩
  have rl := release_live (s := { s with refs := upd s.refs n (s.refs n + 1) }) (n := it.pos) hl1
  refine inv_refs h rfl rfl rfl rfl rfl (fun m => ?_) (fun m => (rl m).1) (fun m => (rl m).2)
  show upd (upd s.refs n (s.refs n + 1)) it.pos (upd s.refs n (s.refs n + 1) it.pos - 1) m = s.refs m + (cnt (s.its.set i it') m : Int) - _
  rw [cnt_set s.its i it it' m hi, hp]
  unfold upd
  by_cases h1 : m = it.pos
  · subst h1
    simp only [if_true]
    by_cases h2 : it.pos = n
    · simp only [h2, if_true]
      omega
    · rw [if_neg h2, if_neg (Ne.symm h2)]
      omega
  · rw [if_neg h1, if_neg (Ne.symm h1)]
    by_cases h2 : m = n
    · subst h2
      simp only [if_true]
      omega
    · rw [if_neg h2, if_neg (Ne.symm h2)]
      omega

theorem ring_nodup {ids : List Nat} (h : (0 :: ids).Nodup) : (ids ++ [0]).Nodup := by
  rw [List.nodup_append]
  obtain ⟨h1, h2⟩ := List.nodup_cons.mp h
  refine ⟨h2, by simp, ?_⟩
  rintro a ha b hb rfl
  simp at hb
  subst hb
  exact h1 ha

/-- C129: inserting between two items. -/
theorem ins_inv {s : St α} {l r : List Nat} (h : Inv s (l ++ r)) (x : α) {nx' pv' : Nat → Nat}
    (h1 : ∀ n, nx' n = if n = lst 0 l then s.fresh else if n = s.fresh then hd r 0 else (createItem s x).2.nx n)
    (h2 : ∀ n, pv' n = if n = hd r 0 then s.fresh else if n = s.fresh then lst 0 l else (createItem s x).2.pv n) :
    Inv { (createItem s x).2 with nx := nx', pv := pv', count := ((createItem s x).2.count + 1) % 2 ^ 64 } (l ++ s.fresh :: r) := by
  have hf : s.fresh ∉ 0 :: (l ++ r) := fun hm => Nat.lt_irrefl _ (h.fresh _ (h.ring_live hm))
  have hnl : s.live s.fresh = false := by
    cases hl : s.live s.fresh with
    | false => rfl
    | true => exact absurd (h.fresh _ hl) (Nat.lt_irrefl _)
  have mem : ∀ n, n ∈ 0 :: (l ++ s.fresh :: r) ↔ n = s.fresh ∨ n ∈ 0 :: (l ++ r) := by
    intro n
    simp only [List.mem_cons, List.mem_append]
    constructor
    · rintro (h | h | h | h) <;> simp [h]
    · rintro (h | h | h | h) <;> simp [h]
  have c0 : cnt s.its s.fresh = 0 := by
    have := h.refs s.fresh
    have h3 := h.live s.fresh
    rw [hnl] at h3
    rw [if_neg hf] at this
    have : ¬ 0 < s.refs s.fresh := fun hp => by simp [hp] at h3
    omega
  refine ⟨?_, ?_, ?_, ?_, ?_, ?_, ?_, ?_⟩
  · refine chain_ins (nx := s.nx) (pv := s.pv) l r 0 0 h.chain h.nodup (ring_nodup h.nodup) hf (fun hm => hf (by simp at hm ⊢; rcases hm with h | h | h <;> simp [h])) (fun n => ?_) (fun n => ?_)
    · show nx' n = _
      rw [h1]
      by_cases e1 : n = lst 0 l
      · rw [if_pos e1, if_pos e1]
      · rw [if_neg e1, if_neg e1]
        by_cases e2 : n = s.fresh
        · rw [if_pos e2, if_pos e2]
        · rw [if_neg e2, if_neg e2]
          simp [createItem, upd, e2]
    · show pv' n = _
      rw [h2]
      by_cases e1 : n = hd r 0
      · rw [if_pos e1, if_pos e1]
      · rw [if_neg e1, if_neg e1]
        by_cases e2 : n = s.fresh
        · rw [if_pos e2, if_pos e2]
        · rw [if_neg e2, if_neg e2]
          simp [createItem, upd, e2]
  · have hp : (0 :: (l ++ s.fresh :: r)).Perm (s.fresh :: 0 :: (l ++ r)) := (List.Perm.cons 0 List.perm_middle).trans (List.Perm.swap _ _ _)
    rw [hp.nodup_iff]
    exact List.nodup_cons.mpr ⟨hf, h.nodup⟩
  · intro n
    show upd s.refs s.fresh 1 n = _ + (cnt s.its n : Int)
    unfold upd
    by_cases e : n = s.fresh
    · subst e
      rw [if_pos rfl, if_pos ((mem s.fresh).mpr (Or.inl rfl)), c0]
      rfl
    · rw [if_neg e, h.refs]
      have : (n ∈ 0 :: (l ++ s.fresh :: r)) = (n ∈ 0 :: (l ++ r)) := by
        rw [mem]
        simp [e]
      simp only [this]
  · intro n
    show upd s.live s.fresh true n = true ↔ 0 < upd s.refs s.fresh 1 n
    unfold upd
    split
    · simp
    · exact h.live n
  · intro n hn
    have hn : upd s.live s.fresh true n = true := hn
    show n < s.fresh + 1
    unfold upd at hn
    split at hn
    · omega
    · have := h.fresh n hn
      omega
  · intro n hn hm
    have hn : upd s.live s.fresh true n = true := hn
    have e1 : n ≠ s.fresh := fun e => hm ((mem n).mpr (Or.inl e))
    have e2 : n ∉ 0 :: (l ++ r) := fun e => hm ((mem n).mpr (Or.inr e))
    unfold upd at hn
    rw [if_neg e1] at hn
    obtain ⟨d1, d2⟩ := h.det n hn e2
    have e3 : n ≠ lst 0 l := fun e => e2 (by rw [e]; have := lst_mem l 0; simp at this ⊢; rcases this with h | h <;> simp [h])
    have e4 : n ≠ hd r 0 := fun e => e2 (by rw [e]; have := hd_mem r 0; simp at this ⊢; rcases this with h | h <;> simp [h])
    refine ⟨?_, ?_⟩
    · show nx' n = n
      rw [h1, if_neg e3, if_neg e1]
      simp [createItem, upd, e1, d1]
    · show pv' n = n
      rw [h2, if_neg e4, if_neg e1]
      simp [createItem, upd, e1, d2]
  · intro n hn h0
    have hn : upd s.live s.fresh true n = true := hn
    show ∃ y, upd s.data s.fresh (some x) n = some y
    unfold upd at hn ⊢
    split at hn
    · next e => exact ⟨x, by rw [if_pos e]⟩
    · next e =>
      rw [if_neg e]
      exact h.dat n hn h0
  · show (s.count + 1) % 2 ^ 64 = _
    rw [h.count]
    simp only [List.length_append, List.length_cons]
    omega

/-- The state after an insertion between `l` and `r`. -/
def Inserted (s s' : St α) (l r : List Nat) (x : α) : Prop :=
  Inv s' (l ++ s.fresh :: r) ∧ s'.its = s.its ∧ s'.data s.fresh = some x ∧ ∀ n, n ∈ l ++ r → s'.data n = s.data n

theorem inserted_data {s : St α} {ids : List Nat} (h : Inv s ids) (x : α) : (createItem s x).2.data s.fresh = some x ∧ ∀ n, n ∈ ids → (createItem s x).2.data n = s.data n := by
  refine ⟨by simp [createItem, upd], fun n hn => ?_⟩
  have := h.fresh n (h.ring_live (List.mem_cons_of_mem _ hn))
  have : n ≠ s.fresh := by omega
  simp [createItem, upd, this]

theorem created_live {s : St α} {ids : List Nat} (h : Inv s ids) (x : α) {n : Nat} (hn : n ∈ 0 :: ids) : (createItem s x).2.live n = true ∧ n ≠ s.fresh ∧ (createItem s x).2.nx n = s.nx n ∧ (createItem s x).2.pv n = s.pv n := by
  have hl := h.ring_live hn
  have := h.fresh n hl
  have : n ≠ s.fresh := by omega
  simp [createItem, upd, this, hl]

/-- C129 `insertAfter`: the new item stands right behind the item of the iterator; behind the end (the anchor), it is the first one. -/
theorem C129_insertAfter {s : St α} {l r : List Nat} (h : Inv s (l ++ r)) (x : α) : ∃ s', insertAfter s (lst 0 l) x = .ok s' ∧ Inserted s s' l r x := by
  have hm : lst 0 l ∈ 0 :: (l ++ r) := by
    have := lst_mem l 0
    simp at this ⊢
    rcases this with h | h <;> simp [h]
  have hm2 : hd r 0 ∈ 0 :: (l ++ r) := by
    have := hd_mem r 0
    simp at this ⊢
    rcases this with h | h <;> simp [h]
  obtain ⟨e1, e2, e3, _⟩ := created_live h x hm
  obtain ⟨f1, f2, f3, _⟩ := created_live h x hm2
  have he := (chain_edge l r 0 0 h.chain).1
  have hb : (createItem s x).2.nx (lst 0 l) = hd r 0 := by rw [e3, he]
  refine ⟨{ (createItem s x).2 with nx := upd (upd (createItem s x).2.nx s.fresh (hd r 0)) (lst 0 l) s.fresh, pv := upd (upd (createItem s x).2.pv s.fresh (lst 0 l)) (hd r 0) s.fresh, count := ((createItem s x).2.count + 1) % 2 ^ 64 }, ?_, ?_⟩
  · unfold insertAfter addAfterItm
    have hfst : (createItem s x).1 = s.fresh := rfl
    rw [hb, if_pos ⟨e1, f1⟩, hfst]
    have : upd (upd (createItem s x).2.nx s.fresh (hd r 0)) (lst 0 l) s.fresh s.fresh = hd r 0 := by
      simp [upd, Ne.symm e2]
    simp only [this]
  · obtain ⟨d1, d2⟩ := inserted_data h x
    exact ⟨ins_inv h x (fun n => rfl) (fun n => rfl), rfl, d1, d2⟩

/-- C129 `insertBefore`: the new item stands right before the item of the iterator; before the end (the anchor), it is the last one. -/
theorem C129_insertBefore {s : St α} {l r : List Nat} (h : Inv s (l ++ r)) (x : α) : ∃ s', insertBefore s (hd r 0) x = .ok s' ∧ Inserted s s' l r x := by
  have hm : lst 0 l ∈ 0 :: (l ++ r) := by
    have := lst_mem l 0
    simp at this ⊢
    rcases this with h | h <;> simp [h]
  have hm2 : hd r 0 ∈ 0 :: (l ++ r) := by
    have := hd_mem r 0
    simp at this ⊢
    rcases this with h | h <;> simp [h]
  obtain ⟨e1, e2, e3, _⟩ := created_live h x hm
  obtain ⟨f1, f2, _, f3⟩ := created_live h x hm2
  have he := (chain_edge l r 0 0 h.chain).2
  have hb : (createItem s x).2.pv (hd r 0) = lst 0 l := by rw [f3, he]
  refine ⟨{ (createItem s x).2 with nx := upd (upd (createItem s x).2.nx s.fresh (hd r 0)) (lst 0 l) s.fresh, pv := upd (upd (createItem s x).2.pv s.fresh (lst 0 l)) (hd r 0) s.fresh, count := ((createItem s x).2.count + 1) % 2 ^ 64 }, ?_, ?_⟩
  · unfold insertBefore addBeforeItm
    have hfst : (createItem s x).1 = s.fresh := rfl
    rw [hb, if_pos ⟨f1, e1⟩, hfst]
    have : upd (upd (createItem s x).2.pv s.fresh (lst 0 l)) (hd r 0) s.fresh s.fresh = lst 0 l := by
      simp [upd, Ne.symm f2]
    simp only [this]
  · obtain ⟨d1, d2⟩ := inserted_data h x
    exact ⟨ins_inv h x (fun n => rfl) (fun n => rfl), rfl, d1, d2⟩

/-- C129 `addFront`, `addBack`. -/
theorem C129_add {s : St α} {ids : List Nat} (h : Inv s ids) (x : α) :
    (∃ s', addFront s x = .ok s' ∧ Inserted s s' [] ids x) ∧ (∃ s', addBack s x = .ok s' ∧ Inserted s s' ids [] x) :=
  ⟨C129_insertAfter (l := []) (r := ids) h x, C129_insertBefore (l := ids) (r := []) (by rw [List.append_nil]; exact h) x⟩

/-- `removeItem` of an item of the list. -/
theorem removeItem_ok {s : St α} {l r : List Nat} {d : Nat} (h : Inv s (l ++ d :: r)) : ∃ s', removeItem s d = .ok s' ∧ Inv s' (l ++ r) ∧ s'.its = s.its ∧ s'.data = s.data := by
  have hd1 : s.nx d = hd r 0 := by
    have := (chain_edge (l ++ [d]) r 0 0 (by rw [List.append_assoc]; exact h.chain)).1
    rwa [lst_snoc] at this
  have hd2 : s.pv d = lst 0 l := (chain_edge l (d :: r) 0 0 h.chain).2
  have hm : d ∈ 0 :: (l ++ d :: r) := by simp
  have hma : lst 0 l ∈ 0 :: (l ++ r) := by
    have := lst_mem l 0
    simp at this ⊢
    rcases this with h | h <;> simp [h]
  have hmb : hd r 0 ∈ 0 :: (l ++ r) := by
    have := hd_mem r 0
    simp at this ⊢
    rcases this with h | h <;> simp [h]
  have hp : (0 :: (l ++ d :: r)).Perm (d :: 0 :: (l ++ r)) := (List.Perm.cons 0 List.perm_middle).trans (List.Perm.swap _ _ _)
  have hnd := hp.nodup_iff.mp h.nodup
  obtain ⟨hdn, hnd2⟩ := List.nodup_cons.mp hnd
  have mem : ∀ n, n ∈ 0 :: (l ++ d :: r) ↔ n = d ∨ n ∈ 0 :: (l ++ r) := fun n => by rw [hp.mem_iff]; exact List.mem_cons
  have hda : lst 0 l ≠ d := fun e => hdn (by rw [← e]; exact hma)
  have hdb : hd r 0 ≠ d := fun e => hdn (by rw [← e]; exact hmb)
  have l1 := h.ring_live hm
  have l2 := h.ring_live ((mem _).mpr (Or.inr hma))
  have l3 := h.ring_live ((mem _).mpr (Or.inr hmb))
  have e1 : upd s.pv (hd r 0) (lst 0 l) d = lst 0 l := by
    unfold upd
    rw [if_neg (Ne.symm hdb), hd2]
  refine ⟨{ s with nx := upd (upd s.nx (lst 0 l) (hd r 0)) d d, pv := upd (upd s.pv (hd r 0) (lst 0 l)) d d, refs := upd s.refs d (s.refs d - 1), live := if s.refs d - 1 = 0 then upd s.live d false else s.live, count := (s.count + 2 ^ 64 - 1) % 2 ^ 64 }, ?_, ?_, rfl, rfl⟩
  · unfold removeItem
    rw [hd1, hd2, if_pos ⟨l1, l3, l2⟩]
    simp only [e1, release, l1, if_true]
  · have rl := release_live (n := d) h.live
    refine ⟨?_, hnd2, ?_, fun n => (rl n).1, fun n hn => h.fresh n ((rl n).2 hn), ?_, fun n hn h0 => h.dat n ((rl n).2 hn) h0, ?_⟩
    · exact chain_del l r 0 0 h.chain h.nodup (ring_nodup h.nodup) (fun n => rfl) (fun n => rfl)
    · intro n
      show upd s.refs d (s.refs d - 1) n = _
      unfold upd
      by_cases e : n = d
      · subst e
        rw [if_pos rfl, h.refs, if_pos hm, if_neg hdn]
        show _ = _ + (cnt s.its n : Int)
        omega
      · rw [if_neg e, h.refs]
        have : (n ∈ 0 :: (l ++ d :: r)) = (n ∈ 0 :: (l ++ r)) := by
          rw [mem]
          simp [e]
        simp only [this]
    · intro n hn hm'
      show upd (upd s.nx (lst 0 l) (hd r 0)) d d n = n ∧ upd (upd s.pv (hd r 0) (lst 0 l)) d d n = n
      unfold upd
      by_cases e : n = d
      · simp [e]
      · have f1 : n ≠ lst 0 l := fun e' => hm' (by rw [e']; exact hma)
        have f2 : n ≠ hd r 0 := fun e' => hm' (by rw [e']; exact hmb)
        rw [if_neg e, if_neg e, if_neg f1, if_neg f2]
        exact h.det n ((rl n).2 hn) (fun e' => by rcases (mem n).mp e' with h | h; exact e h; exact hm' h)
    · show (s.count + 2 ^ 64 - 1) % 2 ^ 64 = _
      rw [h.count]
      simp only [List.length_append, List.length_cons]
      omega

/-- C129 `getNext`: the data of the item; the iterator goes to the neighbour. -/
theorem getNext_ok {s : St α} {ids : List Nat} (h : Inv s ids) {i : Nat} {it : It} (hi : s.its[i]? = some it) (h0 : it.pos ≠ 0) :
    ∃ x s', s.data it.pos = some x ∧ getNext s i = .ok (x, s') ∧ Inv s' ids ∧ s'.its = s.its.set i { it with pos := step s it.fwd it.pos, last := it.fwd } ∧ s'.nx = s.nx ∧ s'.pv = s.pv ∧ s'.data = s.data := by
  have hl := h.it_live hi
  obtain ⟨x, hx⟩ := h.dat _ hl h0
  obtain ⟨s', hm, hi', h1, h2, h3, h4⟩ := moveTo_ok (it' := { it with pos := step s it.fwd it.pos, last := it.fwd }) h hi (h.step_live hl it.fwd) rfl
  refine ⟨x, s', hx, ?_, hi', h1, h2, h3, h4⟩
  have hp : peek s it = .ok x := by simp [peek, h0, hl, hx]
  simp only [getNext, hi, hp, hm]

/-- C129 `erase`: the item of the iterator leaves the list; others stay in order; iterators stay where they are, and the returned one
(the last one) stands on the next item in its direction. -/
theorem C129_erase {s : St α} {l r : List Nat} {i : Nat} {it : It} (h : Inv s (l ++ it.pos :: r)) (hi : s.its[i]? = some it) :
    ∃ s', erase s i = .ok s' ∧ Inv s' (l ++ r) ∧ s'.its = s.its ++ [{ it with pos := if it.fwd then hd r 0 else lst 0 l, last := it.fwd }] ∧ s'.data = s.data := by
  have h0 : it.pos ≠ 0 := by
    intro e
    have := (List.nodup_cons.mp h.nodup).1
    rw [e] at this
    exact this (by simp)
  obtain ⟨s1, hn, h1, hi1, hnx, hpv, hdt⟩ := newIter_ok h it (h.it_live hi)
  have hlast : s1.its[s.its.length]? = some it := by
    rw [hi1]
    simp
  obtain ⟨x, s2, _, hg, h2, hi2, _, _, hdt2⟩ := getNext_ok h1 hlast h0
  obtain ⟨s3, hr, h3, hi3, hdt3⟩ := removeItem_ok h2
  refine ⟨s3, ?_, h3, ?_, by rw [hdt3, hdt2, hdt]⟩
  · simp only [erase, hi, hn, if_pos h0, hg, hr]
  · rw [hi3, hi2, hi1]
    have hd1 : s.nx it.pos = hd r 0 := by
      have := (chain_edge (l ++ [it.pos]) r 0 0 (by rw [List.append_assoc]; exact h.chain)).1
      rwa [lst_snoc] at this
    have hd2 : s.pv it.pos = lst 0 l := (chain_edge l (it.pos :: r) 0 0 h.chain).2
    have e : step s1 it.fwd it.pos = if it.fwd then hd r 0 else lst 0 l := by
      unfold step
      rw [hnx, hpv, hd1, hd2]
    rw [e]
    simp

/-- C129 `erase` at the end does nothing. -/
theorem C129_erase_end {s : St α} {ids : List Nat} {i : Nat} {it : It} (h : Inv s ids) (hi : s.its[i]? = some it) (h0 : it.pos = 0) :
    ∃ s', erase s i = .ok s' ∧ Inv s' ids ∧ s'.its = s.its ++ [it] ∧ s'.data = s.data := by
  obtain ⟨s1, hn, h1, hi1, _, _, hdt⟩ := newIter_ok h it (h.it_live hi)
  refine ⟨s1, ?_, h1, hi1, hdt⟩
  simp [erase, hi, hn, h0]

theorem isEmpty_iff {s : St α} {ids : List Nat} (h : Inv s ids) : isEmpty s = true ↔ ids = [] := by
  have hn := (List.nodup_cons.mp h.nodup).1
  have e := (chain_edge [] ids 0 0 h.chain).1
  cases ids with
  | nil =>
    have := h.chain
    simp [isEmpty, this.1, this.2]
  | cons c ids =>
    have e : s.nx 0 = c := e
    have : c ≠ 0 := fun e => hn (by rw [e]; exact List.mem_cons_self)
    simp [isEmpty, e, this]

/-- C129 `clear`. -/
theorem C129_clear : ∀ (ids : List Nat) (s : St α), Inv s ids → ∃ s', clear ids.length s = .ok s' ∧ Inv s' [] ∧ s'.its = s.its := by
  intro ids
  induction ids with
  | nil =>
    intro s h
    exact ⟨s, by simp [clear, (isEmpty_iff h).mpr rfl], h, rfl⟩
  | cons c ids ih =>
    intro s h
    have e : s.nx 0 = c := (chain_edge [] (c :: ids) 0 0 h.chain).1
    have he : isEmpty s = false := by
      cases hs : isEmpty s with
      | false => rfl
      | true => cases (isEmpty_iff h).mp hs
    obtain ⟨s1, hr, h1, hi1, _⟩ := removeItem_ok (l := []) (r := ids) h
    obtain ⟨s2, hc, h2, hi2⟩ := ih s1 h1
    refine ⟨s2, ?_, h2, by rw [hi2, hi1]⟩
    show (if isEmpty s = true then _ else _) = _
    rw [if_neg (by rw [he]; simp), e, hr]
    exact hc

/-- C129 `size`, `empty`: as the items say. -/
theorem C129_size {s : St α} {ids : List Nat} (h : Inv s ids) (hl : ids.length < 2 ^ 64) : s.count = ids.length ∧ (isEmpty s = true ↔ ids = []) := by
  refine ⟨?_, isEmpty_iff h⟩
  rw [h.count, Nat.mod_eq_of_lt hl]

/-- C129: memory: what exists is the anchor, the items of the list, and the items that iterators stand on. So when there is no iterator and the list is empty,
nothing is left. -/
theorem C129_memory {s : St α} {ids : List Nat} (h : Inv s ids) (n : Nat) : s.live n = true ↔ n = 0 ∨ n ∈ ids ∨ ∃ it, it ∈ s.its ∧ it.pos = n := by
  rw [h.live, h.refs]
  have hc : 0 < cnt s.its n ↔ ∃ it, it ∈ s.its ∧ it.pos = n := by
    unfold cnt
    rw [List.count_pos_iff, List.mem_map]
  rw [← hc]
  by_cases hm : n ∈ 0 :: ids
  · rw [if_pos hm]
    constructor
    · intro _
      rcases List.mem_cons.mp hm with h | h
      · exact Or.inl h
      · exact Or.inr (Or.inl h)
    · intro _
      omega
  · rw [if_neg hm]
    constructor
    · intro h
      exact Or.inr (Or.inr (by omega))
    · rintro (h | h | h)
      · exact absurd (by rw [h]; exact List.mem_cons_self) hm
      · exact absurd (List.mem_cons_of_mem _ h) hm
      · omega

/-! ## Reading -/

/-- Reading to the end with iterator `i`, at most `n` items. -/
def readAll : Nat → St α → Nat → Except Fail (List α × St α)
  | 0, s, _ => .ok ([], s)
  | n + 1, s, i =>
    match getNext s i with
    | .error .noItems => .ok ([], s)
    | .error e => .error e
    | .ok (x, s') =>
      match readAll n s' i with
      | .error e => .error e
      | .ok (xs, s'') => .ok (x :: xs, s'')

theorem getNext_end {s : St α} {i : Nat} {it : It} (hi : s.its[i]? = some it) (h0 : it.pos = 0) : getNext s i = .error .noItems := by
  simp [getNext, hi, peek, h0]

theorem readAll_fwd {ids : List Nat} {i : Nat} {data : Nat → Option α} : ∀ (r l : List Nat) (s : St α), ids = l ++ r → Inv s ids → s.data = data → (∃ b, s.its[i]? = some ⟨hd r 0, true, b⟩) → ∀ n, r.length < n →
    ∃ xs s', readAll n s i = .ok (xs, s') ∧ xs.map some = r.map data ∧ Inv s' ids ∧ (∃ b, s'.its = s.its.set i ⟨0, true, b⟩) := by
  intro r
  induction r with
  | nil =>
    intro l s hl h hdt hi n hn
    obtain ⟨b, hi⟩ := hi
    refine ⟨[], s, ?_, rfl, h, b, ?_⟩
    · cases n with
      | zero => cases hn
      | succ n => simp [readAll, getNext_end hi rfl]
    · obtain ⟨hlt, he⟩ := List.getElem?_eq_some_iff.mp hi
      show s.its = s.its.set i ⟨0, true, b⟩
      rw [show (⟨0, true, b⟩ : It) = s.its[i] from he.symm]
      simp
  | cons c r ih =>
    intro l s hl h hdt hi n hn
    obtain ⟨b, hi⟩ := hi
    have hc0 : c ≠ 0 := by
      intro e
      refine (List.nodup_cons.mp h.nodup).1 ?_
      rw [hl, e]
      simp
    obtain ⟨x, s1, hx, hg, h1, hi1, hnx, hpv, hdt1⟩ := getNext_ok h hi hc0
    have e : s.nx c = hd r 0 := by
      have := (chain_edge (l ++ [c]) r 0 0 (by rw [List.append_assoc, List.singleton_append, ← hl]; exact h.chain)).1
      rwa [lst_snoc] at this
    have hi1' : s1.its = s.its.set i ⟨hd r 0, true, true⟩ := by rw [hi1]; show s.its.set i ⟨s.nx c, true, true⟩ = _; rw [e]
    cases n with
    | zero => cases hn
    | succ n =>
      have hlt := (List.getElem?_eq_some_iff.mp hi).1
      obtain ⟨xs, s2, hr, hxs, h2, b', hi2⟩ := ih (l ++ [c]) s1 (by rw [hl]; simp) h1 (by rw [hdt1, hdt]) ⟨true, by rw [hi1']; simp [hlt]⟩ n (Nat.lt_of_succ_lt_succ hn)
      refine ⟨x :: xs, s2, ?_, ?_, h2, b', ?_⟩
      · simp [readAll, hg, hr]
      · rw [List.map_cons, List.map_cons, hxs, ← hx, hdt]
        rfl
      · rw [hi2, hi1', List.set_set]

theorem readAll_bk {ids : List Nat} {i : Nat} {data : Nat → Option α} : ∀ (k : Nat) (l r : List Nat) (s : St α), l.length = k → ids = l ++ r → Inv s ids → s.data = data → (∃ b, s.its[i]? = some ⟨lst 0 l, false, b⟩) → ∀ n, l.length < n →
    ∃ xs s', readAll n s i = .ok (xs, s') ∧ xs.map some = (l.map data).reverse ∧ Inv s' ids ∧ (∃ b, s'.its = s.its.set i ⟨0, false, b⟩) := by
  intro k
  induction k with
  | zero =>
    intro l r s hk hl h hdt hi n hn
    have hl0 : l = [] := List.length_eq_zero_iff.mp hk
    subst hl0
    obtain ⟨b, hi⟩ := hi
    refine ⟨[], s, ?_, rfl, h, b, ?_⟩
    · cases n with
      | zero => cases hn
      | succ n => simp [readAll, getNext_end hi rfl]
    · obtain ⟨hlt, he⟩ := List.getElem?_eq_some_iff.mp hi
      show s.its = s.its.set i ⟨0, false, b⟩
      rw [show (⟨0, false, b⟩ : It) = s.its[i] from he.symm]
      simp
  | succ k ih =>
    intro l r s hk hl h hdt hi n hn
    obtain ⟨l', c, rfl⟩ : ∃ l' c, l = l' ++ [c] := by
      rcases List.eq_nil_or_concat l with h | ⟨l', c, h⟩
      · rw [h] at hk; cases hk
      · exact ⟨l', c, by rw [h, List.concat_eq_append]⟩
    obtain ⟨b, hi⟩ := hi
    rw [lst_snoc] at hi
    have hc0 : c ≠ 0 := by
      intro e
      refine (List.nodup_cons.mp h.nodup).1 ?_
      rw [hl, e]
      simp
    obtain ⟨x, s1, hx, hg, h1, hi1, hnx, hpv, hdt1⟩ := getNext_ok h hi hc0
    have e : s.pv c = lst 0 l' := (chain_edge l' (c :: r) 0 0 (by rw [hl] at h; have := h.chain; rwa [List.append_assoc] at this)).2
    have hi1' : s1.its = s.its.set i ⟨lst 0 l', false, false⟩ := by rw [hi1]; show s.its.set i ⟨s.pv c, false, false⟩ = _; rw [e]
    cases n with
    | zero => cases hn
    | succ n =>
      have hlt := (List.getElem?_eq_some_iff.mp hi).1
      have hlen : l'.length = k := by simpa using hk
      obtain ⟨xs, s2, hr, hxs, h2, b', hi2⟩ := ih l' (c :: r) s1 hlen (by rw [hl]; simp) h1 (by rw [hdt1, hdt]) ⟨false, by rw [hi1']; simp [hlt]⟩ n (by simp at hn; omega)
      refine ⟨x :: xs, s2, ?_, ?_, h2, b', ?_⟩
      · simp [readAll, hg, hr]
      · rw [List.map_cons, hxs, List.map_append, List.reverse_append, ← hx, hdt]
        rfl
      · rw [hi2, hi1', List.set_set]

/-- C129: an iterator from `getFwIter` reads the data of the items in order, one from `getBkIter` in reverse order. -/
theorem C129_read {s : St α} {ids : List Nat} (h : Inv s ids) :
    (∃ s1 xs s2, getFwIter s = .ok s1 ∧ readAll (ids.length + 1) s1 s.its.length = .ok (xs, s2) ∧ xs.map some = ids.map s.data ∧ Inv s2 ids) ∧
    (∃ s1 xs s2, getBkIter s = .ok s1 ∧ readAll (ids.length + 1) s1 s.its.length = .ok (xs, s2) ∧ xs.map some = (ids.map s.data).reverse ∧ Inv s2 ids) := by
  have l0 := h.ring_live (n := 0) List.mem_cons_self
  constructor
  · obtain ⟨s1, hn, h1, hi1, hnx, hpv, hdt⟩ := newIter_ok h ⟨s.nx 0, true, true⟩ (h.step_live l0 true)
    have e : s.nx 0 = hd ids 0 := (chain_edge [] ids 0 0 h.chain).1
    obtain ⟨xs, s2, hr, hx, h2, _⟩ := readAll_fwd (i := s.its.length) (data := s.data) ids [] s1 rfl h1 hdt ⟨true, by rw [hi1, e]; simp⟩ (ids.length + 1) (Nat.lt_succ_self _)
    exact ⟨s1, xs, s2, hn, hr, hx, h2⟩
  · obtain ⟨s1, hn, h1, hi1, hnx, hpv, hdt⟩ := newIter_ok h ⟨s.pv 0, false, false⟩ (h.step_live l0 false)
    have e : s.pv 0 = lst 0 ids := (chain_edge ids [] 0 0 (by rw [List.append_nil]; exact h.chain)).2
    obtain ⟨xs, s2, hr, hx, h2, _⟩ := readAll_bk (i := s.its.length) (data := s.data) ids.length ids [] s1 rfl (by simp) h1 hdt ⟨false, by rw [hi1, e]; simp⟩ (ids.length + 1) (Nat.lt_succ_self _)
    exact ⟨s1, xs, s2, hn, hr, hx, h2⟩

/-! ## Walks -/

theorem step_fwd {s : St α} {l r : List Nat} {c : Nat} (h : Inv s (l ++ c :: r)) : c ≠ 0 ∧ s.live c = true ∧ s.live (s.nx c) = true ∧ s.nx c = hd r 0 := by
  have hm : c ∈ 0 :: (l ++ c :: r) := by simp
  have hl := h.ring_live hm
  refine ⟨fun e => (List.nodup_cons.mp h.nodup).1 (by rw [← e]; simp), hl, h.step_live hl true, ?_⟩
  have := (chain_edge (l ++ [c]) r 0 0 (by rw [List.append_assoc]; exact h.chain)).1
  rwa [lst_snoc] at this

theorem walk_found {s : St α} : ∀ (m l r : List Nat), m ≠ [] → Inv s (l ++ (m ++ r)) → ∀ fuel, m.length ≤ fuel → distWalk s true (hd r 0) fuel (hd (m ++ r) 0) = .ok (some m.length) := by
  intro m
  induction m with
  | nil => intro l r h; exact absurd rfl h
  | cons c m ih =>
    intro l r _ h fuel hf
    obtain ⟨c0, l1, l2, e⟩ := step_fwd h
    cases fuel with
    | zero => cases hf
    | succ fuel =>
      show distWalk s true (hd r 0) (fuel + 1) c = _
      have e' : step s true c = hd (m ++ r) 0 := e
      have l2' : s.live (step s true c) = true := l2
      cases m with
      | nil =>
        simp only [distWalk, if_neg c0]
        rw [if_pos ⟨l1, l2'⟩, if_pos (show step s true c = hd r 0 from e')]
        rfl
      | cons d m =>
        have hne : ¬ step s true c = hd r 0 := by
          rw [e']
          show d ≠ hd r 0
          intro hd'
          have hn := h.nodup
          rw [List.nodup_cons] at hn
          have hm := hd_mem r 0
          rw [← hd'] at hm
          rcases List.mem_append.mp hm with hm | hm
          · have := hn.2
            rw [List.nodup_append] at this
            have := this.2.1
            simp at this
            exact this.2.1.2 hm
          · simp at hm
            exact hn.1 (by rw [hm]; simp)
        have := ih (l ++ [c]) r (by simp) (by rw [List.append_assoc]; exact h) fuel (Nat.le_of_succ_le_succ hf)
        simp only [distWalk, if_neg c0]
        rw [if_pos ⟨l1, l2'⟩, if_neg hne, e', this]
        rfl

theorem walk_not_found {s : St α} {t : Nat} (ht : t ≠ 0) : ∀ (r l : List Nat), t ∉ r → Inv s (l ++ r) → ∀ fuel, r.length < fuel → distWalk s true t fuel (hd r 0) = .ok none := by
  intro r
  induction r with
  | nil =>
    intro l _ h fuel hf
    cases fuel with
    | zero => cases hf
    | succ fuel => simp [distWalk, hd]
  | cons c r ih =>
    intro l htr h fuel hf
    obtain ⟨c0, l1, l2, e⟩ := step_fwd h
    cases fuel with
    | zero => cases hf
    | succ fuel =>
      show distWalk s true t (fuel + 1) c = _
      have e' : step s true c = hd r 0 := e
      have l2' : s.live (step s true c) = true := l2
      have hne : ¬ step s true c = t := by
        rw [e']
        intro hd'
        have hm := hd_mem r 0
        rw [hd'] at hm
        rcases List.mem_append.mp hm with hm | hm
        · exact htr (List.mem_cons_of_mem _ hm)
        · simp at hm
          exact ht hm
      have := ih (l ++ [c]) (fun hm => htr (List.mem_cons_of_mem _ hm)) (by rw [List.append_assoc]; exact h) fuel (Nat.lt_of_succ_lt_succ hf)
      simp only [distWalk, if_neg c0]
      rw [if_pos ⟨l1, l2'⟩, if_neg hne, e', this]

/-- C129 `lessThan`, `distance` of two forward iterators with the items `m` between them: the number of these items, from both sides. -/
theorem C129_distance {s : St α} {l m r : List Nat} (h : Inv s (l ++ (m ++ r))) (hm : m ≠ []) (b1 b2 : Bool) (fuel : Nat) (hf : (m ++ r).length < fuel) :
    lessThan s fuel ⟨hd (m ++ r) 0, true, b1⟩ ⟨hd r 0, true, b2⟩ = .ok true ∧ lessThan s fuel ⟨hd r 0, true, b2⟩ ⟨hd (m ++ r) 0, true, b1⟩ = .ok false ∧
    distance s fuel ⟨hd (m ++ r) 0, true, b1⟩ ⟨hd r 0, true, b2⟩ = .ok m.length ∧ distance s fuel ⟨hd r 0, true, b2⟩ ⟨hd (m ++ r) 0, true, b1⟩ = .ok m.length := by
  have w1 := walk_found m l r hm h fuel (by simp at hf; omega)
  have hn := h.nodup
  rw [List.nodup_cons] at hn
  obtain ⟨c, m', rfl⟩ : ∃ c m', m = c :: m' := by
    cases m with
    | nil => exact absurd rfl hm
    | cons c m' => exact ⟨c, m', rfl⟩
  have c0 : c ≠ 0 := (step_fwd h).1
  have hcr : c ∉ r := by
    have := hn.2
    rw [List.nodup_append] at this
    have := this.2.1
    simp at this
    exact this.1.2
  have w2 : distWalk s true c fuel (hd r 0) = .ok none := walk_not_found c0 r (l ++ c :: m') hcr (by rw [List.append_assoc]; exact h) fuel (by simp at hf; omega)
  have hne : c ≠ hd r 0 := by
    intro e
    have hm := hd_mem r 0
    rw [← e] at hm
    rcases List.mem_append.mp hm with hm | hm
    · exact hcr hm
    · simp at hm
      exact c0 hm
  have w1' : distWalk s true (hd r 0) fuel c = .ok (some (c :: m').length) := w1
  refine ⟨?_, ?_, ?_, ?_⟩
  · show lessThan s fuel ⟨c, true, b1⟩ _ = _
    simp only [lessThan, w1']
    rfl
  · show lessThan s fuel _ ⟨c, true, b1⟩ = _
    simp only [lessThan, w2]
    rfl
  · show distance s fuel ⟨c, true, b1⟩ _ = _
    simp only [distance, if_neg hne, w1']
  · show distance s fuel _ ⟨c, true, b1⟩ = _
    simp only [distance, if_neg (Ne.symm hne), w2, w1']

/-- C129 `distance` of one place is 0; from the end, in any direction, to a forward iterator it is the number of items from there on. -/
theorem C129_distance_end {s : St α} {l m : List Nat} (h : Inv s (l ++ m)) (hm : m ≠ []) (f b1 b2 : Bool) (fuel : Nat) (hf : m.length < fuel) :
    distance s fuel ⟨0, f, b1⟩ ⟨hd m 0, true, b2⟩ = .ok m.length ∧ ∀ a b : It, a.pos = b.pos → distance s fuel a b = .ok 0 := by
  refine ⟨?_, fun a b e => by simp only [distance, if_pos e]⟩
  have w1 := walk_found m l [] hm (by rw [List.append_nil]; exact h) fuel (by omega)
  rw [List.append_nil] at w1
  have w1' : distWalk s true 0 fuel (hd m 0) = .ok (some m.length) := w1
  have hne : ¬ (0 : Nat) = hd m 0 := by
    cases m with
    | nil => exact absurd rfl hm
    | cons c m => exact Ne.symm (step_fwd h).1
  have w0 : distWalk s f (hd m 0) fuel 0 = .ok none := by
    cases fuel with
    | zero => cases hf
    | succ fuel => simp [distWalk]
  simp only [distance, if_neg hne, w0, w1']

theorem seek_started {s : St α} : ∀ (r l : List Nat) (k : Nat) (b : Bool), Inv s (l ++ r) → (b = false → r ≠ []) → ∀ fuel, r.length < fuel → seekFrom s true fuel k b (hd r 0) = .ok (min k r.length, hd (r.drop k) 0) := by
  intro r
  induction r with
  | nil =>
    intro l k b h hb fuel hf
    cases fuel with
    | zero => cases hf
    | succ fuel =>
      cases b with
      | false => exact absurd rfl (hb rfl)
      | true => simp [seekFrom, hd]
  | cons c r ih =>
    intro l k b h hb fuel hf
    obtain ⟨c0, l1, l2, e⟩ := step_fwd h
    cases fuel with
    | zero => cases hf
    | succ fuel =>
      cases k with
      | zero => simp [seekFrom]
      | succ k =>
        have e' : step s true c = hd r 0 := e
        have l2' : s.live (step s true c) = true := l2
        have := ih (l ++ [c]) k true (by rw [List.append_assoc]; exact h) (by simp) fuel (Nat.lt_of_succ_lt_succ hf)
        show seekFrom s true (fuel + 1) (k + 1) b c = _
        simp only [seekFrom]
        rw [if_pos ⟨Or.inl c0, by omega⟩, if_pos ⟨l1, l2'⟩, e']
        simp only [Nat.add_sub_cancel, this]
        simp

/-- C129 `seek` forward from an item: up to `k` steps, not beyond the end; the number of steps made. -/
theorem C129_seek {s : St α} {l r : List Nat} (h : Inv s (l ++ r)) (hr : r ≠ []) (k : Nat) : seekFrom s true (r.length + 1) k false (hd r 0) = .ok (min k r.length, hd (r.drop k) 0) :=
  seek_started r l k false h (fun _ => hr) _ (Nat.lt_succ_self _)

/-- C129 `seek` forward from the end comes to the begin. -/
theorem C129_seek_end {s : St α} {ids : List Nat} (h : Inv s ids) (k : Nat) : seekFrom s true (ids.length + 2) (k + 1) false 0 = .ok (min k ids.length + 1, hd (ids.drop k) 0) := by
  have l0 := h.ring_live (n := 0) List.mem_cons_self
  have l1 : s.live (step s true 0) = true := h.step_live l0 true
  have e : step s true 0 = hd ids 0 := (chain_edge [] ids 0 0 h.chain).1
  have := seek_started ids [] k true h (by simp) (ids.length + 1) (Nat.lt_succ_self _)
  have unf : ∀ f, seekFrom s true (f + 1) (k + 1) false 0 = if ((0 : Nat) ≠ 0 ∨ false = false) ∧ k + 1 > 0 then (if s.live 0 = true ∧ s.live (step s true 0) = true then (match seekFrom s true f (k + 1 - 1) true (step s true 0) with | .error e => .error e | .ok (k, p) => .ok (k + 1, p)) else .error .ub) else .ok (0, 0) := fun f => rfl
  show seekFrom s true (ids.length + 1 + 1) (k + 1) false 0 = _
  rw [unf]
  rw [if_pos ⟨Or.inr rfl, by omega⟩, if_pos ⟨l0, l1⟩, e]
  simp only [Nat.add_sub_cancel, this]

/-! ## What fails -/

/-- C129 fails: `getRemain(dir)` forward is 2^64 - 1 minus the number of items that remain. -/
theorem C129_getRemain_violated {s : St α} {l r : List Nat} (h : Inv s (l ++ r)) (hr : r ≠ []) (hl : r.length < 2 ^ 63) (b : Bool) :
    ∃ n, getRemainDir s (r.length + 1) ⟨hd r 0, true, b⟩ true = .ok n ∧ n ≠ r.length ∧ n = 2 ^ 64 - 1 - r.length := by
  refine ⟨2 ^ 64 - 1 - r.length, ?_, by omega, rfl⟩
  simp only [getRemainDir, C129_seek h hr]
  rw [Nat.min_eq_right (by omega)]

/-- C129 fails: `getRemain()` is undefined behaviour, always. -/
theorem C129_getRemain_ub_violated (s : St α) (it : It) : getRemain s it = .error .ub := rfl

/-- C129 fails: `oneItem` is true for an empty list, too. -/
theorem C129_oneItem_violated : ∃ s : St α, Inv s [] ∧ oneItem s = true := ⟨empty, empty_inv, rfl⟩

/-- C129 `oneItem` of a list that is not empty. -/
theorem C129_oneItem_partial {s : St α} {ids : List Nat} (h : Inv s ids) (hne : ids ≠ []) : oneItem s = true ↔ ids.length = 1 := by
  have e1 : s.nx 0 = hd ids 0 := (chain_edge [] ids 0 0 h.chain).1
  have e2 : s.pv 0 = lst 0 ids := (chain_edge ids [] 0 0 (by rw [List.append_nil]; exact h.chain)).2
  simp only [oneItem, e1, e2, decide_eq_true_eq]
  cases ids with
  | nil => exact absurd rfl hne
  | cons c r =>
    cases r with
    | nil => simp [hd, lst]
    | cons d r =>
      have hn := (List.nodup_cons.mp (List.nodup_cons.mp h.nodup).2).1
      have := lst_mem r d
      constructor
      · intro e
        have e : c = lst d r := e
        rw [← e] at this
        exact absurd this hn
      · intro e
        simp at e

/-- An iterator on an item that was erased through another one: `getNext` gives this item again and again. -/
theorem C129_detached_violated {s : St α} {ids : List Nat} (h : Inv s ids) {i : Nat} {it : It} (hi : s.its[i]? = some it) (hd : it.pos ∉ 0 :: ids) :
    ∃ x, s.data it.pos = some x ∧ ∀ n, ∃ s', readAll n s i = .ok (List.replicate n x, s') := by
  have h0 : it.pos ≠ 0 := fun e => hd (by rw [e]; exact List.mem_cons_self)
  obtain ⟨x, hx⟩ := h.dat _ (h.it_live hi) h0
  refine ⟨x, hx, fun n => ?_⟩
  have key : ∀ n (s : St α) (it : It), Inv s ids → s.its[i]? = some it → it.pos ∉ 0 :: ids → s.data it.pos = some x → ∃ s', readAll n s i = .ok (List.replicate n x, s') := by
    intro n
    induction n with
    | zero => intro s it _ _ _ _; exact ⟨s, rfl⟩
    | succ n ih =>
      intro s it h hi hd hx
      have h0 : it.pos ≠ 0 := fun e => hd (by rw [e]; exact List.mem_cons_self)
      obtain ⟨y, s1, hy, hg, h1, hi1, _, _, hdt⟩ := getNext_ok h hi h0
      obtain ⟨d1, d2⟩ := h.det _ (h.it_live hi) hd
      have e : step s it.fwd it.pos = it.pos := by
        unfold step
        split
        · exact d1
        · exact d2
      rw [e] at hi1
      have hlt := (List.getElem?_eq_some_iff.mp hi).1
      have hxy : y = x := by
        rw [hy] at hx
        injection hx
      subst hxy
      obtain ⟨s2, hr⟩ := ih s1 { it with pos := it.pos, last := it.fwd } h1 (by rw [hi1]; simp [hlt]) hd (by rw [hdt]; exact hx)
      refine ⟨s2, ?_⟩
      simp only [readAll, hg, hr]
      rfl
  exact key n s it h hi hd hx

/-- One item and a forward iterator on it. -/
def one : Except Fail (St Nat) := addBack empty 7 >>= getFwIter

/-- C129 fails: erasing twice through one iterator: the size is 2^64 - 1 then, and when the iterators end, memory that was given back is used. -/
theorem C129_erase_twice_violated : (∃ s, (one >>= fun s => erase s 0 >>= fun s => erase s 0) = .ok s ∧ s.count = 2 ^ 64 - 1) ∧
    (one >>= fun s => erase s 0 >>= fun s => erase s 0 >>= fun s => dropIter s 0 >>= fun s => dropIter s 1) = .error .ub := by
  refine ⟨⟨_, rfl, ?_⟩, rfl⟩
  decide +kernel

/-! ## Examples -/

/-- Every place of the list is one where `C129_insertAfter`, `C129_insertBefore` and `C129_erase` apply. -/
theorem C129_places {ids : List Nat} {n : Nat} (h : n ∈ 0 :: ids) : (∃ l r, ids = l ++ r ∧ lst 0 l = n) ∧ (∃ l r, ids = l ++ r ∧ hd r 0 = n) := by
  rcases List.mem_cons.mp h with rfl | h
  · exact ⟨⟨[], ids, rfl, rfl⟩, ids, [], by simp, rfl⟩
  · obtain ⟨l, r, rfl⟩ := List.append_of_mem h
    exact ⟨⟨l ++ [n], r, by simp, lst_snoc l 0 n⟩, l, n :: r, rfl, rfl⟩

/-- 1, 2, 3 by `addBack`, `addFront` and `insertBefore`; reading them forward. -/
example : ∃ s, (addBack (empty : St Nat) 1 >>= fun s => addBack s 3 >>= fun s => insertBefore s 2 2 >>= getFwIter >>= fun s => readAll 4 s 0) = .ok ([1, 2, 3], s) ∧ s.count = 3 := ⟨_, rfl, by decide +kernel⟩

/-- Erasing the second of three; the returned iterator reads the third one. -/
example : ∃ s, (addBack (empty : St Nat) 1 >>= fun s => addBack s 2 >>= fun s => addBack s 3 >>= getFwIter >>= fun s => getNext s 0 >>= fun p => erase p.2 0 >>= fun s => readAll 4 s 1) = .ok ([3], s) ∧ s.count = 2 := ⟨_, rfl, by decide +kernel⟩

end LS.RingList
